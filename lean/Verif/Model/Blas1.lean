import Verif.Model.BlasMem
import Mathlib.Algebra.Star.Basic

/-!
# Model of the generic level-1 routines of cxxblas (librapid/cxxblas/level1, level1extensions)

The scalars are a commutative ring (a field where the code divides) with a conjugation `star`; it is the identity for real
types. A running index `iX` that starts at 0 and grows by `incX` in pass `i` is written `i * incX`.
-/

namespace Verif.Blas

variable {K : Type}

/-- `if (incX < 0) { x -= incX * (n - 1); }`, at the head of every level-1 routine (e.g. level1/axpy.tcc 53). -/
def start (n : Nat) (x inc : Int) : Int := if inc < 0 then x - inc * ((n : Int) - 1) else x

/-- level1/copy.tcc 40-52. -/
def copy (n : Nat) (x incX y incY : Int) : M K Unit :=
  let x := start n x incX
  let y := start n y incY
  loop n fun i => do
    let v ← load (x + i * incX)
    store (y + i * incY) v

/-- level1extensions/ccopy.tcc 41-57. -/
def ccopy [Star K] (n : Nat) (x incX y incY : Int) : M K Unit :=
  let x := start n x incX
  let y := start n y incY
  loop n fun i => do
    let v ← load (x + i * incX)
    store (y + i * incY) (star v)

/-- level1/swap.tcc 40-52; `std::swap` of the two elements. -/
def swap (n : Nat) (x incX y incY : Int) : M K Unit :=
  let x := start n x incX
  let y := start n y incY
  loop n fun i => do
    let v ← load (x + i * incX)
    let w ← load (y + i * incY)
    store (x + i * incX) w
    store (y + i * incY) v

/-- level1/axpy.tcc 41-48: `axpy_generic`, the pointers already adjusted. -/
def axpyGeneric [Mul K] [Add K] (n : Nat) (alpha : K) (x incX y incY : Int) : M K Unit :=
  loop n fun i => do
    let v ← load (x + i * incX)
    let w ← load (y + i * incY)
    store (y + i * incY) (w + alpha * v)

/-- level1/axpy.tcc 50-55. -/
def axpy [Mul K] [Add K] (n : Nat) (alpha : K) (x incX y incY : Int) : M K Unit :=
  axpyGeneric n alpha (start n x incX) incX (start n y incY) incY

/-- level1extensions/acxpy.tcc 41-49: `acxpy_generic`. -/
def acxpyGeneric [Mul K] [Add K] [Star K] (n : Nat) (alpha : K) (x incX y incY : Int) : M K Unit :=
  loop n fun i => do
    let v ← load (x + i * incX)
    let w ← load (y + i * incY)
    store (y + i * incY) (w + alpha * star v)

/-- level1extensions/acxpy.tcc 51-56. -/
def acxpy [Mul K] [Add K] [Star K] (n : Nat) (alpha : K) (x incX y incY : Int) : M K Unit :=
  acxpyGeneric n alpha (start n x incX) incX (start n y incY) incY

/-- level1extensions/raxpy.tcc 41-56. -/
def raxpy [Div K] [Add K] (n : Nat) (alpha : K) (x incX y incY : Int) : M K Unit :=
  let x := start n x incX
  let y := start n y incY
  loop n fun i => do
    let v ← load (x + i * incX)
    let w ← load (y + i * incY)
    store (y + i * incY) (w + v / alpha)

/-- level1extensions/racxpy.tcc 41-57. -/
def racxpy [Div K] [Add K] [Star K] (n : Nat) (alpha : K) (x incX y incY : Int) : M K Unit :=
  let x := start n x incX
  let y := start n y incY
  loop n fun i => do
    let v ← load (x + i * incX)
    let w ← load (y + i * incY)
    store (y + i * incY) (w + star v / alpha)

/-- level1/scal.tcc 40-45: `scal_generic`, the pointer already adjusted. -/
def scalGeneric [Mul K] (n : Nat) (alpha : K) (y incY : Int) : M K Unit :=
  loop n fun i => do
    let w ← load (y + i * incY)
    store (y + i * incY) (w * alpha)

/-- level1/scal.tcc 58-62. -/
def scal [Mul K] (n : Nat) (alpha : K) (y incY : Int) : M K Unit :=
  scalGeneric n alpha (start n y incY) incY

/-- level1/scal.tcc 47-56: `scal_init_generic`. -/
def scalInitGeneric [Mul K] [Zero K] [DecidableEq K] (n : Nat) (alpha : K) (y incY : Int) : M K Unit :=
  if alpha = 0 then loop n fun i => store (y + i * incY) 0
  else scalGeneric n alpha y incY

/-- level1/scal.tcc 64-68. -/
def scalInit [Mul K] [Zero K] [DecidableEq K] (n : Nat) (alpha : K) (y incY : Int) : M K Unit :=
  scalInitGeneric n alpha (start n y incY) incY

/-- level1extensions/rscal.tcc 41-52. -/
def rscal [Div K] (n : Nat) (alpha : K) (y incY : Int) : M K Unit :=
  let y := start n y incY
  loop n fun i => do
    let w ← load (y + i * incY)
    store (y + i * incY) (w / alpha)

/-- level1extensions/axpby.tcc 41-49 (the generic version). -/
def axpby [Mul K] [Add K] [Zero K] [DecidableEq K] (n : Nat) (alpha : K) (x incX : Int) (beta : K) (y incY : Int) :
    M K Unit := do
  scalInit n beta y incY
  axpy n alpha x incX y incY

/-- level1extensions/acxpby.tcc 41-49. -/
def acxpby [Mul K] [Add K] [Zero K] [Star K] [DecidableEq K] (n : Nat) (alpha : K) (x incX : Int) (beta : K)
    (y incY : Int) : M K Unit := do
  scalInit n beta y incY
  acxpy n alpha x incX y incY

/-- level1/rot.tcc 41-58: the rotation with a real sine. -/
def rot [Mul K] [Add K] [Neg K] (n : Nat) (x incX y incY : Int) (c s : K) : M K Unit :=
  let x := start n x incX
  let y := start n y incY
  loop n fun i => do
    let v ← load (x + i * incX)
    let w ← load (y + i * incY)
    store (x + i * incX) (c * v + s * w)
    store (y + i * incY) (-s * v + c * w)

/-- level1/rot.tcc 126-160: the rotation with a complex sine; the two branches differ only in how the index is written. -/
def crot [Mul K] [Add K] [Sub K] [Star K] (n : Nat) (x incX y incY : Int) (c s : K) : M K Unit :=
  let x := start n x incX
  let y := start n y incY
  if incX ≠ 1 ∨ incY ≠ 1 then
    loop n fun i => do
      let v ← load (x + i * incX)
      let w ← load (y + i * incY)
      store (y + i * incY) (c * w - star s * v)
      store (x + i * incX) (c * v + s * w)
  else
    loop n fun i => do
      let v ← load (x + i)
      let w ← load (y + i)
      store (y + i) (c * w - star s * v)
      store (x + i) (c * v + s * w)

/-- level1/dot.tcc 40-49: `dotu_generic`. -/
def dotuGeneric [Mul K] [Add K] [Zero K] (n : Nat) (x incX y incY : Int) : M K K :=
  fold n 0 fun i r => do
    let v ← load (x + i * incX)
    let w ← load (y + i * incY)
    pure (r + v * w)

/-- level1/dot.tcc 64-69. -/
def dotu [Mul K] [Add K] [Zero K] (n : Nat) (x incX y incY : Int) : M K K :=
  dotuGeneric n (start n x incX) incX (start n y incY) incY

/-- level1/dot.tcc 51-60: `dot_generic`. -/
def dotGeneric [Mul K] [Add K] [Zero K] [Star K] (n : Nat) (x incX y incY : Int) : M K K :=
  fold n 0 fun i r => do
    let v ← load (x + i * incX)
    let w ← load (y + i * incY)
    pure (r + star v * w)

/-- level1/dot.tcc 71-76. -/
def dot [Mul K] [Add K] [Zero K] [Star K] (n : Nat) (x incX y incY : Int) : M K K :=
  dotGeneric n (start n x incX) incX (start n y incY) incY

/-- level1/asum.tcc 41-57; `size z` is `abs(real(z)) + abs(imag(z))`. Also level1extensions/asum1.tcc, with `size z` the
modulus. -/
def asum {T : Type} [Add T] [Zero T] (size : K → T) (n : Nat) (x incX : Int) : M K T :=
  let x := start n x incX
  fold n 0 fun i r => do
    let v ← load (x + i * incX)
    pure (r + size v)

/-- level1/iamax.tcc 42-72: `iamax_generic`; `size` is `abs` or `abs1`. The pair is `iAbsMaxX`, `absMaxX`. -/
def iamaxGeneric {T : Type} [LT T] [DecidableLT T] (size : K → T) (n : Nat) (x incX : Int) : M K Nat := do
  let v ← load x
  let r ← fold n (0, size v) fun i r => do
    let w ← load (x + i * incX)
    pure (if r.2 < size w then (i, size w) else r)
  pure r.1

/-- level1/iamax.tcc 74-90; also level1extensions/imax1.tcc with `size` the modulus. -/
def iamax {T : Type} [LT T] [DecidableLT T] (size : K → T) (n : Nat) (x incX : Int) : M K Int :=
  let x := start n x incX
  if n = 0 then pure (-1)
  else do
    let i ← iamaxGeneric size n x incX
    pure i

end Verif.Blas
