import Verif.Model.Blas1Mat
import Verif.Model.BlasSparse

/-!
# Model of the routines of cxxblas for sizes fixed at compile time (librapid/cxxblas/tinylevel1, tinylevel2)

As in `Model/Blas1.lean`; sizes, increments and leading dimensions are template arguments. Pointers are not adjusted for negative
increments. `acxpby.tcc` defines a function of the name `acxpy` (40-41).
-/

namespace Verif.Blas

variable {K : Type}

/-- tinylevel1/copy.tcc 40-45: `y[iX] = x[iX]`. -/
def tinyCopy (n : Nat) (x incX y _incY : Int) : M K Unit :=
  loop n fun i => do
    let v ← load (x + i * incX)
    store (y + i * incX) v

/-- tinylevel1/ccopy.tcc 40-45: `y[iX] = conj(x[iX])`. -/
def tinyCcopy [Star K] (n : Nat) (x incX y _incY : Int) : M K Unit :=
  loop n fun i => do
    let v ← load (x + i * incX)
    store (y + i * incX) (star v)

/-- tinylevel1/axpy.tcc 40-47. -/
def tinyAxpy [Mul K] [Add K] (n : Nat) (alpha : K) (x incX y incY : Int) : M K Unit :=
  loop n fun i => do
    let v ← load (x + i * incX)
    let w ← load (y + i * incY)
    store (y + i * incY) (w + alpha * v)

/-- tinylevel1/acxpy.tcc 40-47. -/
def tinyAcxpy [Mul K] [Add K] [Star K] (n : Nat) (alpha : K) (x incX y incY : Int) : M K Unit :=
  loop n fun i => do
    let v ← load (x + i * incX)
    let w ← load (y + i * incY)
    store (y + i * incY) (w + alpha * star v)

/-- tinylevel1/axpby.tcc 40-47. -/
def tinyAxpby [Mul K] [Add K] (n : Nat) (alpha : K) (x incX : Int) (beta : K) (y incY : Int) : M K Unit :=
  loop n fun i => do
    let v ← load (x + i * incX)
    let w ← load (y + i * incY)
    store (y + i * incY) (beta * w + alpha * v)

/-- tinylevel1/acxpby.tcc 40-47. -/
def tinyAcxpby [Mul K] [Add K] [Star K] (n : Nat) (alpha : K) (x incX : Int) (beta : K) (y incY : Int) : M K Unit :=
  loop n fun i => do
    let v ← load (x + i * incX)
    let w ← load (y + i * incY)
    store (y + i * incY) (beta * w + alpha * star v)

/-- tinylevel1/scal.tcc 40-45: the index grows by one. -/
def tinyScal [Mul K] (n : Nat) (alpha : K) (y _incY : Int) : M K Unit :=
  loop n fun i => do
    let w ← load (y + i)
    store (y + i) (w * alpha)

/-- tinylevel1/rscal.tcc 40-45: the index grows by one. -/
def tinyRscal [Div K] (n : Nat) (alpha : K) (y _incY : Int) : M K Unit :=
  loop n fun i => do
    let w ← load (y + i)
    store (y + i) (w / alpha)

/-- tinylevel1/gecopy.tcc 43-68. `trans == Trans || trans == ConjTrans` copies without conjugation, `Conj` fails an assertion. -/
def tinyGecopy (t : Trans) (m n : Nat) (A ldA B ldB : Int) : M K Unit :=
  match t with
  | ⟨false, false⟩ =>
    if ldA = n ∧ ldB = n then tinyCopy (m * n) A 1 B 1 else loop m fun i => tinyCopy n (A + i * ldA) 1 (B + i * ldB) 1
  | ⟨_, true⟩ => loop m fun i => tinyCopy n (A + i) ldA (B + i * ldB) 1
  | ⟨true, false⟩ => assertFail

/-- tinylevel1/geaxpy.tcc 42-80. -/
def tinyGeaxpy [Mul K] [Add K] [Star K] (t : Trans) (m n : Nat) (alpha : K) (A ldA B ldB : Int) : M K Unit :=
  geRow (fun n => tinyAxpy n alpha) (fun n => tinyAcxpy n alpha) t m n A ldA B ldB

/-- tinylevel1/gescal.tcc 40-45. -/
def tinyGescal [Mul K] (m n : Nat) (alpha : K) (A ldA : Int) : M K Unit := loop m fun i => tinyScal n alpha (A + i * ldA) 1

/-- tinylevel1/gerscal.tcc 40-45. -/
def tinyGerscal [Div K] (m n : Nat) (alpha : K) (A ldA : Int) : M K Unit := loop m fun i => tinyRscal n alpha (A + i * ldA) 1

/-- `y[iY] *= beta`. For cxxblas/tinylevel2/gemv.tcc. -/
def scaleCell [Mul K] (beta : K) (a : Int) : M K Unit := do
  let w ← load a
  store a (w * beta)

/-- tinylevel2/gemv.tcc 40-101: `gemv_n` and `gemv_c` (40-62), `gemv_t` and `gemv_ct` (64-86). In the latter `iX` grows by `incY`. -/
def tinyGemv [Mul K] [Add K] [Star K] (t : Trans) (m n : Nat) (alpha : K) (A ldA x incX : Int) (beta : K) (y incY : Int) : M K Unit :=
  match t.trans with
  | false =>
    loop m fun i => do
      scaleCell beta (y + i * incY)
      loop n fun j => addTerm alpha (if t.conj then star else id) (y + i * incY) (A + (i * ldA + j)) (x + j * incX)
  | true => do
    loop n fun j => scaleCell beta (y + j * incY)
    loop m fun i => loop n fun j => addTerm alpha (if t.conj then star else id) (y + j * incY) (A + (i * ldA + j)) (x + i * incY)

end Verif.Blas
