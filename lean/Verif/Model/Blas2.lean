import Verif.Model.Blas1

/-!
# Model of the generic level-2 routines of cxxblas for dense matrices (librapid/cxxblas/level2, level2extensions)

Pointers, memory and scalars as in `Model/BlasMem.lean` and `Model/Blas1.lean`. The code repeats each loop with `dotu_generic`
and with `dot_generic` according to the conjugation bit; the model writes the loop once and chooses with `dotC`.
The parameter `re` is `cxxblas::real` as a value of the scalar type.
-/

namespace Verif.Blas

variable {K : Type}

/-- `dot_generic` (conjugates its first argument) or `dotu_generic`. For the routines of cxxblas/level2. -/
def dotC [Mul K] [Add K] [Zero K] [Star K] (conj : Bool) (n : Nat) (x incX y incY : Int) : M K K :=
  if conj then dotGeneric n x incX y incY else dotuGeneric n x incX y incY

/-- `acxpy_generic` (conjugates the added vector) or `axpy_generic`. For the routines of cxxblas/level2. -/
def axpyC [Mul K] [Add K] [Star K] (conj : Bool) (n : Nat) (alpha : K) (x incX y incY : Int) : M K Unit :=
  if conj then acxpyGeneric n alpha x incX y incY else axpyGeneric n alpha x incX y incY

/-- level2/gemv.tcc 54-82 (and 88-116): the inner product of a row of `op(A)` with `x`, by the bits `cA` of `transA` and `cX` of
`conjX`. -/
def rowDot [Mul K] [Add K] [Zero K] [Star K] (cA cX : Bool) (n : Nat) (a incA x incX : Int) : M K K :=
  match cX, cA with
  | false, true => dotGeneric n a incA x incX
  | false, false => dotuGeneric n a incA x incX
  | true, true => do
    let s ← dotuGeneric n a incA x incX
    pure (star s)
  | true, false => dotGeneric n x incX a incA

/-- `y[iY] += alpha * y_` with `y_` computed by `d`. For the routines of cxxblas/level2. -/
def addDot [Mul K] [Add K] (alpha : K) (d : M K K) (a : Int) : M K Unit := do
  let s ← d
  let w ← load a
  store a (w + alpha * s)

/-- level2/gemv.tcc 50-118: row-major. -/
def gemvRow [Mul K] [Add K] [Zero K] [Star K] [DecidableEq K] (t : Trans) (conjX : Bool) (m n : Nat) (alpha : K)
    (A ldA x incX : Int) (beta : K) (y incY : Int) : M K Unit :=
  if t.trans = false then
    let x := start n x incX
    let y := start m y incY
    do
      scalInitGeneric m beta y incY
      loop m fun i => addDot alpha (rowDot t.conj conjX n (A + i * ldA) 1 x incX) (y + i * incY)
  else
    let x := start m x incX
    let y := start n y incY
    do
      scalInitGeneric n beta y incY
      loop n fun i => addDot alpha (rowDot t.conj conjX m (A + i) ldA x incX) (y + i * incY)

/-- level2/gemv.tcc 42-118: `gemv_generic`. -/
def gemvGeneric [Mul K] [Add K] [Zero K] [Star K] [DecidableEq K] (o : Order) (t : Trans) (conjX : Bool) (m n : Nat)
    (alpha : K) (A ldA x incX : Int) (beta : K) (y incY : Int) : M K Unit :=
  match o with
  | .colMajor => gemvRow t.flip conjX n m alpha A ldA x incX beta y incY
  | .rowMajor => gemvRow t conjX m n alpha A ldA x incX beta y incY

/-- level2/gemv.tcc 124-131, and level2extensions/gemv.tcc 43-50, where `conjX` is an argument. -/
def gemv [Mul K] [Add K] [Zero K] [Star K] [DecidableEq K] (o : Order) (t : Trans) (conjX : Bool) (m n : Nat)
    (alpha : K) (A ldA x incX : Int) (beta : K) (y incY : Int) : M K Unit :=
  if m = 0 ∨ n = 0 then pure () else gemvGeneric o t conjX m n alpha A ldA x incX beta y incY

/-- level2/ger.tcc 52-54. -/
def geruRow [Mul K] [Add K] (m n : Nat) (alpha : K) (x incX y incY A ldA : Int) : M K Unit :=
  loop m fun i => do
    let v ← load (x + i * incX)
    axpyGeneric n (alpha * v) y incY (A + i * ldA) 1

/-- level2/ger.tcc 90-95, with `geru_generic` 42-55; `ger` is the same (84-87). -/
def geru [Mul K] [Add K] (o : Order) (m n : Nat) (alpha : K) (x incX y incY A ldA : Int) : M K Unit :=
  let x := start m x incX
  let y := start n y incY
  match o with
  | .colMajor => geruRow n m alpha y incY x incX A ldA
  | .rowMajor => geruRow m n alpha x incX y incY A ldA

/-- level2/ger.tcc 70-78, by the conjugation bit of `conjugateA`. -/
def gercRow [Mul K] [Add K] [Star K] (conj : Bool) (m n : Nat) (alpha : K) (x incX y incY A ldA : Int) : M K Unit :=
  if conj then
    loop m fun i => do
      let v ← load (x + i * incX)
      axpyGeneric n (alpha * star v) y incY (A + i * ldA) 1
  else
    loop m fun i => do
      let v ← load (x + i * incX)
      acxpyGeneric n (alpha * v) y incY (A + i * ldA) 1

/-- level2/ger.tcc 98-105, with `gerc_generic` 58-79. -/
def gerc [Mul K] [Add K] [Star K] (o : Order) (m n : Nat) (alpha : K) (x incX y incY A ldA : Int) : M K Unit :=
  let x := start m x incX
  let y := start n y incY
  match o with
  | .colMajor => gercRow true n m alpha y incY x incX A ldA
  | .rowMajor => gercRow false m n alpha x incX y incY A ldA

/-- `if (order == ColMajor) { upLo = (upLo == Upper) ? Lower : Upper; }`. For the routines of cxxblas/level2. -/
def effUpLo (o : Order) (u : UpLo) : UpLo :=
  match o with
  | .colMajor => u.flip
  | .rowMajor => u

/-- level2/symv.tcc 81-88, with `symv_generic` 47-75. -/
def symv [Mul K] [Add K] [Zero K] [DecidableEq K] (o : Order) (u : UpLo) (n : Nat) (alpha : K) (A ldA x incX : Int)
    (beta : K) (y incY : Int) : M K Unit :=
  let x := start n x incX
  let y := start n y incY
  match effUpLo o u with
  | .upper => do
    scalInitGeneric n beta y incY
    loop n fun i => addDot alpha (dotuGeneric (n - i) (A + i * ldA + i) 1 (x + i * incX) incX) (y + i * incY)
    loop n fun i => addDot alpha (dotuGeneric i (A + i) ldA x incX) (y + i * incY)
  | .lower => do
    scalInitGeneric n beta y incY
    loop n fun i => addDot alpha (dotuGeneric i (A + i * ldA) 1 x incX) (y + i * incY)
    loop n fun i => addDot alpha (dotuGeneric (n - i) (A + i * ldA + i) ldA (x + i * incX) incX) (y + i * incY)

/-- level2/hemv.tcc 53, 69, 87, 97: `y[iY] += alpha * real(A[i*ldA+i]) * x[iX]`. -/
def hemvDiag [Mul K] [Add K] (re : K → K) (alpha : K) (d x y : Int) : M K Unit := do
  let a ← load d
  let v ← load x
  let w ← load y
  store y (w + alpha * re a * v)

/-- `axpy_generic(n, alpha * x[iX], …)` or `acxpy_generic`: the factor is read first. For the routines of cxxblas/level2. -/
def axpyAt [Mul K] [Add K] [Star K] (conj : Bool) (n : Nat) (alpha : K) (xi a incA y incY : Int) : M K Unit := do
  let v ← load xi
  axpyC conj n (alpha * v) a incA y incY

/-- level2/hemv.tcc 42-107, by the conjugation bit after 45-48. -/
def hemvBody [Mul K] [Add K] [Zero K] [Star K] (re : K → K) (u : UpLo) (conj : Bool) (n : Nat) (alpha : K)
    (A ldA x incX y incY : Int) (i : Nat) : M K Unit :=
  match u with
  | .upper => do
    hemvDiag re alpha (A + i * ldA + i) (x + i * incX) (y + i * incY)
    addDot alpha (dotC conj (n - i - 1) (A + i * ldA + i + 1) 1 (x + i * incX + incX) incX) (y + i * incY)
    axpyAt (!conj) (n - i - 1) alpha (x + i * incX) (A + i * ldA + i + 1) 1 (y + i * incY + incY) incY
  | .lower => do
    hemvDiag re alpha (A + i * ldA + i) (x + i * incX) (y + i * incY)
    addDot alpha (dotC conj i (A + i * ldA) 1 x incX) (y + i * incY)
    axpyAt (!conj) i alpha (x + i * incX) (A + i * ldA) 1 y incY

/-- level2/hemv.tcc 42-120 (`conj = false`), and level2extensions/hemv.tcc 42-50, where `conj` is an argument. -/
def hemv [Mul K] [Add K] [Zero K] [Star K] [DecidableEq K] (re : K → K) (o : Order) (u : UpLo) (conj : Bool) (n : Nat)
    (alpha : K) (A ldA x incX : Int) (beta : K) (y incY : Int) : M K Unit :=
  let x := start n x incX
  let y := start n y incY
  let c := if o = .colMajor then !conj else conj
  do
    scalInitGeneric n beta y incY
    loop n (hemvBody re (effUpLo o u) c n alpha A ldA x incX y incY)

/-- level2/syr.tcc 64-70, with `syr_generic` 42-61. -/
def syr [Mul K] [Add K] (o : Order) (u : UpLo) (n : Nat) (alpha : K) (x incX A ldA : Int) : M K Unit :=
  let x := start n x incX
  match effUpLo o u with
  | .upper => loop n fun i => do
    let v ← load (x + i * incX)
    axpyGeneric (n - i) (alpha * v) (x + i * incX) incX (A + i * (ldA + 1)) 1
  | .lower => loop n fun i => do
    let v ← load (x + i * incX)
    axpyGeneric (i + 1) (alpha * v) x incX (A + i * ldA) 1

/-- level2/syr2.tcc 53-63. -/
def syr2Row [Mul K] [Add K] (u : UpLo) (n : Nat) (alpha : K) (x incX y incY A ldA : Int) : M K Unit :=
  match u with
  | .upper => loop n fun i => do
    let v ← load (x + i * incX)
    axpyGeneric (n - i) (alpha * v) (y + i * incY) incY (A + i * (ldA + 1)) 1
    let w ← load (y + i * incY)
    axpyGeneric (n - i) (alpha * w) (x + i * incX) incX (A + i * (ldA + 1)) 1
  | .lower => loop n fun i => do
    let v ← load (x + i * incX)
    axpyGeneric (i + 1) (alpha * v) y incY (A + i * ldA) 1
    let w ← load (y + i * incY)
    axpyGeneric (i + 1) (alpha * w) x incX (A + i * ldA) 1

/-- level2/syr2.tcc 67-74, with `syr2_generic` 42-64: for column-major order the vectors are exchanged. -/
def syr2 [Mul K] [Add K] (o : Order) (u : UpLo) (n : Nat) (alpha : K) (x incX y incY A ldA : Int) : M K Unit :=
  let x := start n x incX
  let y := start n y incY
  match o with
  | .colMajor => syr2Row u.flip n alpha y incY x incX A ldA
  | .rowMajor => syr2Row u n alpha x incX y incY A ldA

/-- level2/her.tcc 80 and her2.tcc 99: the imaginary parts of the diagonal are removed. -/
def realDiag (re : K → K) (n : Nat) (A ldA : Int) : M K Unit :=
  loop n fun i => do
    let a ← load (A + i * ldA + i)
    store (A + i * ldA + i) (re a)

/-- level2/her.tcc 55-60 and 63-66 (72 and 76): one row, by the conjugation bit. -/
def herRow [Mul K] [Add K] [Star K] (conj : Bool) (k : Nat) (alpha : K) (xi x incX a : Int) : M K Unit := do
  let v ← load xi
  if conj then axpyGeneric k (alpha * star v) x incX a 1 else acxpyGeneric k (alpha * v) x incX a 1

/-- level2/her.tcc 84-90 (`conj = false`), with `her_generic` 42-81, and level2extensions/her.tcc 42-48. -/
def her [Mul K] [Add K] [Zero K] [Star K] [DecidableEq K] (re : K → K) (o : Order) (u : UpLo) (conj : Bool) (n : Nat)
    (alpha : K) (x incX A ldA : Int) : M K Unit :=
  let x := start n x incX
  let c := if o = .colMajor then !conj else conj
  if alpha = 0 then pure ()
  else
    match effUpLo o u with
    | .upper => do
      loop n fun i => herRow c (n - i) alpha (x + i * incX) (x + i * incX) incX (A + i * (ldA + 1))
      realDiag re n A ldA
    | .lower => do
      loop n fun i => herRow c (i + 1) alpha (x + i * incX) x incX (A + i * ldA)
      realDiag re n A ldA

/-- level2/her2.tcc 58-69 and 73-80 (86-89 and 93-95): one row, by the conjugation bit. -/
def her2Row [Mul K] [Add K] [Star K] (conj : Bool) (k : Nat) (alpha : K) (xi x incX yi y incY a : Int) : M K Unit := do
  let v ← load xi
  if conj then
    axpyGeneric k (star (alpha * v)) y incY a 1
    let w ← load yi
    axpyGeneric k (alpha * star w) x incX a 1
  else
    acxpyGeneric k (alpha * v) y incY a 1
    let w ← load yi
    acxpyGeneric k (star alpha * w) x incX a 1

/-- level2/her2.tcc 103-110 (`conj = false`), with `her2_generic` 42-100, and level2extensions/her2.tcc. -/
def her2 [Mul K] [Add K] [Zero K] [Star K] [DecidableEq K] (re : K → K) (o : Order) (u : UpLo) (conj : Bool) (n : Nat)
    (alpha : K) (x incX y incY A ldA : Int) : M K Unit :=
  let x := start n x incX
  let y := start n y incY
  let c := if o = .colMajor then !conj else conj
  if alpha = 0 then pure ()
  else
    match effUpLo o u with
    | .upper => do
      loop n fun i =>
        her2Row c (n - i) alpha (x + i * incX) (x + i * incX) incX (y + i * incY) (y + i * incY) incY (A + i * (ldA + 1))
      realDiag re n A ldA
    | .lower => do
      loop n fun i => her2Row c (i + 1) alpha (x + i * incX) x incX (y + i * incY) y incY (A + i * ldA)
      realDiag re n A ldA

/-- `x[iX] = x_` with `x_` computed by `d`. For the routines of cxxblas/level2. -/
def setDot (d : M K K) (a : Int) : M K Unit := do
  let s ← d
  store a s

/-- `x[iX] += x_`. For the routines of cxxblas/level2. -/
def incDot [Add K] (d : M K K) (a : Int) : M K Unit := do
  let s ← d
  let w ← load a
  store a (w + s)

/-- level2/trmv.tcc 50-187: row-major; `c` is the conjugation bit. -/
def trmvRow [Mul K] [Add K] [Zero K] [Star K] (u : UpLo) (trans c : Bool) (d : Diag) (n : Nat) (A ldA x incX : Int) :
    M K Unit :=
  let x := start n x incX
  match trans, u, d with
  | false, .upper, .nonUnit =>
    loop n fun i => setDot (dotC c (n - i) (A + i * (ldA + 1)) 1 (x + i * incX) incX) (x + i * incX)
  | false, .upper, .unit =>
    loop (n - 1) fun i =>
      incDot (dotC c (n - i - 1) (A + i * (ldA + 1) + 1) 1 (x + i * incX + incX) incX) (x + i * incX)
  | false, .lower, .nonUnit =>
    loopDown n fun i => setDot (dotC c (i + 1) (A + i * ldA) 1 x incX) (x + i * incX)
  | false, .lower, .unit =>
    loopDown (n - 1) fun k =>
      incDot (dotC c (k + 1) (A + ((k + 1 : Nat) : Int) * ldA) 1 x incX) (x + ((k + 1 : Nat) : Int) * incX)
  | true, .upper, .nonUnit =>
    loopDown n fun i => setDot (dotC c (i + 1) (A + i) ldA x incX) (x + i * incX)
  | true, .upper, .unit =>
    loopDown (n - 1) fun k =>
      incDot (dotC c (k + 1) (A + ((k + 1 : Nat) : Int)) ldA x incX) (x + ((k + 1 : Nat) : Int) * incX)
  | true, .lower, .nonUnit =>
    loop n fun i => setDot (dotC c (n - i) (A + i * (ldA + 1)) ldA (x + i * incX) incX) (x + i * incX)
  | true, .lower, .unit =>
    loop (n - 1) fun i =>
      incDot (dotC c (n - i - 1) (A + i * (ldA + 1) + ldA) ldA (x + i * incX + incX) incX) (x + i * incX)

/-- level2/trmv.tcc 191-196, with `trmv_generic` 41-188. -/
def trmv [Mul K] [Add K] [Zero K] [Star K] (o : Order) (u : UpLo) (t : Trans) (d : Diag) (n : Nat) (A ldA x incX : Int) :
    M K Unit :=
  match o with
  | .colMajor => trmvRow u.flip t.flip.trans t.flip.conj d n A ldA x incX
  | .rowMajor => trmvRow u t.trans t.conj d n A ldA x incX

/-- `x[iX] -= x_; x[iX] /= A[i*(ldA+1)]` (conjugated with the conjugation bit); for a unit diagonal only the first. -/
def subDot [Sub K] [Div K] [Star K] (c : Bool) (d : Diag) (s : M K K) (a dg : Int) : M K Unit := do
  let s ← s
  let w ← load a
  store a (w - s)
  match d with
  | .unit => pure ()
  | .nonUnit => do
    let w ← load a
    let v ← load dg
    store a (w / if c then star v else v)

/-- level2/trsv.tcc 48-205: after 43-46; `c` is the conjugation bit. -/
def trsvRow [Mul K] [Add K] [Sub K] [Div K] [Zero K] [Star K] (u : UpLo) (trans c : Bool) (d : Diag) (n : Nat)
    (A ldA x incX : Int) : M K Unit :=
  let x := start n x incX
  match trans, u with
  | false, .upper =>
    loopDown n fun i =>
      subDot c d (dotC c (n - i - 1) (A + i * (ldA + 1) + 1) 1 (x + i * incX + incX) incX) (x + i * incX) (A + i * (ldA + 1))
  | false, .lower =>
    loop n fun i => subDot c d (dotC c i (A + i * ldA) 1 x incX) (x + i * incX) (A + i * (ldA + 1))
  | true, .upper =>
    loop n fun i => subDot c d (dotC c i (A + i) ldA x incX) (x + i * incX) (A + i * (ldA + 1))
  | true, .lower =>
    loopDown n fun i =>
      subDot c d (dotC c (n - i - 1) (A + i * (ldA + 1) + ldA) ldA (x + i * incX + incX) incX) (x + i * incX)
        (A + i * (ldA + 1))

/-- level2/trsv.tcc 209-214, with `trsv_generic` 41-206. -/
def trsv [Mul K] [Add K] [Sub K] [Div K] [Zero K] [Star K] (o : Order) (u : UpLo) (t : Trans) (d : Diag) (n : Nat)
    (A ldA x incX : Int) : M K Unit :=
  match o with
  | .colMajor => trsvRow u.flip t.flip.trans t.flip.conj d n A ldA x incX
  | .rowMajor => trsvRow u t.trans t.conj d n A ldA x incX

end Verif.Blas
