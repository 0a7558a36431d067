import Verif.Model.Blas1

/-!
# Model of the generic sparse routines of cxxblas (librapid/cxxblas/sparselevel2, sparselevel3)

Values as in `Model/Blas1.lean`. The arrays of row pointers and column indices are only read; they live in an address space `I` of
their own. The code shifts pointers so that they can be used with the index base found in the first row pointer (`--ia; ja -= ia[1];`
and so on); the model writes the resulting addresses. Index arithmetic is without overflow (the loops of the code use `int`).
The versions that call MKL (`HAVE_SPARSEBLAS`), and trcrssv, trccssv, trcrssm, trccssm, which have no other version, are not modelled.
-/

namespace Verif.Blas

variable {K : Type}

/-- `p[i]` for an array of indices, at the address `a` of `p + i`. For cxxblas/sparselevel2 and sparselevel3. -/
def loadIdx (I : Mem Int) (a : Int) : M K Int := fun m =>
  match I a with
  | .val v => .ok (v, m)
  | _ => .ub

/-- `y[p] += alpha * f(A[k]) * x[q]`, for the addresses of the three elements. For cxxblas/sparselevel2 and sparselevel3. -/
def addTerm [Mul K] [Add K] (alpha : K) (f : K → K) (y a x : Int) : M K Unit := do
  let w ← load y
  let v ← load a
  let u ← load x
  store y (w + alpha * f v * u)

/-- `y[i] = 0`, `y[i] *= beta` or nothing, by `init` and `scale` (gecrsmv.tcc 52-53, sycrsmv.tcc 64-68). The code tests `beta` once,
in front of a loop for each of the three cases. -/
def initCell [Mul K] [Zero K] [One K] [DecidableEq K] (beta : K) (a : Int) : M K Unit :=
  if beta = 0 then store a 0
  else if beta = 1 then pure ()
  else do
    let w ← load a
    store a (w * beta)

/-- `for (int k = ia[i]; k < ia[i + 1]; ++k) { ... }`: `f` gets the position `k - base` in the arrays of indices and values, and
`ja[k] - base`. -/
def rowEntries (I : Mem Int) (ia ja b : Int) (i : Nat) (f : Int → Int → M K Unit) : M K Unit := do
  let s ← loadIdx I (ia + i)
  let e ← loadIdx I (ia + i + 1)
  loop (e - s).toNat fun k => do
    let j ← loadIdx I (ja + (s + k - b))
    f (s + k - b) (j - b)

/-- gecrsmv.tcc 63-146; the conjugating cases (83-110, 128-146) differ by `conjugate(A[k])`. -/
def gecrsmv [Mul K] [Add K] [Zero K] [One K] [Star K] [DecidableEq K] (t : Trans) (m n : Nat) (alpha : K) (I : Mem Int)
    (A ia ja x : Int) (beta : K) (y : Int) : M K Unit := do
  let b ← loadIdx I ia
  match t.trans with
  | false =>
    loop m fun i => do
      initCell beta (y + i)
      rowEntries I ia ja b i fun k j => addTerm alpha (if t.conj then star else id) (y + i) (A + k) (x + j)
  | true => do
    loop n fun i => initCell beta (y + i)
    loop m fun i => rowEntries I ia ja b i fun k j => addTerm alpha (if t.conj then star else id) (y + j) (A + k) (x + i)

/-- An entry outside of the diagonal: `y[i] += alpha * f(A[k]) * x_[ja[k]]; y_[ja[k]] += alpha * g(A[k]) * x[i];`
(sycrsmv.tcc 77-78, hecrsmv.tcc 77-78, heccsmv.tcc 77-78). -/
def symPair [Mul K] [Add K] (alpha : K) (f g : K → K) (A x y : Int) (i : Nat) (k j : Int) : M K Unit := do
  addTerm alpha f (y + i) (A + k) (x + j)
  addTerm alpha g (y + j) (A + k) (x + i)

/-- The entry that may be on the diagonal: `if (ja[k] == I) { y[i] += alpha * h(A[k]) * x_[ja[k]]; } else { ... }`
(sycrsmv.tcc 74-75, hecrsmv.tcc 71-76, heccsmv.tcc 71-76). -/
def symDiag [Mul K] [Add K] (alpha : K) (f g h : K → K) (A x y : Int) (i : Nat) (k j : Int) : M K Unit :=
  if j = i then addTerm alpha h (y + i) (A + k) (x + j) else symPair alpha f g A x y i k j

/-- One row: `if (ia[i] < ia[i+1])`, the entry that may be on the diagonal, which is the first (`first`) or the last one, and the
others (sycrsmv.tcc 71-81 and 83-93, hecrsmv.tcc 69-83 and 85-99, heccsmv.tcc 69-83 and 85-99). -/
def symRow [Mul K] [Add K] (first : Bool) (alpha : K) (f g h : K → K) (I : Mem Int) (A ia ja b x y : Int) (i : Nat) : M K Unit := do
  let s ← loadIdx I (ia + i)
  let e ← loadIdx I (ia + i + 1)
  match first, (e - s).toNat with
  | _, 0 => pure ()
  | true, l + 1 => do
    let j ← loadIdx I (ja + (s - b))
    symDiag alpha f g h A x y i (s - b) (j - b)
    loop l fun k => do
      let j ← loadIdx I (ja + (s + 1 + k - b))
      symPair alpha f g A x y i (s + 1 + k - b) (j - b)
  | false, l + 1 => do
    loop l fun k => do
      let j ← loadIdx I (ja + (s + k - b))
      symPair alpha f g A x y i (s + k - b) (j - b)
    let j ← loadIdx I (ja + (s + l - b))
    symDiag alpha f g h A x y i (s + l - b) (j - b)

/-- The common form of sycrsmv.tcc 43-95, syccsmv.tcc 43-103, hecrsmv.tcc 43-101 and heccsmv.tcc 43-101. -/
def symSparse [Mul K] [Add K] [Zero K] [One K] [DecidableEq K] (first : Bool) (f g h : K → K) (n : Nat) (alpha : K) (I : Mem Int)
    (A ia ja x : Int) (beta : K) (y : Int) : M K Unit := do
  let b ← loadIdx I ia
  loop n fun i => initCell beta (y + i)
  loop n fun i => symRow first alpha f g h I A ia ja b x y i

/-- `upLo == Upper`. For cxxblas/sparselevel2 and sparselevel3. -/
def UpLo.isUpper : UpLo → Bool
  | .upper => true
  | .lower => false

/-- sycrsmv.tcc 43-95. -/
def sycrsmv [Mul K] [Add K] [Zero K] [One K] [DecidableEq K] (u : UpLo) (n : Nat) (alpha : K) (I : Mem Int)
    (A ia ja x : Int) (beta : K) (y : Int) : M K Unit :=
  symSparse u.isUpper id id id n alpha I A ia ja x beta y

/-- syccsmv.tcc 43-103; `ja` are the column pointers, `ia` the row indices. -/
def syccsmv [Mul K] [Add K] [Zero K] [One K] [DecidableEq K] (u : UpLo) (n : Nat) (alpha : K) (I : Mem Int)
    (A ia ja x : Int) (beta : K) (y : Int) : M K Unit :=
  symSparse u.flip.isUpper id id id n alpha I A ja ia x beta y

/-- hecrsmv.tcc 43-101. `re` is `cxxblas::real` as a value of the scalar type. -/
def hecrsmv [Mul K] [Add K] [Zero K] [One K] [Star K] [DecidableEq K] (re : K → K) (u : UpLo) (n : Nat) (alpha : K) (I : Mem Int)
    (A ia ja x : Int) (beta : K) (y : Int) : M K Unit :=
  symSparse u.isUpper id star re n alpha I A ia ja x beta y

/-- heccsmv.tcc 43-101. -/
def heccsmv [Mul K] [Add K] [Zero K] [One K] [Star K] [DecidableEq K] (re : K → K) (u : UpLo) (n : Nat) (alpha : K) (I : Mem Int)
    (A ia ja x : Int) (beta : K) (y : Int) : M K Unit :=
  symSparse u.flip.isUpper star id re n alpha I A ja ia x beta y

/-- sparselevel3/gecrsmm.tcc 45-55; `A` is `m x k`. -/
def gecrsmm [Mul K] [Add K] [Zero K] [One K] [Star K] [DecidableEq K] (t : Trans) (m n k : Nat) (alpha : K) (I : Mem Int)
    (A ia ja B ldB : Int) (beta : K) (C ldC : Int) : M K Unit :=
  loop n fun i => gecrsmv t m k alpha I A ia ja (B + i * ldB) beta (C + i * ldC)

/-- sparselevel3/sycrsmm.tcc 45-53. -/
def sycrsmm [Mul K] [Add K] [Zero K] [One K] [DecidableEq K] (u : UpLo) (m n : Nat) (alpha : K) (I : Mem Int)
    (A ia ja B ldB : Int) (beta : K) (C ldC : Int) : M K Unit :=
  loop n fun i => sycrsmv u m alpha I A ia ja (B + i * ldB) beta (C + i * ldC)

/-- sparselevel3/syccsmm.tcc 45-55. -/
def syccsmm [Mul K] [Add K] [Zero K] [One K] [DecidableEq K] (u : UpLo) (m n : Nat) (alpha : K) (I : Mem Int)
    (A ia ja B ldB : Int) (beta : K) (C ldC : Int) : M K Unit :=
  loop n fun i => syccsmv u m alpha I A ia ja (B + i * ldB) beta (C + i * ldC)

/-- sparselevel3/hecrsmm.tcc 45-55. -/
def hecrsmm [Mul K] [Add K] [Zero K] [One K] [Star K] [DecidableEq K] (re : K → K) (u : UpLo) (m n : Nat) (alpha : K) (I : Mem Int)
    (A ia ja B ldB : Int) (beta : K) (C ldC : Int) : M K Unit :=
  loop n fun i => hecrsmv re u m alpha I A ia ja (B + i * ldB) beta (C + i * ldC)

/-- sparselevel3/heccsmm.tcc 45-55. -/
def heccsmm [Mul K] [Add K] [Zero K] [One K] [Star K] [DecidableEq K] (re : K → K) (u : UpLo) (m n : Nat) (alpha : K) (I : Mem Int)
    (A ia ja B ldB : Int) (beta : K) (C ldC : Int) : M K Unit :=
  loop n fun i => heccsmv re u m alpha I A ia ja (B + i * ldB) beta (C + i * ldC)

end Verif.Blas
