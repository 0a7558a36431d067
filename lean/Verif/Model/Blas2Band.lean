import Verif.Model.Blas2

/-!
# Model of the generic level-2 routines of cxxblas for banded and packed matrices (librapid/cxxblas/level2)

As in `Model/Blas2.lean`. Banded and packed triangular routines differ in where the stored part of a row is and in whether they
visit the row that has no elements beside the diagonal; the model writes their loops once, for the rows given by `Rows`.
`len - 1` in the code is never negative, since `len` counts the diagonal.
-/

namespace Verif.Blas

variable {K : Type}

/-- Where the stored parts of the rows of a matrix are: address and column of the first element, number of elements. For the banded and
packed routines of cxxblas/level2. -/
structure Rows where
  row : Nat → Int
  first : Nat → Nat
  len : Nat → Nat

/-- level2/gbmv.tcc 60-62: `iA = max(kl - i, 0)`, `len = min(kl + ku + 1, kl - i + n) - iA` (no element if this is negative),
`iX = max(i - kl, 0) * incX`, rows at `A + ldA * i + iA`. -/
def gbRows (n kl ku : Nat) (A ldA : Int) : Rows where
  row i := A + ldA * i + ((kl - i : Nat) : Int)
  first i := i - kl
  len i := min (kl + ku + 1) (kl + n - i) - (kl - i)

/-- level2/tbmv.tcc 60, 63 (upper) and 83-85 (lower), also in tbsv.tcc, sbmv.tcc and hbmv.tcc. -/
def tbRows (u : UpLo) (n k : Nat) (A ldA : Int) : Rows :=
  match u with
  | .upper => ⟨fun i => A + ldA * i, fun i => i, fun i => min (k + 1) (n - i)⟩
  | .lower => ⟨fun i => A + ldA * i + ((k - i : Nat) : Int), fun i => i - k, fun i => min k i + 1⟩

/-- level2/tpmv.tcc 58 (upper) and 77 (lower), also in the other routines for packed matrices. -/
def tpRows (u : UpLo) (n : Nat) (A : Int) : Rows :=
  match u with
  | .upper => ⟨fun i => A + (i : Int) * (2 * n - i + 1) / 2, fun i => i, fun i => n - i⟩
  | .lower => ⟨fun i => A + (i : Int) * (i + 1) / 2, fun _ => 0, fun i => i + 1⟩

/-- level2/gbmv.tcc 53-153: row-major. -/
def gbmvRow [Mul K] [Add K] [Zero K] [Star K] [DecidableEq K] (R : Rows) (t : Trans) (conjX : Bool) (m n : Nat) (alpha : K)
    (x incX : Int) (beta : K) (y incY : Int) : M K Unit :=
  if t.trans = false then
    let x := start n x incX
    let y := start m y incY
    do
      scalInitGeneric m beta y incY
      loop m fun i => addDot alpha (rowDot t.conj conjX (R.len i) (R.row i) 1 (x + R.first i * incX) incX) (y + i * incY)
  else
    let x := start m x incX
    let y := start n y incY
    do
      scalInitGeneric n beta y incY
      loop m fun i => do
        let v ← load (x + i * incX)
        axpyC t.conj (R.len i) ((if conjX then star v else v) * alpha) (R.row i) 1 (y + R.first i * incY) incY

/-- level2/gbmv.tcc 159-166 with `gbmv_generic` 41-155, and level2extensions/gbmv.tcc 43-50, where `conjX` is an argument. -/
def gbmv [Mul K] [Add K] [Zero K] [Star K] [DecidableEq K] (o : Order) (t : Trans) (conjX : Bool) (m n kl ku : Nat)
    (alpha : K) (A ldA x incX : Int) (beta : K) (y incY : Int) : M K Unit :=
  if m = 0 ∨ n = 0 then pure ()
  else
    match o with
    | .colMajor => gbmvRow (gbRows m ku kl A ldA) t.flip conjX n m alpha x incX beta y incY
    | .rowMajor => gbmvRow (gbRows n kl ku A ldA) t conjX m n alpha x incX beta y incY

/-- `axpy_generic(n, x[iX] * alpha, …)` or `acxpy_generic`: the factor is read first. For the banded and packed routines of
cxxblas/level2. -/
def axpyAtR [Mul K] [Add K] [Star K] (conj : Bool) (n : Nat) (alpha : K) (xi a incA y incY : Int) : M K Unit := do
  let v ← load xi
  axpyC conj n (v * alpha) a incA y incY

/-- level2/spmv.tcc 72-81, with `spmv_generic` 41-68. -/
def spmv [Mul K] [Add K] [Zero K] [Star K] [DecidableEq K] (o : Order) (u : UpLo) (n : Nat) (alpha : K) (A x incX : Int)
    (beta : K) (y incY : Int) : M K Unit :=
  let x := start n x incX
  let y := start n y incY
  let R := tpRows (effUpLo o u) n A
  match effUpLo o u with
  | .upper => do
    scalInitGeneric n beta y incY
    loop n fun i => do
      addDot alpha (dotuGeneric (n - i) (R.row i) 1 (x + i * incX) incX) (y + i * incY)
      axpyAt false (n - i - 1) alpha (x + i * incX) (R.row i + 1) 1 (y + i * incY + incY) incY
  | .lower => do
    scalInitGeneric n beta y incY
    loop n fun i => do
      addDot alpha (dotuGeneric i (R.row i) 1 x incX) (y + i * incY)
      axpyAt false (i + 1) alpha (x + i * incX) (R.row i) 1 y incY

/-- level2/sbmv.tcc 90-101, with `sbmv_generic` 41-86. -/
def sbmv [Mul K] [Add K] [Zero K] [Star K] [DecidableEq K] (o : Order) (u : UpLo) (n k : Nat) (alpha : K) (A ldA x incX : Int)
    (beta : K) (y incY : Int) : M K Unit :=
  let x := start n x incX
  let y := start n y incY
  let R := tbRows (effUpLo o u) n k A ldA
  if n = 0 then pure ()
  else
    match effUpLo o u with
    | .upper => do
      scalInitGeneric n beta y incY
      loop n fun i => do
        addDot alpha (dotuGeneric (R.len i) (R.row i) 1 (x + i * incX) incX) (y + i * incY)
        axpyAtR false (R.len i - 1) alpha (x + i * incX) (R.row i + 1) 1 (y + i * incY + incY) incY
    | .lower => do
      scalInitGeneric n beta y incY
      loop n fun i => do
        addDot alpha (dotuGeneric (R.len i) (R.row i) 1 (x + R.first i * incX) incX) (y + i * incY)
        axpyAtR false (R.len i - 1) alpha (x + i * incX) (R.row i) 1 (y + R.first i * incY) incY

/-- level2/hpmv.tcc 50-111 and hbmv.tcc 53-126: one pass, by the conjugation bit; hpmv multiplies `alpha * x[iX]`, hbmv
`x[iX] * alpha`. -/
def hrowsBody [Mul K] [Add K] [Zero K] [Star K] (re : K → K) (R : Rows) (u : UpLo) (conj : Bool) (alpha : K)
    (x incX y incY : Int) (i : Nat) : M K Unit :=
  match u with
  | .upper => do
    hemvDiag re alpha (R.row i) (x + i * incX) (y + i * incY)
    addDot alpha (dotC conj (R.len i - 1) (R.row i + 1) 1 (x + i * incX + incX) incX) (y + i * incY)
    axpyAt (!conj) (R.len i - 1) alpha (x + i * incX) (R.row i + 1) 1 (y + i * incY + incY) incY
  | .lower => do
    hemvDiag re alpha (R.row i + ((R.len i - 1 : Nat) : Int)) (x + i * incX) (y + i * incY)
    addDot alpha (dotC conj (R.len i - 1) (R.row i) 1 (x + R.first i * incX) incX) (y + i * incY)
    axpyAt (!conj) (R.len i - 1) alpha (x + i * incX) (R.row i) 1 (y + R.first i * incY) incY

/-- level2/hpmv.tcc 116-125, with `hpmv_generic` 41-112, for `conjugateA = NoTrans`. -/
def hpmv [Mul K] [Add K] [Zero K] [Star K] [DecidableEq K] (re : K → K) (o : Order) (u : UpLo) (n : Nat)
    (alpha : K) (A x incX : Int) (beta : K) (y incY : Int) : M K Unit :=
  let x := start n x incX
  let y := start n y incY
  do
    scalInitGeneric n beta y incY
    loop n (hrowsBody re (tpRows (effUpLo o u) n A) (effUpLo o u) (o = .colMajor) alpha x incX y incY)

/-- level2/hbmv.tcc 131-142, with `hbmv_generic` 41-127, for `conjugateA = NoTrans`. -/
def hbmv [Mul K] [Add K] [Zero K] [Star K] [DecidableEq K] (re : K → K) (o : Order) (u : UpLo) (n k : Nat)
    (alpha : K) (A ldA x incX : Int) (beta : K) (y incY : Int) : M K Unit :=
  if n = 0 then pure ()
  else
    let x := start n x incX
    let y := start n y incY
    do
      scalInitGeneric n beta y incY
      loop n (hrowsBody re (tbRows (effUpLo o u) n k A ldA) (effUpLo o u) (o = .colMajor) alpha x incX y incY)

/-- level2/spr.tcc 64-71, with `spr_generic` 41-62. -/
def spr [Mul K] [Add K] (o : Order) (u : UpLo) (n : Nat) (alpha : K) (x incX A : Int) : M K Unit :=
  let x := start n x incX
  let R := tpRows (effUpLo o u) n A
  loop n fun i => do
    let v ← load (x + i * incX)
    axpyGeneric (R.len i) (alpha * v) (x + R.first i * incX) incX (R.row i) 1

/-- level2/spr2.tcc 67-75, with `spr2_generic` 41-65. -/
def spr2 [Mul K] [Add K] (o : Order) (u : UpLo) (n : Nat) (alpha : K) (x incX y incY A : Int) : M K Unit :=
  let x := start n x incX
  let y := start n y incY
  let R := tpRows (effUpLo o u) n A
  loop n fun i => do
    let v ← load (x + i * incX)
    axpyGeneric (R.len i) (alpha * v) (y + R.first i * incY) incY (R.row i) 1
    let w ← load (y + i * incY)
    axpyGeneric (R.len i) (alpha * w) (x + R.first i * incX) incX (R.row i) 1

/-- level2/hpr.tcc 72-74 (upper), 86-88 (lower), and the same in hpr2.tcc: the imaginary parts of the diagonal are removed. -/
def realDiagP (re : K → K) (u : UpLo) (n : Nat) (A : Int) : M K Unit :=
  loop n fun i =>
    let d : Int := if u = .upper then A + (i + (i : Int) * (2 * n - i - 1) / 2) else A + (i + (i : Int) * (i + 1) / 2)
    do
      let a ← load d
      store d (re a)

/-- level2/hpr.tcc 92-99, with `hpr_generic` 41-90. -/
def hpr [Mul K] [Add K] [Zero K] [Star K] [DecidableEq K] (re : K → K) (o : Order) (u : UpLo) (n : Nat)
    (alpha : K) (x incX A : Int) : M K Unit :=
  let x := start n x incX
  let R := tpRows (effUpLo o u) n A
  if alpha = 0 then pure ()
  else do
    loop n fun i => herRow (o = .colMajor) (R.len i) alpha (x + i * incX) (x + R.first i * incX) incX (R.row i)
    realDiagP re (effUpLo o u) n A

/-- level2/hpr2.tcc 111-119, with `hpr2_generic` 41-109. -/
def hpr2 [Mul K] [Add K] [Zero K] [Star K] [DecidableEq K] (re : K → K) (o : Order) (u : UpLo) (n : Nat)
    (alpha : K) (x incX y incY A : Int) : M K Unit :=
  let x := start n x incX
  let y := start n y incY
  let R := tpRows (effUpLo o u) n A
  if alpha = 0 then pure ()
  else do
    loop n fun i =>
      her2Row (o = .colMajor) (R.len i) alpha (x + i * incX) (x + R.first i * incX) incX (y + i * incY)
        (y + R.first i * incY) incY (R.row i)
    realDiagP re (effUpLo o u) n A

/-- `for (i = b - 1; i >= a; --i)`. -/
def loopDownTo (a b : Nat) (f : Nat → M K Unit) : M K Unit := loop (b - a) fun k => f (b - 1 - k)

/-- `x[iX] *= A[…]` (conjugated with the conjugation bit); nothing for a unit diagonal. For the banded and packed routines of
cxxblas/level2. -/
def mulDiag [Mul K] [Star K] (c : Bool) (d : Diag) (a dg : Int) : M K Unit :=
  match d with
  | .unit => pure ()
  | .nonUnit => do
    let w ← load a
    let v ← load dg
    store a (w * if c then star v else v)

/-- `x[iX] /= A[…]` (conjugated with the conjugation bit); nothing for a unit diagonal. For the banded and packed routines of
cxxblas/level2. -/
def divDiag [Div K] [Star K] (c : Bool) (d : Diag) (a dg : Int) : M K Unit :=
  match d with
  | .unit => pure ()
  | .nonUnit => do
    let w ← load a
    let v ← load dg
    store a (w / if c then star v else v)

/-- `axpy_generic(n, x[iX], …)` or `acxpy_generic`. For the banded and packed routines of cxxblas/level2. -/
def axpyX [Mul K] [Add K] [Star K] (conj : Bool) (n : Nat) (xi a y incY : Int) : M K Unit := do
  let v ← load xi
  axpyC conj n v a 1 y incY

/-- `axpy_generic(n, -x[iX], …)` or `acxpy_generic`. For the banded and packed routines of cxxblas/level2. -/
def axpyNegX [Mul K] [Add K] [Neg K] [Star K] (conj : Bool) (n : Nat) (xi a y incY : Int) : M K Unit := do
  let v ← load xi
  axpyC conj n (-v) a 1 y incY

/-- level2/tbmv.tcc 54-241 and tpmv.tcc 50-195: row-major; `c` is the conjugation bit. For a unit diagonal the packed routine
(`packed`) leaves out the last row of an upper and, beside the transposed upper case, the first row of a lower triangle. -/
def trowsMv [Mul K] [Add K] [Zero K] [Star K] (packed : Bool) (R : Rows) (u : UpLo) (trans c : Bool) (d : Diag) (n : Nat)
    (x incX : Int) : M K Unit :=
  let x := start n x incX
  match trans, u, d with
  | false, .upper, .nonUnit =>
    loop n fun i => setDot (dotC c (R.len i) (R.row i) 1 (x + i * incX) incX) (x + i * incX)
  | false, .upper, .unit =>
    loop (if packed then n - 1 else n) fun i =>
      incDot (dotC c (R.len i - 1) (R.row i + 1) 1 (x + i * incX + incX) incX) (x + i * incX)
  | false, .lower, .nonUnit =>
    loopDown n fun i => setDot (dotC c (R.len i) (R.row i) 1 (x + R.first i * incX) incX) (x + i * incX)
  | false, .lower, .unit =>
    loopDownTo (if packed then 1 else 0) n fun i =>
      incDot (dotC c (R.len i - 1) (R.row i) 1 (x + R.first i * incX) incX) (x + i * incX)
  | true, .upper, d =>
    loopDown n fun i => do
      axpyX c (R.len i - 1) (x + i * incX) (R.row i + 1) (x + i * incX + incX) incX
      mulDiag c d (x + i * incX) (R.row i)
  | true, .lower, .nonUnit =>
    loop n fun i => do
      axpyX c (R.len i - 1) (x + i * incX) (R.row i) (x + R.first i * incX) incX
      mulDiag c .nonUnit (x + i * incX) (R.row i + ((R.len i - 1 : Nat) : Int))
  | true, .lower, .unit =>
    loopFrom (if packed then 1 else 0) n fun i =>
      axpyX c (R.len i - 1) (x + i * incX) (R.row i) (x + R.first i * incX) incX

/-- level2/tbmv.tcc 246-254, with `tbmv_generic` 41-242. -/
def tbmv [Mul K] [Add K] [Zero K] [Star K] (o : Order) (u : UpLo) (t : Trans) (d : Diag) (n k : Nat) (A ldA x incX : Int) :
    M K Unit :=
  if n = 0 then pure ()
  else
    match o with
    | .colMajor => trowsMv false (tbRows u.flip n k A ldA) u.flip t.flip.trans t.flip.conj d n x incX
    | .rowMajor => trowsMv false (tbRows u n k A ldA) u t.trans t.conj d n x incX

/-- level2/tpmv.tcc 198-204, with `tpmv_generic` 40-196. -/
def tpmv [Mul K] [Add K] [Zero K] [Star K] (o : Order) (u : UpLo) (t : Trans) (d : Diag) (n : Nat) (A x incX : Int) :
    M K Unit :=
  match o with
  | .colMajor => trowsMv true (tpRows u.flip n A) u.flip t.flip.trans t.flip.conj d n x incX
  | .rowMajor => trowsMv true (tpRows u n A) u t.trans t.conj d n x incX

/-- level2/tbsv.tcc 52-263 and tpsv.tcc 50-207: row-major; `c` is the conjugation bit. For a unit diagonal the packed routine
(`packed`) leaves out rows without elements, except in the upper case that is not transposed. -/
def trowsSv [Mul K] [Add K] [Sub K] [Neg K] [Div K] [Zero K] [Star K] (packed : Bool) (R : Rows) (u : UpLo)
    (trans c : Bool) (d : Diag) (n : Nat) (x incX : Int) : M K Unit :=
  let x := start n x incX
  match trans, u, d with
  | false, .upper, d =>
    loopDown n fun i =>
      subDot c d (dotC c (R.len i - 1) (R.row i + 1) 1 (x + i * incX + incX) incX) (x + i * incX) (R.row i)
  | false, .lower, .nonUnit =>
    loop n fun i =>
      subDot c .nonUnit (dotC c (R.len i - 1) (R.row i) 1 (x + R.first i * incX) incX) (x + i * incX)
        (R.row i + ((R.len i - 1 : Nat) : Int))
  | false, .lower, .unit =>
    loopFrom (if packed then 1 else 0) n fun i =>
      subDot c .unit (dotC c (R.len i - 1) (R.row i) 1 (x + R.first i * incX) incX) (x + i * incX)
        (R.row i + ((R.len i - 1 : Nat) : Int))
  | true, .upper, .nonUnit =>
    loop n fun i => do
      divDiag c .nonUnit (x + i * incX) (R.row i)
      axpyNegX c (R.len i - 1) (x + i * incX) (R.row i + 1) (x + i * incX + incX) incX
  | true, .upper, .unit =>
    loop (if packed then n - 1 else n) fun i =>
      axpyNegX c (R.len i - 1) (x + i * incX) (R.row i + 1) (x + i * incX + incX) incX
  | true, .lower, .nonUnit =>
    loopDown n fun i => do
      divDiag c .nonUnit (x + i * incX) (R.row i + ((R.len i - 1 : Nat) : Int))
      axpyNegX c (R.len i - 1) (x + i * incX) (R.row i) (x + R.first i * incX) incX
  | true, .lower, .unit =>
    loopDownTo (if packed then 1 else 0) n fun i =>
      axpyNegX c (R.len i - 1) (x + i * incX) (R.row i) (x + R.first i * incX) incX

/-- level2/tbsv.tcc 268-276, with `tbsv_generic` 41-264. -/
def tbsv [Mul K] [Add K] [Sub K] [Neg K] [Div K] [Zero K] [Star K] (o : Order) (u : UpLo) (t : Trans) (d : Diag) (n k : Nat)
    (A ldA x incX : Int) : M K Unit :=
  if n = 0 then pure ()
  else
    match o with
    | .colMajor => trowsSv false (tbRows u.flip n k A ldA) u.flip t.flip.trans t.flip.conj d n x incX
    | .rowMajor => trowsSv false (tbRows u n k A ldA) u t.trans t.conj d n x incX

/-- level2/tpsv.tcc 210-216, with `tpsv_generic` 40-208. -/
def tpsv [Mul K] [Add K] [Sub K] [Neg K] [Div K] [Zero K] [Star K] (o : Order) (u : UpLo) (t : Trans) (d : Diag) (n : Nat)
    (A x incX : Int) : M K Unit :=
  match o with
  | .colMajor => trowsSv true (tpRows u.flip n A) u.flip t.flip.trans t.flip.conj d n x incX
  | .rowMajor => trowsSv true (tpRows u n A) u t.trans t.conj d n x incX

end Verif.Blas
