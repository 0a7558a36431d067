import Verif.Model.Blas3

/-!
# Model of the level-1 routines of cxxblas on matrices (librapid/cxxblas/level1extensions)

As in `Model/Blas1.lean`. Routines that differ only in the operation on vectors share their loops; the operation and its conjugated
version are the parameters `op` and `cop`. The recursion for the other storage order is written as a case distinction.
-/

namespace Verif.Blas

variable {K : Type}

/-- An operation with a vector that is read and a vector that is written: number of elements, then address and increment of each. For the
routines of cxxblas/level1extensions. -/
abbrev VecOp (K : Type) := Nat → Int → Int → Int → Int → M K Unit

/-- gecopy.tcc 54-81, geaxpy.tcc 48-82, geaxpby.tcc 48-82: row-major. -/
def geRow (op cop : VecOp K) (t : Trans) (m n : Nat) (A ldA B ldB : Int) : M K Unit :=
  match t with
  | ⟨false, false⟩ =>
    if ldA = n ∧ ldB = n then op (m * n) A 1 B 1 else loop m fun i => op n (A + i * ldA) 1 (B + i * ldB) 1
  | ⟨true, false⟩ =>
    if ldA = n ∧ ldB = n then cop (m * n) A 1 B 1 else loop m fun i => cop n (A + i * ldA) 1 (B + i * ldB) 1
  | ⟨false, true⟩ => loop m fun i => op n (A + i) ldA (B + i * ldB) 1
  | ⟨true, true⟩ => loop m fun i => cop n (A + i) ldA (B + i * ldB) 1

/-- The exchange of `m` and `n` for column-major order, gecopy.tcc 50-53, geaxpy.tcc 47, geaxpby.tcc 47. -/
def geOp (op cop : VecOp K) (o : Order) (t : Trans) (m n : Nat) (A ldA B ldB : Int) : M K Unit :=
  match o with
  | .colMajor => geRow op cop t n m A ldA B ldB
  | .rowMajor => geRow op cop t m n A ldA B ldB

/-- gecopy.tcc 46-82. -/
def gecopy [Star K] (o : Order) (t : Trans) (m n : Nat) (A ldA B ldB : Int) : M K Unit := geOp copy ccopy o t m n A ldA B ldB

/-- geaxpy.tcc 42-84. -/
def geaxpy [Mul K] [Add K] [Star K] (o : Order) (t : Trans) (m n : Nat) (alpha : K) (A ldA B ldB : Int) : M K Unit :=
  geOp (fun n => axpy n alpha) (fun n => acxpy n alpha) o t m n A ldA B ldB

/-- geaxpby.tcc 42-84. -/
def geaxpby [Mul K] [Add K] [Zero K] [Star K] [DecidableEq K] (o : Order) (t : Trans) (m n : Nat) (alpha : K) (A ldA : Int) (beta : K)
    (B ldB : Int) : M K Unit :=
  geOp (fun n x incX => axpby n alpha x incX beta) (fun n x incX => acxpby n alpha x incX beta) o t m n A ldA B ldB

/-- geraxpy.tcc 42-67: only `NoTrans` and `Trans`. -/
def geraxpy [Div K] [Add K] (o : Order) (t : Trans) (m n : Nat) (alpha : K) (A ldA B ldB : Int) : M K Unit :=
  geOp (fun n => raxpy n alpha) (fun _ _ _ _ _ => assertFail) o t m n A ldA B ldB

/-- gerscal.tcc 42-55. -/
def gerscal [Div K] (o : Order) (m n : Nat) (alpha : K) (A ldA : Int) : M K Unit :=
  match o with
  | .colMajor => gescalRow (fun n => rscal n alpha) n m A ldA
  | .rowMajor => gescalRow (fun n => rscal n alpha) m n A ldA

/-- geswap.tcc 45-82. -/
def geswap (oA oB : Order) (m n : Nat) (A ldA B ldB : Int) : M K Unit :=
  match oA, oB with
  | .colMajor, .colMajor =>
    if (m : Int) = ldA ∧ (m : Int) = ldB then swap (m * n) A 1 B 1 else loop n fun j => swap m (A + j * ldA) 1 (B + j * ldB) 1
  | .rowMajor, .rowMajor =>
    if (n : Int) = ldA ∧ (n : Int) = ldB then swap (m * n) A 1 B 1 else loop m fun i => swap n (A + i * ldA) 1 (B + i * ldB) 1
  | .colMajor, .rowMajor => loop n fun i => swap m (A + i * ldA) 1 (B + i) ldB
  | .rowMajor, .colMajor => loop m fun j => swap n (A + j) ldA (B + j * ldB) 1

/-- trcopy.tcc 55-101, traxpy.tcc 54-119, traxpby.tcc 55-140: column-major, with the diagonal. -/
def trCol (op cop : VecOp K) (u : UpLo) (t : Trans) (m n : Nat) (A ldA B ldB : Int) : M K Unit :=
  let v := if t.conj then cop else op
  match t.trans, u with
  | false, .upper => loop n fun j => v (min (j + 1) m) (A + j * ldA) 1 (B + j * ldB) 1
  | false, .lower => loop (min m n) fun j => v (m - j) (A + j * (ldA + 1)) 1 (B + j * (ldB + 1)) 1
  | true, .upper => loop n fun j => v (min (j + 1) m) (A + j) ldA (B + j * ldB) 1
  | true, .lower => loop (min m n) fun j => v (m - j) (A + j * (ldA + 1)) ldA (B + j * (ldB + 1)) 1

/-- trcopy.tcc 55-118: column-major. For a unit diagonal the call for one row and one column less, 104-116. -/
def trcopyCol [Star K] (u : UpLo) (t : Trans) (d : Diag) (m n : Nat) (A ldA B ldB : Int) : M K Unit :=
  match d with
  | .nonUnit => trCol copy ccopy u t m n A ldA B ldB
  | .unit =>
    match u, t.trans with
    | .upper, false => trCol copy ccopy .upper t (m - 1) (n - 1) (A + ldA) ldA (B + ldB) ldB
    | .upper, true => trCol copy ccopy .upper t (m - 1) (n - 1) (A + 1) ldA (B + ldB) ldB
    | .lower, false => trCol copy ccopy .lower t (m - 1) (n - 1) (A + 1) ldA (B + 1) ldB
    | .lower, true => trCol copy ccopy .lower t (m - 1) (n - 1) (A + ldA) ldA (B + 1) ldB

/-- trcopy.tcc 45-120. -/
def trcopy [Star K] (o : Order) (u : UpLo) (t : Trans) (d : Diag) (m n : Nat) (A ldA B ldB : Int) : M K Unit :=
  match o with
  | .rowMajor => trcopyCol u.flip t d n m A ldA B ldB
  | .colMajor => trcopyCol u t d m n A ldA B ldB

/-- A triangular update without a version for a unit diagonal, traxpy.tcc 49-125, traxpby.tcc 50-146. -/
def trOp (op cop : VecOp K) (o : Order) (u : UpLo) (t : Trans) (d : Diag) (m n : Nat) (A ldA B ldB : Int) : M K Unit :=
  match d with
  | .unit => assertFail
  | .nonUnit =>
    match o with
    | .rowMajor => trCol op cop u.flip t n m A ldA B ldB
    | .colMajor => trCol op cop u t m n A ldA B ldB

/-- traxpy.tcc 45-126. -/
def traxpy [Mul K] [Add K] [Star K] (o : Order) (u : UpLo) (t : Trans) (d : Diag) (m n : Nat) (alpha : K) (A ldA B ldB : Int) :
    M K Unit := trOp (fun n => axpy n alpha) (fun n => acxpy n alpha) o u t d m n A ldA B ldB

/-- traxpby.tcc 45-147. -/
def traxpby [Mul K] [Add K] [Zero K] [Star K] [DecidableEq K] (o : Order) (u : UpLo) (t : Trans) (d : Diag) (m n : Nat) (alpha : K)
    (A ldA : Int) (beta : K) (B ldB : Int) : M K Unit :=
  trOp (fun n x incX => axpby n alpha x incX beta) (fun n x incX => acxpby n alpha x incX beta) o u t d m n A ldA B ldB

/-- trscal.tcc 45-62: for column-major order the triangle is exchanged, the sizes are not. -/
def trscal [Mul K] [One K] [DecidableEq K] (o : Order) (u : UpLo) (m n : Nat) (alpha : K) (A ldA : Int) : M K Unit :=
  if alpha = 1 then pure ()
  else
    match effUpLo o u with
    | .upper => loop (min m n) fun i => scal (n - i) alpha (A + i * (ldA + 1)) 1
    | .lower => loop m fun i => scal (min (i + 1) n) alpha (A + i * ldA) 1

/-- gbcopy.tcc 57-58 and everywhere in the gb routines: `(i < 0) ? min(m + i, min(m, n)) : min(n - i, min(m, n))` for the diagonal
`i`; a negative length is none. -/
def diagLen (m n : Nat) (i : Int) : Nat := (if i < 0 then min (m + i) (min m n) else min (n - i) (min m n)).toNat

/-- gbcopy.tcc 55-85, gbaxpy.tcc 52-85, gbaxpby.tcc 52-113: row-major; `j` counts the diagonals. -/
def gbRow (op cop : VecOp K) (t : Trans) (m n kl ku : Nat) (A ldA B ldB : Int) : M K Unit :=
  let v := if t.conj then cop else op
  match t.trans with
  | false => loop (kl + ku + 1) fun j =>
    let i : Int := j - kl
    v (diagLen m n i) (A + j + max (-i) 0 * ldA) ldA (B + j + max (-i) 0 * ldB) ldB
  | true => loop (kl + ku + 1) fun j =>
    let i : Int := j - ku
    v (diagLen m n i) (A + j + max (-i) 0 * ldA) ldA (B + (kl + ku - j) + max i 0 * ldB) ldB

/-- The exchange of the sizes and of the numbers of diagonals for column-major order, gbcopy.tcc 50-53 and the same in the others. -/
def gbOp (op cop : VecOp K) (o : Order) (t : Trans) (m n kl ku : Nat) (A ldA B ldB : Int) : M K Unit :=
  match o with
  | .colMajor => gbRow op cop t n m ku kl A ldA B ldB
  | .rowMajor => gbRow op cop t m n kl ku A ldA B ldB

/-- gbcopy.tcc 45-86. -/
def gbcopy [Star K] (o : Order) (t : Trans) (m n kl ku : Nat) (A ldA B ldB : Int) : M K Unit := gbOp copy ccopy o t m n kl ku A ldA B ldB

/-- gbaxpy.tcc 42-86. `min` and `max` are written without `std::` there; they are taken to be those. -/
def gbaxpy [Mul K] [Add K] [Star K] (o : Order) (t : Trans) (m n kl ku : Nat) (alpha : K) (A ldA B ldB : Int) : M K Unit :=
  gbOp (fun n => axpy n alpha) (fun n => acxpy n alpha) o t m n kl ku A ldA B ldB

/-- gbaxpby.tcc 42-114, where it is called `gbaxpy`. -/
def gbaxpby [Mul K] [Add K] [Zero K] [Star K] [DecidableEq K] (o : Order) (t : Trans) (m n kl ku : Nat) (alpha : K) (A ldA : Int)
    (beta : K) (B ldB : Int) : M K Unit :=
  gbOp (fun n x incX => axpby n alpha x incX beta) (fun n x incX => acxpby n alpha x incX beta) o t m n kl ku A ldA B ldB

/-- gbscal.tcc 54-57: row-major. -/
def gbscalRow [Mul K] (m n kl ku : Nat) (alpha : K) (A ldA : Int) : M K Unit :=
  loop (kl + ku + 1) fun j =>
    let i : Int := j - kl
    scal (diagLen m n i) alpha (A + j + max (-i) 0 * ldA) ldA

/-- gbscal.tcc 42-59. -/
def gbscal [Mul K] (o : Order) (m n kl ku : Nat) (alpha : K) (A ldA : Int) : M K Unit :=
  match o with
  | .colMajor => gbscalRow n m ku kl alpha A ldA
  | .rowMajor => gbscalRow m n kl ku alpha A ldA

/-- `std::swap(p[a], p[b])`. For the routines of cxxblas/level1extensions. -/
def swapCells (a b : Int) : M K Unit := do
  let v ← load a
  let w ← load b
  store a w
  store b v

/-- `p[a] = conjugate(p[a])`. For the routines of cxxblas/level1extensions. -/
def conjCell [Star K] (a : Int) : M K Unit := do
  let v ← load a
  store a (star v)

/-- gecotr.tcc 52-54. -/
def gecotrSwap (n : Nat) (A ldA : Int) : M K Unit :=
  loop n fun i => loop i fun j => swapCells (A + (i + ldA * j)) (A + (j + ldA * i))

/-- gecotr.tcc 57-61. -/
def gecotrConj [Star K] (m n : Nat) (A ldA : Int) : M K Unit :=
  loop n fun j => loop m fun i => conjCell (A + (i + ldA * j))

/-- gecotr.tcc 48-63: after 45. -/
def gecotrCol [Star K] (t : Trans) (m n : Nat) (A ldA : Int) : M K Unit :=
  match t with
  | ⟨false, false⟩ => pure ()
  | ⟨true, false⟩ => gecotrConj m n A ldA
  | ⟨false, true⟩ => if m = n then gecotrSwap n A ldA else assertFail
  | ⟨true, true⟩ => if m = n then do gecotrSwap n A ldA; gecotrConj m n A ldA else assertFail

/-- gecotr.tcc 42-64. -/
def gecotr [Star K] (o : Order) (t : Trans) (m n : Nat) (A ldA : Int) : M K Unit :=
  match o with
  | .rowMajor => gecotrCol t n m A ldA
  | .colMajor => gecotrCol t m n A ldA

/-- gbcotr.tcc 78-82: the exchange of two elements with conjugation; they may be the same. -/
def swapConj [Star K] (a b : Int) : M K Unit := do
  let tmp ← load a
  let w ← load b
  store a (star w)
  store b (star tmp)

/-- gbcotr.tcc 53-87: row-major. `k` of the code is `k * ldA` here. -/
def gbcotrRow [Star K] (t : Trans) (m n kl ku : Nat) (A ldA : Int) : M K Unit :=
  match t with
  | ⟨false, false⟩ => pure ()
  | ⟨true, false⟩ => loop (kl + ku + 1) fun j =>
    let i : Int := j - kl
    loop (diagLen m n i) fun k => conjCell (A + j + max (-i) 0 * ldA + k * ldA)
  | ⟨false, true⟩ =>
    if m = n ∧ kl = ku then loop ku fun j =>
      let i : Int := j - ku
      loop (diagLen m n i) fun k =>
        swapCells (A + j + max (-i) 0 * ldA + k * ldA) (A + (kl + ku - j) + max i 0 * ldA + k * ldA)
    else assertFail
  | ⟨true, true⟩ =>
    if m = n ∧ kl = ku then loop (ku + 1) fun j =>
      let i : Int := j - ku
      loop (diagLen m n i) fun k =>
        swapConj (A + j + max (-i) 0 * ldA + k * ldA) (A + (kl + ku - j) + max i 0 * ldA + k * ldA)
    else assertFail

/-- gbcotr.tcc 43-91. -/
def gbcotr [Star K] (o : Order) (t : Trans) (m n kl ku : Nat) (A ldA : Int) : M K Unit :=
  match o with
  | .colMajor => gbcotrRow t n m ku kl A ldA
  | .rowMajor => gbcotrRow t m n kl ku A ldA

/-- `n * (n + 1) / 2` -/
def packLen (n : Nat) : Nat := n * (n + 1) / 2

/-- tpcopy.tcc 66-69, 73-77, tpaxpy.tcc 71-76, 79-83, tpaxpby.tcc 64-78: the loop of the transposed routines; `f` is the assignment of
one element, `shift` is 1 for a unit diagonal. -/
def tpTrans (f : Int → Int → M K Unit) (shift n : Nat) (A B : Int) : M K Unit :=
  loop n fun i => loopFrom (i + shift) n fun j => f (A + (j + (2 * n - i - 1) * i / 2)) (B + (i + j * (j + 1) / 2))

/-- 1 for a unit diagonal, tpcopy.tcc 64. -/
def diagShift : Diag → Nat
  | .unit => 1
  | .nonUnit => 0

/-- `conjugate` or not. For the routines of cxxblas/level1extensions. -/
def conjIf [Star K] (c : Bool) (v : K) : K := if c then star v else v

/-- tpcopy.tcc 45-79. -/
def tpcopy [Star K] (t : Trans) (d : Diag) (n : Nat) (A B : Int) : M K Unit :=
  match t.trans with
  | false =>
    match d with
    | .unit => assertFail
    | .nonUnit => (if t.conj then ccopy else copy) (packLen n) A 1 B 1
  | true => tpTrans (fun a b => do let v ← load a; store b (conjIf t.conj v)) (diagShift d) n A B

/-- tpaxpy.tcc 45-86. -/
def tpaxpy [Mul K] [Add K] [Star K] (o : Order) (t : Trans) (d : Diag) (n : Nat) (alpha : K) (A B : Int) : M K Unit :=
  match o, d with
  | .colMajor, .nonUnit =>
    match t.trans with
    | false => (if t.conj then acxpy (packLen n) alpha else axpy (packLen n) alpha) A 1 B 1
    | true => tpTrans (fun a b => do let v ← load a; let w ← load b; store b (w + alpha * conjIf t.conj v)) (diagShift d) n A B
  | _, _ => assertFail

/-- tpaxpby.tcc 45-79. -/
def tpaxpby [Mul K] [Add K] [Zero K] [Star K] [DecidableEq K] (t : Trans) (d : Diag) (n : Nat) (alpha : K) (A : Int) (beta : K)
    (B : Int) : M K Unit :=
  match t.trans with
  | false => (if t.conj then acxpby (packLen n) alpha else axpby (packLen n) alpha) A 1 beta B 1
  | true =>
    tpTrans (fun a b => do let v ← load a; let w ← load b; store b (beta * w + alpha * conjIf t.conj v)) (diagShift d) n A B

/-- tpscal.tcc 45-61. `offset` in pass `i` is the sum of the `n - k` for `k < i`. -/
def tpscal [Mul K] (d : Diag) (n : Nat) (alpha : K) (A : Int) : M K Unit :=
  match d with
  | .unit => do
    let _ ← fold (n - 1) (0 : Nat) fun i offset => do
      scal (n - i - 1) alpha (A + offset + 1) 1
      pure (offset + (n - i))
    pure ()
  | .nonUnit => scal (packLen n) alpha A 1

end Verif.Blas
