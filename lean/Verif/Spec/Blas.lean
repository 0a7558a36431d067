import Verif.Model.BlasMem
import Mathlib.Algebra.BigOperators.Group.Finset.Basic
import Mathlib.Algebra.Star.Basic

/-!
# Vectors and matrices in memory, as the BLAS standard describes them

Element `i` of a vector of `n` elements with increment `inc` at `x` is at `x + i*inc`, or, when the increment is negative, the
vector runs backwards from `x + (n-1)*|inc|`.
-/

namespace Verif.Blas

variable {K : Type}

/-- Address of element `i` of a vector of `n` elements. -/
def elem (x inc : Int) (n i : Nat) : Int := if inc < 0 then x + ((n : Int) - 1 - i) * -inc else x + i * inc

/-- The vector at `x` has the elements `v 0, …, v (n-1)`. -/
def VecAt (m : Mem K) (x inc : Int) (n : Nat) (v : Nat → K) : Prop := ∀ i, i < n → m (elem x inc n i) = .val (v i)

/-- The cells of the vector at `x` may be written. -/
def VecMem (m : Mem K) (x inc : Int) (n : Nat) : Prop := ∀ i, i < n → m (elem x inc n i) ≠ .out

/-- `m'` differs from `m` at most in the vector at `y`. -/
def OnlyVec (m m' : Mem K) (y inc : Int) (n : Nat) : Prop := ∀ a, (∀ i, i < n → a ≠ elem y inc n i) → m' a = m a

/-- Two vectors without a common cell. -/
def VecDisj (x incX : Int) (n : Nat) (y incY : Int) (k : Nat) : Prop :=
  ∀ i j, i < n → j < k → elem x incX n i ≠ elem y incY k j

/-- Two vectors of the same length that are disjoint, or the same cells in the same order, or in general such that no element
of the first is an earlier element of the second. -/
def VecSafe (x incX y incY : Int) (n : Nat) : Prop := ∀ i j, i < n → j < i → elem x incX n i ≠ elem y incY n j

theorem VecDisj.safe {x incX y incY : Int} {n : Nat} (h : VecDisj x incX n y incY n) : VecSafe x incX y incY n :=
  fun i j hi hj => h i j hi (Nat.lt_trans hj hi)

/-! ### Matrices -/

/-- Offset of element `(i, j)` of a matrix with leading dimension `ld`. -/
def idx (o : Order) (ld : Int) (i j : Nat) : Int :=
  match o with
  | .rowMajor => i * ld + j
  | .colMajor => i + j * ld

/-- The positions of a matrix with `r` rows and `c` columns. -/
def full (r c : Nat) (i j : Nat) : Prop := i < r ∧ j < c

/-- The positions of the upper or lower triangle of a matrix of order `n`, with the diagonal. -/
def tri (u : UpLo) (n : Nat) (i j : Nat) : Prop :=
  i < n ∧ j < n ∧
    match u with
    | .upper => i ≤ j
    | .lower => j ≤ i

/-- The positions of a triangular matrix that are stored: all of the triangle, or without the diagonal if this is taken to
consist of ones. -/
def stored (u : UpLo) (d : Diag) (n : Nat) (i j : Nat) : Prop := tri u n i j ∧ (d = .unit → i ≠ j)

/-- The matrix at `A` has the elements `M i j` at the positions `P`. -/
def MatAt (m : Mem K) (A : Int) (o : Order) (ld : Int) (P : Nat → Nat → Prop) (M : Nat → Nat → K) : Prop :=
  ∀ i j, P i j → m (A + idx o ld i j) = .val (M i j)

/-- `m'` differs from `m` at most in the positions `P` of the matrix at `A`. -/
def OnlyMat (m m' : Mem K) (A : Int) (o : Order) (ld : Int) (P : Nat → Nat → Prop) : Prop :=
  ∀ a, (∀ i j, P i j → a ≠ A + idx o ld i j) → m' a = m a

/-- A matrix and a vector without a common cell. -/
def MatVecDisj (A : Int) (o : Order) (ld : Int) (P : Nat → Nat → Prop) (x inc : Int) (n : Nat) : Prop :=
  ∀ i j k, P i j → k < n → A + idx o ld i j ≠ elem x inc n k

/-- The leading dimension is large enough for `r` rows and `c` columns. -/
def LdOk (o : Order) (ld : Int) (r c : Nat) : Prop :=
  match o with
  | .rowMajor => (c : Int) ≤ ld
  | .colMajor => (r : Int) ≤ ld

/-- Conjugate if the bit is set. -/
def cj [Star K] (c : Bool) (v : K) : K := if c then star v else v

/-- Element of `op(M)`: `M`, its conjugate, its transpose or its conjugate transpose. -/
def opM [Star K] (t : Trans) (M : Nat → Nat → K) (i j : Nat) : K := cj t.conj (if t.trans then M j i else M i j)

/-- The symmetric matrix whose triangle `u` is that of `M`. -/
def symM (u : UpLo) (M : Nat → Nat → K) (i j : Nat) : K :=
  match u with
  | .upper => if i ≤ j then M i j else M j i
  | .lower => if j ≤ i then M i j else M j i

/-- The hermitian matrix whose triangle `u` is that of `M`, with the real part of the diagonal. -/
def herM [Star K] (re : K → K) (u : UpLo) (M : Nat → Nat → K) (i j : Nat) : K :=
  if i = j then re (M i i)
  else
    match u with
    | .upper => if i < j then M i j else star (M j i)
    | .lower => if j < i then M i j else star (M j i)

/-- The triangular matrix whose triangle `u` is that of `M`, with ones on the diagonal if `d` is `unit`. -/
def triM [Zero K] [One K] (u : UpLo) (d : Diag) (M : Nat → Nat → K) (i j : Nat) : K :=
  if i = j then
    match d with
    | .unit => 1
    | .nonUnit => M i i
  else
    match u with
    | .upper => if i < j then M i j else 0
    | .lower => if j < i then M i j else 0

end Verif.Blas
