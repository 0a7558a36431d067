import Verif.Spec.Blas3

/-! # Transposed positions, and triangles of matrices that need not be square -/

namespace Verif.Blas

/-- Position `(i, j)` of `op(A)` as a position of `A`. -/
def opP {α : Type} (t : Trans) (P : Nat → Nat → α) (i j : Nat) : α := if t.trans then P j i else P i j

/-- The positions of the upper or lower trapezoid of a matrix with `r` rows and `c` columns that are stored: with the diagonal, or
without if this is taken to consist of ones. -/
def trap (u : UpLo) (d : Diag) (r c : Nat) (i j : Nat) : Prop :=
  i < r ∧ j < c ∧
    (match u with
    | .upper => i ≤ j
    | .lower => j ≤ i) ∧
    (d = .unit → i ≠ j)

end Verif.Blas
