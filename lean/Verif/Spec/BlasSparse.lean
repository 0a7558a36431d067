import Verif.Model.BlasMem
import Verif.Spec.Blas
import Mathlib.Algebra.BigOperators.Intervals

/-! Sparse matrices in compressed row storage. -/

namespace Verif.Blas

open Finset

variable {K : Type}

/-- Entries in the order of the rows: row `i` has the entries from `ptr i` to `ptr (i + 1)`; entry `k` is in column `col k`. -/
structure Crs (K : Type) where
  ptr : Nat → Nat
  col : Nat → Nat
  v : Nat → K

/-- The arrays at `ia`, `ja`, `A` hold the matrix `S` of `r` rows and `c` columns, with index base `b`. -/
structure CrsAt (I : Mem Int) (m : Mem K) (A ia ja b : Int) (r c : Nat) (S : Crs K) : Prop where
  zero : S.ptr 0 = 0
  mono : ∀ i, i < r → S.ptr i ≤ S.ptr (i + 1)
  rows : ∀ i, i ≤ r → I (ia + i) = .val (b + S.ptr i)
  cols : ∀ k, k < S.ptr r → I (ja + k) = .val (b + S.col k)
  colLt : ∀ k, k < S.ptr r → S.col k < c
  vals : ∀ k, k < S.ptr r → m (A + k) = .val (S.v k)

/-- The element in row `i` and column `j`: the sum of the entries of row `i` that belong to column `j`. -/
def crsM [AddCommMonoid K] (S : Crs K) (i j : Nat) : K :=
  ∑ k ∈ Ico (S.ptr i) (S.ptr (i + 1)), if S.col k = j then S.v k else 0

/-- Row `i` has entries in triangle `u` only, in the order of the columns. -/
structure TriRow (u : UpLo) (S : Crs K) (i : Nat) : Prop where
  tri : ∀ k, S.ptr i ≤ k → k < S.ptr (i + 1) → (u = .upper → i ≤ S.col k) ∧ (u = .lower → S.col k ≤ i)
  sorted : ∀ k l, S.ptr i ≤ k → k < l → l < S.ptr (i + 1) → S.col k < S.col l

end Verif.Blas
