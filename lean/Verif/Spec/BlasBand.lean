import Verif.Spec.Blas

/-!
# Banded and packed matrices in memory, as the BLAS standard describes them

A banded matrix with `kl` diagonals below and `ku` above the main diagonal is stored with its diagonals in the columns (row-major
order) or rows (column-major order) of an array with leading dimension `ld`. A packed triangle is stored row after row, or
column after column, without gaps.
-/

namespace Verif.Blas

open Finset

variable {K : Type}

/-- The positions of the band of a matrix with `r` rows and `c` columns. -/
def inBand (kl ku r c : Nat) (i j : Nat) : Prop := i < r ∧ j < c ∧ i ≤ j + kl ∧ j ≤ i + ku

/-- Offset of element `(i, j)` of a banded matrix. -/
def bandIdx (o : Order) (ld : Int) (kl ku : Nat) (i j : Nat) : Int :=
  match o with
  | .rowMajor => i * ld + (kl + j - i)
  | .colMajor => j * ld + (ku + i - j)

/-- The matrix that is zero outside of the band. -/
def bandM [Zero K] (kl ku : Nat) (M : Nat → Nat → K) (i j : Nat) : K := if i ≤ j + kl ∧ j ≤ i + ku then M i j else 0

/-- Diagonals below the main diagonal of a triangle with `k` further diagonals. -/
def lowerK (u : UpLo) (k : Nat) : Nat :=
  match u with
  | .upper => 0
  | .lower => k

/-- Diagonals above the main diagonal. -/
def upperK (u : UpLo) (k : Nat) : Nat :=
  match u with
  | .upper => k
  | .lower => 0

/-- Offset of element `(i, j)` of a triangle packed row by row: the number of elements stored before it. -/
def packRow (u : UpLo) (n i j : Nat) : Nat :=
  match u with
  | .upper => ∑ k ∈ range i, (n - k) + (j - i)
  | .lower => ∑ k ∈ range i, (k + 1) + j

/-- Offset of element `(i, j)` of a packed triangle; stored by columns it is the other triangle of the transpose, stored by
rows. -/
def packIdx (o : Order) (u : UpLo) (n : Nat) (i j : Nat) : Int :=
  match o with
  | .rowMajor => packRow u n i j
  | .colMajor => packRow u.flip n j i

/-- The matrix with element `(i, j)` at address `ad i j` has the elements `M i j` at the positions `P`. -/
def StAt (m : Mem K) (ad : Nat → Nat → Int) (P : Nat → Nat → Prop) (M : Nat → Nat → K) : Prop :=
  ∀ i j, P i j → m (ad i j) = .val (M i j)

/-- `m'` differs from `m` at most in the positions `P` of the matrix. -/
def OnlySt (m m' : Mem K) (ad : Nat → Nat → Int) (P : Nat → Nat → Prop) : Prop :=
  ∀ a, (∀ i j, P i j → a ≠ ad i j) → m' a = m a

/-- A matrix and a vector without a common cell. -/
def StVecDisj (ad : Nat → Nat → Int) (P : Nat → Nat → Prop) (x inc : Int) (n : Nat) : Prop :=
  ∀ i j k, P i j → k < n → ad i j ≠ elem x inc n k

/-- Addresses of a banded matrix at `A`. -/
def bandAd (A : Int) (o : Order) (ld : Int) (kl ku : Nat) (i j : Nat) : Int := A + bandIdx o ld kl ku i j

/-- Addresses of a packed triangle at `A`. -/
def packAd (A : Int) (o : Order) (u : UpLo) (n : Nat) (i j : Nat) : Int := A + packIdx o u n i j

/-- The stored positions of a banded triangle; without the diagonal if this is taken to consist of ones. -/
def triBand (u : UpLo) (d : Diag) (k n : Nat) (i j : Nat) : Prop :=
  inBand (lowerK u k) (upperK u k) n n i j ∧ (d = .unit → i ≠ j)

end Verif.Blas
