import Verif.Spec.BlasBand

/-! # Matrices as results: cells that may be written, and matrices without a common cell -/

namespace Verif.Blas

variable {K : Type}

/-- Addresses of a dense matrix at `A`. -/
def matAd (A : Int) (o : Order) (ld : Int) (i j : Nat) : Int := A + idx o ld i j

/-- The positions `P` of the matrix at `A` may be written. -/
def MatMem (m : Mem K) (A : Int) (o : Order) (ld : Int) (P : Nat → Nat → Prop) : Prop :=
  ∀ i j, P i j → m (A + idx o ld i j) ≠ .out

/-- Two matrices without a common cell. -/
def StDisj (ad : Nat → Nat → Int) (P : Nat → Nat → Prop) (ad' : Nat → Nat → Int) (P' : Nat → Nat → Prop) : Prop :=
  ∀ i j k l, P i j → P' k l → ad i j ≠ ad' k l

/-- Order of the square matrix multiplied from the given side to a matrix with `r` rows and `c` columns. -/
def sideDim (s : Side) (r c : Nat) : Nat :=
  match s with
  | .left => r
  | .right => c

/-- `S B` or `B S`, for `B` with `r` rows and `c` columns. -/
def sideMul [Mul K] [AddCommMonoid K] (s : Side) (r c : Nat) (S B : Nat → Nat → K) (i j : Nat) : K :=
  match s with
  | .left => ∑ k ∈ Finset.range r, S i k * B k j
  | .right => ∑ k ∈ Finset.range c, B i k * S k j

end Verif.Blas
