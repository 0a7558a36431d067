import Verif.Model.FromData

/-! Vocabulary for nested data, independent of the constructors. -/

namespace Verif.FromDataM

/-- The data form a rectangular block with these extents. -/
def Regular {α : Type} : (d : Nat) → Nest α d → List Nat → Prop
  | 0, _, dims => dims = []
  | d + 1, (xs : List (Nest α d)), dims => ∃ ds, dims = xs.length :: ds ∧ ∀ x ∈ xs, Regular d x ds

/-- The scalar reached by taking item `i`, then item `j` of that, ... -/
def itemAt {α : Type} : (d : Nat) → Nest α d → List Nat → Option α
  | 0, x, c => match c with
    | [] => some x
    | _ :: _ => none
  | d + 1, (xs : List (Nest α d)), c => match c with
    | [] => none
    | i :: is => (xs[i]?).bind fun x => itemAt d x is

/-- Number of scalars in the data. -/
def leaves {α : Type} : (d : Nat) → Nest α d → Nat
  | 0, _ => 1
  | d + 1, (xs : List (Nest α d)) => (xs.map (leaves d)).sum

end Verif.FromDataM
