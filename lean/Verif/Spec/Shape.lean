/-! Vocabulary for the shape and indexing properties, independent of the model. -/

namespace Verif.Grid

/-- Number of elements of an array with these extents. -/
def count : List Nat → Nat
  | [] => 1
  | d :: ds => d * count ds

/-- All coordinate lists of an array with these extents, in row-major (lexicographic) order. -/
def coords : List Nat → List (List Nat)
  | [] => [[]]
  | d :: ds => (List.range d).flatMap fun i => (coords ds).map fun c => i :: c

/-- All shapes of the list are the same. -/
def AllSame (l : List (List Nat)) : Prop := ∀ a ∈ l, ∀ b ∈ l, a = b

end Verif.Grid
