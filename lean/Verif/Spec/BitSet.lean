import Verif.Model.BitSet

/-! Specification vocabulary for bit sets: everything is read through `get`. -/

namespace Verif.BitSetM

/-- No bit at or above the size is set (as far as the allocated words reach). -/
def Clean {n : Nat} (s : BS n) : Prop := ∀ i, n ≤ i → i < 64 * numElements n → get s i = .ok false

/-- A history of single-bit writes. -/
def runWrites {n : Nat} (s : BS n) : List (Nat × Bool) → Out (BS n)
  | [] => .ok s
  | (i, v) :: h => do
    let s' ← set s i v
    runWrites s' h

end Verif.BitSetM
