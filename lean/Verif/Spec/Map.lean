import Verif.Model.Map

/-! # What a history of a map means, independently of any data structure -/

namespace Verif.MapS

open MapM

variable {K V : Type}

/-- The value last set for a key equivalent to `k`, if it has not been erased since. -/
def last (eqv : K → K → Prop) [∀ a b, Decidable (eqv a b)] (k : K) : List (Op K V) → Option V → Option V
  | [], acc => acc
  | .set k' v :: h, acc => last eqv k h (if eqv k' k then some v else acc)
  | .erase k' :: h, acc => last eqv k h (if eqv k' k then none else acc)
  | .clear :: h, _ => last eqv k h none

/-- A strict weak ordering, which `std::map` requires of its comparison. -/
structure StrictWeak (less : K → K → Bool) : Prop where
  irrefl : ∀ a, less a a = false
  trans : ∀ a b c, less a b = true → less b c = true → less a c = true
  weak : ∀ a b c, less a b = true → less a c = true ∨ less c b = true

/-- Equivalence of keys under a comparison. -/
abbrev Eqv (less : K → K → Bool) (a b : K) : Prop := less a b = false ∧ less b a = false

/-- What `std::unordered_map` requires of its hash and key equality. -/
structure HashEq (hash : K → Nat) (eq : K → K → Bool) : Prop where
  refl : ∀ a, eq a a = true
  symm : ∀ a b, eq a b = true → eq b a = true
  trans : ∀ a b c, eq a b = true → eq b c = true → eq a c = true
  hash : ∀ a b, eq a b = true → hash a = hash b

end Verif.MapS
