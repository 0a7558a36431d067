import Verif.Model.Pseudo
import Mathlib.Tactic.Ring
import Mathlib.Tactic.FieldSimp
import Mathlib.Tactic.Linarith

/-! Evaluation of the filling loop. -/

namespace Verif.PseudoM

open ShapeM Grid

theorem u32_of_lt {n : Int} (h0 : 0 ≤ n) (h : n < 2 ^ 32) : u32 n = n.toNat := by
  unfold u32 two32
  omega

theorem fillLoop_ok {α : Type} (asserts : Bool) (junk : Nat → α) (n : Nat) (f : Nat → α) :
    fillLoop asserts junk n f = .ok ((List.range n).map f) := by
  obtain ⟨s, e, h1, h2⟩ := forUp_inv (lo := 0) (hi := n) (body := put asserts f) (s := fresh junk n)
    (P := fun k d => d.length = n ∧ ∀ q : Nat, q < k → d[q]? = some (f q)) (by omega)
    ⟨by simp [fresh], fun q h => absurd h (by omega)⟩ (by
      rintro i d - hi ⟨h1, h2⟩
      refine ⟨d.set i (f i), ?_, by simpa using h1, fun q hq => ?_⟩
      · have : i < d.length := by omega
        unfold put
        simp [this]
      · by_cases hqi : q = i
        · subst hqi
          rw [List.getElem?_set_self (by omega)]
        · rw [List.getElem?_set_ne (by omega)]
          exact h2 q (by omega))
  unfold fillLoop
  rw [e]
  congr 1
  apply List.ext_getElem?
  intro q
  by_cases hq : q < n
  · rw [h2 q hq]
    simp [hq]
  · rw [List.getElem?_eq_none (by omega), List.getElem?_eq_none (by simp; omega)]

end Verif.PseudoM
