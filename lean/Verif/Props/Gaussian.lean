import Verif.Props.Random
import Mathlib.Analysis.SpecialFunctions.Log.Basic
import Mathlib.Analysis.SpecialFunctions.Sqrt

/-!
# C90: `randomGaussian`
-/

namespace Verif.RandomM

open Verif.Ieee

/-- Every draw of the generator is a `double` of `[0, 1)`. -/
def Draws {G : Type} (gen : Gen G) : Prop := ∀ g, Draw (gen.draw g).1

/-- What the loop hands on: two numbers from -1 to 1, and the sum of their squares as the machine computes it, which is neither zero nor
reaches one. -/
theorem polar_spec {G : Type} {gen : Gen G} (hg : Draws gen) (fuel : Nat) : ∀ {st : St G} {r : (ℚ × ℚ × ℚ) × St G},
    polar (rnd binary64) gen fuel st = some r →
      |r.1.1| ≤ 1 ∧ |r.1.2.1| ≤ 1 ∧ 0 < r.1.2.2 ∧ r.1.2.2 < 1 ∧
      r.1.2.2 = rnd binary64 (rnd binary64 (r.1.1 ^ 2) + rnd binary64 (r.1.2.1 ^ 2)) ∧ r.2.gauss = st.gauss := by
  have r1 : Repr binary64 1 := by simpa using repr_two_zpow (f := binary64) (e := 0) (by decide)
  have hv : ∀ u, Draw u → |randomVal (rnd binary64) (-1) 1 u| ≤ 1 := fun u hu => by
    have := C43_random (-1) 1 u (repr_neg r1) r1 (by norm_num) hu
    exact abs_le.2 this
  induction fuel with
  | zero => intro st r h; simp [polar] at h
  | succ m ih =>
    intro st r h
    rw [polar] at h
    split at h
    · obtain ⟨a1, a2, a3, a4, a5, a6⟩ := ih h
      exact ⟨a1, a2, a3, a4, a5, a6⟩
    · rename_i hs
      cases h
      push Not at hs
      refine ⟨hv _ (hg _), hv _ (hg _), lt_of_le_of_ne ?_ (Ne.symm hs.2), hs.1, by simp only [pow_two], rfl⟩
      refine rnd_nonneg (add_nonneg (rnd_nonneg (mul_self_nonneg _)) (rnd_nonneg (mul_self_nonneg _)))

/-- **C90** A call of `randomGaussian` that has no value left returns `v1 * sqrt(-2 log s / s)` and keeps `v2 * sqrt(-2 log s / s)`,
for two numbers from -1 to 1 whose squares add up to `s`, computed by the machine, with `0 < s < 1`: the logarithm, the quotient and
the root are those of positive numbers. The call after it returns the value kept and draws nothing. -/
theorem C90_pair {G : Type} {gen : Gen G} (hg : Draws gen) (mult : ℚ → ℚ) {fuel : Nat} {st st' : St G} {res : ℚ} (h0 : st.gauss = none)
    (h : gaussian (rnd binary64) mult gen fuel st = some (res, st')) :
    ∃ v1 v2 s, |v1| ≤ 1 ∧ |v2| ≤ 1 ∧ 0 < s ∧ s < 1 ∧ s = rnd binary64 (rnd binary64 (v1 ^ 2) + rnd binary64 (v2 ^ 2)) ∧
      res = rnd binary64 (v1 * mult s) ∧
      ∀ fuel', gaussian (rnd binary64) mult gen fuel' st' = some (rnd binary64 (v2 * mult s), { st' with gauss := none }) := by
  unfold gaussian at h
  rw [h0] at h
  simp only [Option.map_eq_some_iff] at h
  obtain ⟨r, hr, he⟩ := h
  obtain ⟨a1, a2, a3, a4, a5, -⟩ := polar_spec hg fuel hr
  cases he
  exact ⟨r.1.1, r.1.2.1, r.1.2.2, a1, a2, a3, a4, a5, rfl, fun fuel' => rfl⟩

/-- **C90** In exact arithmetic the two values are a point of the circle of radius `sqrt(-2 log s)`, in the direction of `(v1, v2)`;
the radius is positive. -/
theorem C90_radius {v1 v2 s : ℝ} (hs : s = v1 ^ 2 + v2 ^ 2) (h0 : 0 < s) (h1 : s < 1) :
    let m := Real.sqrt (-2 * Real.log s / s)
    (v1 * m) ^ 2 + (v2 * m) ^ 2 = -2 * Real.log s ∧ 0 < -2 * Real.log s ∧ 0 < m := by
  have hl : 0 < -2 * Real.log s := by have := Real.log_neg h0 h1; linarith
  have hm : 0 < -2 * Real.log s / s := div_pos hl h0
  refine ⟨?_, hl, Real.sqrt_pos.2 hm⟩
  rw [mul_pow, mul_pow, Real.sq_sqrt hm.le, ← add_mul, ← hs]
  field_simp

/-- The hypotheses are met by a generator that first draws `1/2` twice, which gives zero and is rejected, and then `3/4`. -/
def exGen : Gen Nat := ⟨fun s => s, fun g => (if g < 2 then 1 / 2 else 3 / 4, g + 1)⟩

example : Draws exGen := fun g => by
  unfold exGen
  simp only
  split
  · exact ⟨⟨1, -1, by decide, by decide, by norm_num⟩, by norm_num, by norm_num⟩
  · exact ⟨⟨3, -2, by decide, by decide, by norm_num⟩, by norm_num, by norm_num⟩

example : (polar (rnd binary64) exGen 2 (start 0)).map Prod.fst = some (1 / 2, 1 / 2, 1 / 2) ∧
    (polar (rnd binary64) exGen 1 (start 0)).map Prod.fst = none := by decide +kernel

end Verif.RandomM
