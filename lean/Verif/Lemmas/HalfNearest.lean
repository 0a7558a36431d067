import Verif.Lemmas.Half
import Mathlib.Tactic.Positivity
import Mathlib.Algebra.Order.Field.Power

/-! # Nearest halves -/

namespace Verif.HalfM

open HalfS

/-! ## Nearest halves -/

/-- A finite half is a multiple of `2^(E-25)` or below `2^(E-15)` in magnitude. -/
theorem half_grid (E : Nat) (hE : 1 ≤ E) (h : Nat) (hh : h < 2 ^ 16) (w : ℚ) (hw : (halfVal h).toRat? = some w) :
    (∃ k : Int, w = k * (2 : ℚ) ^ ((E : Int) - 25)) ∨ (E ≠ 1 ∧ |w| < (2 : ℚ) ^ ((E : Int) - 15)) := by
  obtain ⟨s, e, m, hs, he, hm, rfl⟩ := half_fields h hh
  rw [halfVal_eq s e m hs he hm] at hw
  have sgn : ∀ q : ℚ, ∃ t : Int, (if decide (s = 1) then -q else q) = t * q ∧ |(t : ℚ)| = 1 := by
    intro q
    by_cases h : s = 1
    · exact ⟨-1, by simp [h], by simp⟩
    · exact ⟨1, by simp [h], by simp⟩
  have z2 : (2 : ℚ) ≠ 0 := by norm_num
  by_cases h31 : e = 31
  · subst h31
    by_cases h0 : m = 0 <;> simp [h0, FV.toRat?] at hw
  · rw [if_neg h31] at hw
    by_cases he0 : e = 0
    · rw [if_pos he0] at hw
      simp only [FV.toRat?, Option.some.injEq] at hw
      obtain ⟨t, ht, ht1⟩ := sgn ((m : ℚ) * (2 : ℚ) ^ (-24 : Int))
      rw [ht] at hw
      by_cases hE1 : E = 1
      · left
        refine ⟨t * m, ?_⟩
        rw [← hw, hE1]; push_cast; norm_num; ring
      · right
        refine ⟨by omega, ?_⟩
        rw [← hw, abs_mul, ht1, one_mul, abs_of_nonneg (by positivity)]
        have h1 : (m : ℚ) < (2 : ℚ) ^ (10 : Int) := by norm_num; exact_mod_cast hm
        calc (m : ℚ) * (2 : ℚ) ^ (-24 : Int) < (2 : ℚ) ^ (10 : Int) * (2 : ℚ) ^ (-24 : Int) := by
              apply mul_lt_mul_of_pos_right h1; positivity
          _ = (2 : ℚ) ^ (-14 : Int) := by rw [← zpow_add₀ z2]; norm_num
          _ ≤ _ := zpow_le_zpow_right₀ (by norm_num) (by omega)
    · rw [if_neg he0] at hw
      simp only [FV.toRat?, Option.some.injEq] at hw
      obtain ⟨t, ht, ht1⟩ := sgn (((2 ^ 10 + m : ℕ) : ℚ) * (2 : ℚ) ^ ((e : Int) - 25))
      rw [ht] at hw
      by_cases hle : E ≤ e
      · left
        refine ⟨t * ((2 ^ 10 + m) * 2 ^ (e - E)), ?_⟩
        rw [← hw]
        push_cast
        rw [show (e : Int) - 25 = ((e - E : ℕ) : Int) + ((E : Int) - 25) by push_cast [hle]; ring, zpow_add₀ z2,
          zpow_natCast]
        ring
      · right
        refine ⟨by omega, ?_⟩
        rw [← hw, abs_mul, ht1, one_mul, abs_of_nonneg (by positivity)]
        have h1 : ((2 ^ 10 + m : ℕ) : ℚ) < (2 : ℚ) ^ (11 : Int) := by
          norm_num
          have : 1024 + m < 2048 := by omega
          exact_mod_cast this
        calc ((2 ^ 10 + m : ℕ) : ℚ) * (2 : ℚ) ^ ((e : Int) - 25) < (2 : ℚ) ^ (11 : Int) * (2 : ℚ) ^ ((e : Int) - 25) := by
              apply mul_lt_mul_of_pos_right h1; positivity
          _ = (2 : ℚ) ^ ((e : Int) - 14) := by rw [← zpow_add₀ z2]; congr 1; ring
          _ ≤ _ := zpow_le_zpow_right₀ (by norm_num) (by omega)

/-- The half `v = V·2^(E-25)` within half a place of a positive `q ≥ 2^(E-15)` is a nearest half. -/
theorem nearest_of_close (E : Nat) (hE : 1 ≤ E) (V : Int) (q : ℚ)
    (hclose : |(V : ℚ) * (2 : ℚ) ^ ((E : Int) - 25) - q| ≤ (2 : ℚ) ^ ((E : Int) - 25) / 2)
    (hq : E = 1 ∨ (2 : ℚ) ^ ((E : Int) - 15) ≤ |q|) (h : Nat) (hh : h < 2 ^ 16) (w : ℚ) (hw : (halfVal h).toRat? = some w) :
    |(V : ℚ) * (2 : ℚ) ^ ((E : Int) - 25) - q| ≤ |w - q| := by
  set U : ℚ := (2 : ℚ) ^ ((E : Int) - 25) with hU
  have hUpos : 0 < U := by rw [hU]; positivity
  -- among the multiples of `U` it is nearest
  have mult : ∀ k : Int, |(V : ℚ) * U - q| ≤ |(k : ℚ) * U - q| := by
    intro k
    by_cases hk : k = V
    · rw [hk]
    · have h1 : (1 : ℚ) ≤ |(V : ℚ) - k| := by
        have : (1 : Int) ≤ |V - k| := Int.one_le_abs (sub_ne_zero.2 (Ne.symm hk))
        exact_mod_cast this
      have h2 : U ≤ |(V : ℚ) * U - (k : ℚ) * U| := by
        rw [← sub_mul, abs_mul, abs_of_pos hUpos]
        nlinarith
      have h3 : |(V : ℚ) * U - (k : ℚ) * U| ≤ |(V : ℚ) * U - q| + |(k : ℚ) * U - q| := by
        rw [show (V : ℚ) * U - (k : ℚ) * U = ((V : ℚ) * U - q) - ((k : ℚ) * U - q) by ring]
        exact abs_sub _ _
      linarith
  rcases half_grid E hE h hh w hw with ⟨k, rfl⟩ | ⟨hne, hlt⟩
  · exact mult k
  · replace hq := hq.resolve_left hne
    -- a smaller half is farther away than the multiple `±2^(E-15)`
    have hB : (2 : ℚ) ^ ((E : Int) - 15) = (2 : ℚ) ^ (10 : Nat) * U := by
      rw [hU, ← zpow_natCast, ← zpow_add₀ (by norm_num)]; congr 1; push_cast; ring
    rcases le_or_gt 0 q with hq0 | hq0
    · have hm := mult (2 ^ 10)
      rw [abs_of_nonneg hq0] at hq
      rw [show (((2 ^ 10 : Int)) : ℚ) = (2 : ℚ) ^ (10 : Nat) by norm_num, ← hB,
        abs_sub_comm ((2 : ℚ) ^ ((E : Int) - 15)), abs_of_nonneg (by linarith : 0 ≤ q - (2 : ℚ) ^ ((E : Int) - 15))] at hm
      have := abs_lt.1 hlt
      rw [abs_sub_comm w, abs_of_nonneg (by linarith : 0 ≤ q - w)]
      linarith
    · have hm := mult (-2 ^ 10)
      rw [abs_of_neg hq0] at hq
      rw [show (((-2 ^ 10 : Int)) : ℚ) = -(2 : ℚ) ^ (10 : Nat) by norm_num, neg_mul, ← hB,
        abs_of_nonneg (by linarith : 0 ≤ -(2 : ℚ) ^ ((E : Int) - 15) - q)] at hm
      have := abs_lt.1 hlt
      rw [abs_of_nonneg (by linarith : 0 ≤ w - q)]
      linarith

end Verif.HalfM
