import Verif.Lemmas.Half
import Mathlib.Tactic.Positivity
import Mathlib.Algebra.Order.Field.Power

/-! # `half` to `float` and back -/

namespace Verif.HalfM

open HalfS

theorem top31 (s r : Nat) (hr : r < 2 ^ 31) : (s * 2 ^ 31 + r) / 2 ^ 31 = s := by omega
theorem top15 (s r : Nat) (hr : r < 2 ^ 15) : (s * 2 ^ 15 + r) / 2 ^ 15 = s := by omega

/-! ### A subnormal half as a `float` -/

theorem log2_bounds {m : Nat} (h0 : m ≠ 0) (hm : m < 2 ^ 10) :
    Nat.log2 m ≤ 9 ∧ 2 ^ Nat.log2 m ≤ m ∧ m < 2 ^ (Nat.log2 m + 1) := by
  refine ⟨?_, Nat.log2_self_le h0, Nat.lt_log2_self⟩
  have := (Nat.log2_lt h0).2 hm
  omega

theorem subFrac_eq {m : Nat} (h0 : m ≠ 0) (hm : m < 2 ^ 10) :
    subFrac m + 2 ^ 23 = m * 2 ^ (23 - Nat.log2 m) ∧ subFrac m < 2 ^ 23 ∧ 103 ≤ subExp m ∧ subExp m ≤ 112 := by
  obtain ⟨h9, hlo, hhi⟩ := log2_bounds h0 hm
  have e1 : 2 ^ Nat.log2 m * 2 ^ (23 - Nat.log2 m) = 2 ^ 23 := by
    rw [← pow_add, show Nat.log2 m + (23 - Nat.log2 m) = 23 by omega]
  have e2 : 2 ^ (Nat.log2 m + 1) * 2 ^ (23 - Nat.log2 m) = 2 ^ 24 := by
    rw [← pow_add, show Nat.log2 m + 1 + (23 - Nat.log2 m) = 24 by omega]
  have a : 2 ^ 23 ≤ m * 2 ^ (23 - Nat.log2 m) := e1 ▸ Nat.mul_le_mul_right (2 ^ (23 - Nat.log2 m)) hlo
  have b : m * 2 ^ (23 - Nat.log2 m) < 2 ^ 24 :=
    e2 ▸ Nat.mul_lt_mul_of_pos_right hhi (Nat.two_pow_pos (23 - Nat.log2 m))
  exact ⟨Nat.sub_add_cancel a, Nat.sub_lt_left_of_lt_add a b, Nat.le_add_left _ _, Nat.add_le_add_right h9 103⟩

theorem sub_value {m : Nat} (h0 : m ≠ 0) (hm : m < 2 ^ 10) :
    ((2 ^ 23 + subFrac m : ℕ) : ℚ) * (2 : ℚ) ^ ((subExp m : Int) - 150) = m * (2 : ℚ) ^ (-24 : Int) := by
  obtain ⟨h9, -, -⟩ := log2_bounds h0 hm
  rw [Nat.add_comm, (subFrac_eq h0 hm).1]
  push_cast
  rw [mul_assoc, ← zpow_natCast (2 : ℚ) (23 - Nat.log2 m), ← zpow_add₀ (by norm_num)]
  congr 2
  simp only [subExp]
  push_cast [h9]
  omega

theorem exact (W : Wide) (h : Nat) (hh : h < 2 ^ 16) :
    ∃ f, f < 2 ^ 32 ∧ halfToFloat W h = .ok f ∧ floatVal f = halfVal h ∧ f / 2 ^ 31 = h / 2 ^ 15 := by
  obtain ⟨s, e, m, hs, he, hm, rfl⟩ := half_fields h hh
  clear hh
  by_cases he0 : e = 0
  · subst he0
    have c := halfToFloat_sub W s m hs hm
    rw [show s * 2 ^ 15 + 0 * 2 ^ 10 + m = s * 2 ^ 15 + m by omega]
    by_cases h0 : m = 0
    · subst h0
      rw [if_pos rfl] at c
      refine ⟨_, ?_, c, ?_, ?_⟩
      · clear c; omega
      · have e1 := floatVal_eq s 0 0 hs (by norm_num) (by norm_num)
        have e2 := halfVal_eq s 0 0 hs (by norm_num) (by norm_num)
        simp only [Nat.zero_mul, Nat.add_zero] at e1 e2 ⊢
        rw [e1, e2]
        simp
      · rw [top31 s 0 (by norm_num), Nat.add_zero, Nat.mul_div_cancel _ (by norm_num)]
    · rw [if_neg h0] at c
      obtain ⟨hf, hf', hl, hu⟩ := subFrac_eq h0 hm
      refine ⟨_, ?_, c, ?_, ?_⟩
      · clear c; omega
      · have e1 := floatVal_eq s (subExp m) (subFrac m) hs (by omega) hf'
        have e2 := halfVal_eq s 0 m hs (by norm_num) hm
        rw [if_neg (by omega), if_neg (by omega), sub_value h0 hm] at e1
        rw [← Nat.add_assoc, e1]
        simp only [Nat.zero_mul, Nat.add_zero] at e2
        rw [e2]
        simp
      · rw [top31 s _ (by omega), top15 s m (by omega)]
  · refine ⟨_, ?_, halfToFloat_eq W s e m hs he he0 hm, ?_, ?_⟩
    · by_cases h31 : e = 31
      · rw [if_pos h31]; omega
      · rw [if_neg h31]; omega
    · rw [floatVal_eq s _ _ hs (by split <;> omega) (by omega), halfVal_eq s e m hs he hm]
      by_cases h31 : e = 31
      · subst h31
        by_cases h0 : m = 0 <;> simp [h0]
      · rw [if_neg h31, if_neg h31, if_neg (by omega), if_neg (by omega), if_neg he0]
        congr 1
        push_cast
        rw [show (e : Int) - 25 = ((e : Int) + 112 - 150) + 13 by ring, zpow_add₀ (by norm_num : (2 : ℚ) ≠ 0)]
        norm_num
        ring
    · rw [Nat.add_assoc, Nat.add_assoc, top15 s _ (by omega)]
      apply top31
      by_cases h31 : e = 31
      · rw [if_pos h31]; omega
      · rw [if_neg h31]; omega

/-! ### Back again -/

theorem rounded_of_dvd {m : Nat} (h : m % 2 ^ 13 = 0) : rounded m = m := by
  unfold rounded
  have : m / 2 ^ 12 % 2 = 0 := by omega
  omega

theorem shr_some (w : Nat → Nat → Nat) (a k : Nat) : ∃ d, shr (some w) a k = .ok d := by
  unfold shr wide
  split <;> exact ⟨_, rfl⟩

theorem roundTrip_norm (w : Nat → Nat → Nat) (s e m : Nat) (hs : s < 2) (he : e < 32) (he0 : e ≠ 0) (hm : m < 2 ^ 10)
    (h31 : e = 31 → m = 0) :
    floatToHalf (some w) (s * 2 ^ 31 + (if e = 31 then 255 else e + 112) * 2 ^ 23 + m * 2 ^ 13) =
      .ok (s * 2 ^ 15 + e * 2 ^ 10 + m) := by
  rw [floatToHalf_eq _ s _ _ hs (by split <;> omega) (by omega)]
  obtain ⟨d, hd⟩ := shr_some w (rounded (m * 2 ^ 13) ||| 2 ^ 23) (sub32 1 (sub32 (if e = 31 then 255 else e + 112) 112))
  rw [hd, Out.ok_bind]
  have hr : rounded (m * 2 ^ 13) = m * 2 ^ 13 := rounded_of_dvd (by omega)
  have hb : halfBody (if e = 31 then 255 else e + 112) (m * 2 ^ 13) d = e * 2 ^ 10 + m := by
    unfold halfBody
    rw [hr]
    by_cases h : e = 31
    · rw [if_pos h, h31 h, h]; norm_num
    · rw [if_neg h, if_neg (by omega), if_neg (by omega), if_neg (by omega), if_neg (by omega)]
      omega
  rw [hb, Nat.mod_eq_of_lt (by omega : e * 2 ^ 10 + m < 2 ^ 32), or_add 15 (by omega),
    Nat.mod_eq_of_lt (by omega), Nat.add_assoc]

theorem or_hidden {a : Nat} (h : a < 2 ^ 23) : a ||| 2 ^ 23 = a + 2 ^ 23 := by
  rw [Nat.or_comm]
  have := or_add (a := 1) 23 h
  rw [Nat.one_mul] at this
  rw [this, Nat.add_comm]

theorem roundTrip_sub (W : Wide) (s m : Nat) (hs : s < 2) (h0 : m ≠ 0) (hm : m < 2 ^ 10) :
    floatToHalf W (s * 2 ^ 31 + subExp m * 2 ^ 23 + subFrac m) = .ok (s * 2 ^ 15 + m) := by
  obtain ⟨hf, hf', hl, hu⟩ := subFrac_eq h0 hm
  obtain ⟨h9, hlo, hhi⟩ := log2_bounds h0 hm
  rw [floatToHalf_eq _ s _ _ hs (by omega) hf']
  have hsa : sub32 1 (sub32 (subExp m) 112) = 10 - Nat.log2 m := by
    simp only [sub32, subExp]; omega
  have hdiv : subFrac m % 2 ^ 13 = 0 := by
    have : 2 ^ 13 ∣ m * 2 ^ (23 - Nat.log2 m) := (pow_dvd_pow 2 (by omega)).mul_left m
    omega
  rw [rounded_of_dvd hdiv, or_hidden hf', hf, hsa, shr, if_pos (by omega), Out.ok_bind, Nat.shiftRight_eq_div_pow]
  have hq : m * 2 ^ (23 - Nat.log2 m) / 2 ^ (10 - Nat.log2 m) = m * 2 ^ 13 := by
    rw [show 23 - Nat.log2 m = 13 + (10 - Nat.log2 m) by omega, pow_add, ← Nat.mul_assoc]
    exact Nat.mul_div_cancel _ (Nat.two_pow_pos _)
  have hb : halfBody (subExp m) (subFrac m) (m * 2 ^ 13) = m := by
    unfold halfBody
    rw [if_neg (by omega), if_pos hu]
    omega
  rw [hq, hb, Nat.mod_eq_of_lt (by omega : m < 2 ^ 32), or_add 15 (by omega), Nat.mod_eq_of_lt (by omega)]

end Verif.HalfM
