import Verif.Lemmas.HalfMul
import Mathlib.Tactic.IntervalCases

/-! # Products of halves: which are nearest -/

namespace Verif.HalfM

open HalfS

/-! ## Order of the operands -/

theorem sign_xor {s e m s' e' m' : Nat} (hs : s < 2) (he : e < 32) (hm : m < 2 ^ 10) (hs' : s' < 2) (he' : e' < 32)
    (hm' : m' < 2 ^ 10) :
    ((s * 2 ^ 15 + e * 2 ^ 10 + m) &&& 0x8000) ^^^ ((s' * 2 ^ 15 + e' * 2 ^ 10 + m') &&& 0x8000) =
      (s + s') % 2 * 2 ^ 15 := by
  rw [signBits_eq hs he hm, signBits_eq hs' he' hm']
  have h1 : s = 0 ∨ s = 1 := by omega
  have h2 : s' = 0 ∨ s' = 1 := by omega
  rcases h1 with rfl | rfl <;> rcases h2 with rfl | rfl <;> rfl

theorem word_lt {s e m : Nat} (hs : s < 2) (he : e < 32) (hm : m < 2 ^ 10) : s * 2 ^ 15 + e * 2 ^ 10 + m < 2 ^ 16 := by omega

/-- The operand of exponent field 0, if any, comes second. -/
theorem halfMul_order (W : Wide) {s e m s' e' m' : Nat} (hs : s < 2) (he : e < 32) (hm : m < 2 ^ 10) (hs' : s' < 2)
    (he' : e' < 32) (hm' : m' < 2 ^ 10) :
    halfMul W (s * 2 ^ 15 + e * 2 ^ 10 + m) (s' * 2 ^ 15 + e' * 2 ^ 10 + m') =
      if e = 0 then mulCore W ((s + s') % 2 * 2 ^ 15) (s * 2 ^ 15) (s' * 2 ^ 15 + e' * 2 ^ 10 + m') (s * 2 ^ 15 + e * 2 ^ 10 + m)
      else mulCore W ((s + s') % 2 * 2 ^ 15) (s * 2 ^ 15) (s * 2 ^ 15 + e * 2 ^ 10 + m) (s' * 2 ^ 15 + e' * 2 ^ 10 + m') := by
  have l1 := word_lt hs he hm
  have l2 := word_lt hs' he' hm'
  rw [halfMul_core, sign_xor hs he hm hs' he' hm', signBits_eq hs he hm,
    show (s * 2 ^ 15 + e * 2 ^ 10 + m) &&& 0x7c00 = e * 2 ^ 10 from expBits_eq hs he hm, sels32, sels32]
  have m1 : (s * 2 ^ 15 + e * 2 ^ 10 + m) % 2 ^ 32 = s * 2 ^ 15 + e * 2 ^ 10 + m := Nat.mod_eq_of_lt (lt_trans l1 (by norm_num))
  have m2 : (s' * 2 ^ 15 + e' * 2 ^ 10 + m') % 2 ^ 32 = s' * 2 ^ 15 + e' * 2 ^ 10 + m' := Nat.mod_eq_of_lt (lt_trans l2 (by norm_num))
  rw [m1, m2]
  by_cases h : e = 0
  · have hlt : 2 ^ 31 ≤ sub32 (e * 2 ^ 10) 1 := by unfold sub32; omega
    rw [if_pos hlt, if_pos hlt, if_pos h]
  · have hlt : ¬ 2 ^ 31 ≤ sub32 (e * 2 ^ 10) 1 := by unfold sub32; omega
    rw [if_neg hlt, if_neg hlt, if_neg h]

/-! ## The shift counts -/

theorem sa_first (e : Nat) (he : e < 32) : sub32 15 e < 32 ↔ e ≤ 15 := by unfold sub32; omega
theorem sa_first_eq {e : Nat} (he : e ≤ 15) : sub32 15 e = 15 - e := by unfold sub32; omega
theorem sa_second (C : Nat) (hC : C < 64) : shl32 (sub32 0 (sub32 C 15)) 1 < 32 ↔ C ≤ 15 := by
  simp only [shl32, sub32, Nat.shiftLeft_eq]; omega

theorem mulCore_undefined {s e m s' e' m' t as : Nat} (hs : s < 2) (he : e < 32) (hm : m < 2 ^ 10) (hs' : s' < 2)
    (he' : e' < 32) (hm' : m' < 2 ^ 10) (ht : t < 2) :
    mulCore none (t * 2 ^ 15) as (s * 2 ^ 15 + e * 2 ^ 10 + m) (s' * 2 ^ 15 + e' * 2 ^ 10 + m') = .ub ↔ 15 < e + e' := by
  rw [mulCore_eq none hs he hm hs' he' hm' ht _ _ rfl rfl]
  unfold shr
  by_cases h1 : e ≤ 15
  · rw [if_pos ((sa_first e he).2 h1), Out.ok_bind]
    by_cases h2 : e + e' ≤ 15
    · rw [if_pos ((sa_second _ (by omega)).2 h2), Out.ok_bind]
      constructor
      · intro h; cases h
      · intro h; omega
    · rw [if_neg (fun h => h2 ((sa_second _ (by omega)).1 h))]
      exact ⟨fun _ => by omega, fun _ => rfl⟩
  · rw [if_neg (fun h => h1 ((sa_first e he).1 h))]
    exact ⟨fun _ => by omega, fun _ => rfl⟩

/-- With the wide shifts defined the result is `prodRes`, for the significand of a subnormal product shifted in full when the
exponent field is at most 15. -/
theorem mulCore_some (w : Nat → Nat → Nat) {s e m s' e' m' t as : Nat} (hs : s < 2) (he : e < 32) (hm : m < 2 ^ 10) (hs' : s' < 2)
    (he' : e' < 32) (hm' : m' < 2 ^ 10) (ht : t < 2) :
    ∃ d, mulCore (some w) (t * 2 ^ 15) as (s * 2 ^ 15 + e * 2 ^ 10 + m) (s' * 2 ^ 15 + e' * 2 ^ 10 + m') =
        .ok (prodRes t e m e' m' d) ∧
      (e ≤ 15 → d = ((2 ^ 10 + m) * m' + (2 ^ 10 + m) * m' % 2 ^ 10) / 2 ^ 10 / 2 ^ (15 - e)) ∧
      (15 < e → d = w (((2 ^ 10 + m) * m' + (2 ^ 10 + m) * m' % 2 ^ 10) / 2 ^ 10) (sub32 15 e) % 2 ^ 32) := by
  rw [mulCore_eq (some w) hs he hm hs' he' hm' ht _ _ rfl rfl]
  generalize hD : ((2 ^ 10 + m) * m' + (2 ^ 10 + m) * m' % 2 ^ 10) / 2 ^ 10 = D
  generalize hP : (2 ^ 10 + m) * (2 ^ 10 + m') = P
  obtain ⟨u, hu⟩ := shr_some w P (shl32 (sub32 0 (sub32 (e + e') 15)) 1)
  rw [hu]
  unfold shr
  by_cases h1 : e ≤ 15
  · rw [if_pos ((sa_first e he).2 h1), Out.ok_bind, Out.ok_bind, sa_first_eq h1, Nat.shiftRight_eq_div_pow]
    exact ⟨_, rfl, fun _ => rfl, fun h => by omega⟩
  · rw [if_neg (fun h => h1 ((sa_first e he).1 h))]
    exact ⟨_, rfl, fun h => by omega, fun _ => rfl⟩

/-! ## Values -/

theorem signed_mul (s s' : Nat) (hs : s < 2) (hs' : s' < 2) (p q : ℚ) :
    signed s p * signed s' q = signed ((s + s') % 2) (p * q) := by
  have h1 : s = 0 ∨ s = 1 := by omega
  have h2 : s' = 0 ∨ s' = 1 := by omega
  rcases h1 with rfl | rfl <;> rcases h2 with rfl | rfl <;> simp [signed]

theorem mag_mul {e m e' m' : Nat} (he : e ≠ 0) (he' : e' ≠ 0) :
    mag e m * mag e' m' = (((2 ^ 10 + m) * (2 ^ 10 + m') : ℕ) : ℚ) * (2 : ℚ) ^ (((e + e' : ℕ) : Int) - 50) := by
  unfold mag
  rw [if_neg he, if_neg he', show (((e + e' : ℕ) : Int) - 50) = ((e : Int) - 25) + ((e' : Int) - 25) by push_cast; ring,
    zpow_add₀ (by norm_num)]
  push_cast
  ring

/-- A subnormal result, or one of exponent field 1, rounded within half a place. -/
theorem assemble_sub (s V : Nat) (z : ℚ) (hs : s < 2) (hV : V < 2 ^ 11) (hz0 : 0 ≤ z) (hz : |(V : ℚ) - z| ≤ 1 / 2) :
    NearestHalf (s * 2 ^ 15 + V) (signed s (z * (2 : ℚ) ^ (-24 : Int))) := by
  have hVq : (V : ℚ) < 2 ^ 11 := by exact_mod_cast hV
  have hU' : (0 : ℚ) < (2 : ℚ) ^ (-24 : Int) := by positivity
  rw [show (-24 : Int) = (1 : Int) - 25 by norm_num]
  apply nearest_signed _ s 1 V _ le_rfl (by positivity)
  · have hz2 := (abs_le.1 hz).1
    calc z * (2 : ℚ) ^ ((1 : Int) - 25) ≤ (2 ^ 11 + 1) * 1 := by
          apply mul_le_mul (by linarith) _ (by positivity) (by positivity)
          exact zpow_le_one_of_nonpos₀ (by norm_num) (by norm_num)
      _ < 65520 := by norm_num
  · by_cases h : V < 2 ^ 10
    · rw [toRat_sub s V hs h]; norm_num
    · have := toRat_of_units s 1 V hs le_rfl (by omega) (by omega) (by omega)
      rw [show s * 2 ^ 15 + (1 * 2 ^ 10 + (V - 2 ^ 10)) = s * 2 ^ 15 + V by omega] at this
      exact this
  · push_cast
    rw [← sub_mul, abs_mul, abs_of_pos hU', mul_comm, ← mul_one_div ((2 : ℚ) ^ (-24 : Int)) 2]
    exact mul_le_mul_of_nonneg_left hz hU'.le
  · exact Or.inl rfl

theorem near_half {V a b : Nat} (hb : 0 < b) (h1 : 2 * b * V ≤ 2 * a + b) (h2 : 2 * a ≤ 2 * b * V + b) :
    |(V : ℚ) - (a : ℚ) / b| ≤ 1 / 2 := by
  have hb' : (0 : ℚ) < b := by exact_mod_cast hb
  have h1' : (2 * b * V : ℚ) ≤ 2 * a + b := by exact_mod_cast h1
  have h2' : (2 * a : ℚ) ≤ 2 * b * V + b := by exact_mod_cast h2
  rw [abs_le]
  have e1 : (a : ℚ) = (a : ℚ) / b * b := by field_simp
  set z := (a : ℚ) / b
  rw [e1] at h1' h2'
  constructor
  · by_contra hc
    push Not at hc
    nlinarith
  · by_contra hc
    push Not at hc
    nlinarith

/-- The rounding carries out of the significand. -/
def CarryN (C P : Nat) : Prop :=
  (16 ≤ C ∧ P < 2 ^ 21 ∧ 2 ^ 21 - 2 ^ 9 ≤ P) ∨ (C = 15 ∧ P < 2 ^ 21 ∧ 2 ^ 21 - 2 ^ 10 ≤ P)

theorem prodBody_big {C P : Nat} (hC : 15 ≤ C) (hC' : C ≤ 45) (h1 : 2 ^ 21 ≤ P) (h2 : P ≤ 2047 * 2047) :
    ∃ V, prodBody C P = (C - 14) * 2 ^ 10 + (V - 2 ^ 10) ∧ 2 ^ 10 ≤ V ∧ V ≤ 2 ^ 11 ∧
      2 * 2 ^ 11 * V ≤ 2 * P + 2 ^ 11 ∧ 2 * P ≤ 2 * 2 ^ 11 * V + 2 ^ 11 := by
  have e : prodEM C P = (C - 14, P / 2) := by unfold prodEM; rw [if_pos hC, if_pos h1]
  refine ⟨(P / 2 + P / 2 % 2 ^ 10) / 2 ^ 10, ?_, by omega, by omega, by omega, by omega⟩
  unfold prodBody
  simp only [e]
  rw [if_neg (by omega)]
  omega

theorem prodBody_mid {C P : Nat} (hC : 16 ≤ C) (hC' : C ≤ 46) (h0 : 2 ^ 20 ≤ P) (h1 : P < 2 ^ 21) (hc : ¬ CarryN C P) :
    ∃ V, prodBody C P = (C - 15) * 2 ^ 10 + (V - 2 ^ 10) ∧ 2 ^ 10 ≤ V ∧ V ≤ 2 ^ 11 ∧
      2 * 2 ^ 10 * V ≤ 2 * P + 2 ^ 10 ∧ 2 * P ≤ 2 * 2 ^ 10 * V + 2 ^ 10 := by
  unfold CarryN at hc
  have e : prodEM C P = (C - 15, P / 2 * 2) := by
    unfold prodEM; rw [if_pos (by omega), if_neg (by omega), if_neg (by omega)]
  refine ⟨(P / 2 * 2 + P / 2 * 2 % 2 ^ 10) / 2 ^ 10, ?_, by omega, by omega, by omega, by omega⟩
  unfold prodBody
  simp only [e]
  rw [if_neg (by omega)]
  omega

theorem prodBody_edge {P : Nat} (h1 : P < 2 ^ 21) (hc : ¬ CarryN 15 P) :
    prodBody 15 P < 2 ^ 11 ∧ 2 * 2 ^ 11 * prodBody 15 P ≤ 2 * P + 2 ^ 11 ∧ 2 * P ≤ 2 * 2 ^ 11 * prodBody 15 P + 2 ^ 11 := by
  unfold CarryN at hc
  have e : prodEM 15 P = (0, P / 2) := by
    unfold prodEM; rw [if_pos (by omega), if_neg (by omega), if_pos rfl]
  have : prodBody 15 P = (P / 2 + P / 2 % 2 ^ 10) / 2 ^ 10 := by
    unfold prodBody
    simp only [e]
    rw [if_neg (by omega)]
    omega
  rw [this]
  refine ⟨by omega, by omega, by omega⟩

theorem lead_low {P k : Nat} (h0 : 2 ^ 20 ≤ P) (h1 : P < 2 ^ 22) (hk : 1 ≤ k) (hk' : k ≤ 8) :
    uint16Cntlz (P / 2 ^ (2 * k) / 2 / 2 ^ 5) / 2 = k := by
  have e : P / 2 ^ (2 * k) / 2 / 2 ^ 5 = P / 2 ^ (2 * k + 6) := by
    rw [Nat.div_div_eq_div_mul, Nat.div_div_eq_div_mul, pow_add]
    congr 1
  rw [e]
  by_cases h : k = 8
  · subst h
    have z : P / 2 ^ (2 * 8 + 6) = 0 := Nat.div_eq_of_lt h1
    rw [z, cntlz16_full (by norm_num), if_pos rfl]
  · by_cases hb : P < 2 ^ 21
    · have : uint16Cntlz (P / 2 ^ (2 * k + 6)) = 2 * k + 1 := by
        apply cntlz16_of (by omega)
        · rw [Nat.le_div_iff_mul_le (Nat.two_pow_pos _), ← pow_add, show 15 - (2 * k + 1) + (2 * k + 6) = 20 by omega]; exact h0
        · rw [Nat.div_lt_iff_lt_mul (Nat.two_pow_pos _), ← pow_add, show 16 - (2 * k + 1) + (2 * k + 6) = 21 by omega]; exact hb
      omega
    · have : uint16Cntlz (P / 2 ^ (2 * k + 6)) = 2 * k := by
        apply cntlz16_of (by omega)
        · rw [Nat.le_div_iff_mul_le (Nat.two_pow_pos _), ← pow_add, show 15 - 2 * k + (2 * k + 6) = 21 by omega]; omega
        · rw [Nat.div_lt_iff_lt_mul (Nat.two_pow_pos _), ← pow_add, show 16 - 2 * k + (2 * k + 6) = 22 by omega]; exact h1
      omega

theorem prodBody_low {C P : Nat} (hC : 7 ≤ C) (hC' : C < 15) (h0 : 2 ^ 20 ≤ P) (h1 : P ≤ 2047 * 2047) :
    prodBody C P < 2 ^ 11 ∧ 2 * 2 ^ (26 - C) * prodBody C P ≤ 2 * P + 2 ^ (26 - C) ∧
      2 * P ≤ 2 * 2 ^ (26 - C) * prodBody C P + 2 ^ (26 - C) := by
  have e : prodEM C P = (0, P / 2 ^ (2 * (15 - C)) / 2 * 2 ^ (15 - C)) := by
    unfold prodEM; rw [if_neg (by omega), lead_low h0 (by omega) (by omega) (by omega)]
  have : prodBody C P = (P / 2 ^ (2 * (15 - C)) / 2 * 2 ^ (15 - C) + P / 2 ^ (2 * (15 - C)) / 2 * 2 ^ (15 - C) % 2 ^ 10) / 2 ^ 10 % 2 ^ 10 := by
    unfold prodBody
    simp only [e]
    rw [if_neg (by omega)]
    omega
  rw [this]
  interval_cases C <;> norm_num <;> omega

theorem prodBody_none {C P : Nat} (hC : C ≤ 3) (h1 : P < 2 ^ 22) : prodBody C P = 0 := by
  have e : (prodEM C P).1 = 0 ∧ (prodEM C P).2 = 0 := by
    unfold prodEM
    rw [if_neg (by omega)]
    have : P / 2 ^ (2 * (15 - C)) = 0 :=
      Nat.div_eq_of_lt (lt_of_lt_of_le h1 (Nat.pow_le_pow_right (by norm_num) (by omega)))
    rw [this]
    simp
  unfold prodBody
  simp only [e.1, e.2]
  rw [if_neg (by omega)]
  rfl

/-- A product of normal operands without carry, exponent sum at most 3 or at least 7, is nearest below the overflow threshold. -/
theorem prodBody_nearest {C P t : Nat} (ht : t < 2) (hC : C ≤ 3 ∨ 7 ≤ C) (h0 : 2 ^ 20 ≤ P) (h1' : P ≤ 2047 * 2047)
    (hc : ¬ CarryN C P) (hq : (P : ℚ) * (2 : ℚ) ^ ((C : Int) - 50) < 65520) :
    NearestHalf (t * 2 ^ 15 + prodBody C P) (signed t ((P : ℚ) * (2 : ℚ) ^ ((C : Int) - 50))) := by
  have z2 : (2 : ℚ) ≠ 0 := by norm_num
  have h1 : P < 2 ^ 22 := by omega
  have P0 : (2 : ℚ) ^ 20 ≤ P := by exact_mod_cast h0
  have Pq : (P : ℚ) < 2 ^ 22 := by exact_mod_cast h1
  have low : ∀ j : Nat, j + C = 26 → (P : ℚ) * (2 : ℚ) ^ ((C : Int) - 50) = (P : ℚ) / ((2 ^ j : ℕ) : ℚ) * (2 : ℚ) ^ (-24 : Int) := by
    intro j hj
    rw [show (C : Int) - 50 = -(j : Int) + -24 by omega, zpow_add₀ z2, zpow_neg, zpow_natCast]
    push_cast
    rw [div_eq_mul_inv]; ring
  rcases hC with hC | hC
  · rw [prodBody_none hC h1, low (26 - C) (by omega)]
    apply assemble_sub t 0 _ ht (by norm_num) (by positivity)
    have hb : ((2 ^ 23 : ℕ) : ℚ) ≤ ((2 ^ (26 - C) : ℕ) : ℚ) := by
      exact_mod_cast Nat.pow_le_pow_right (by norm_num) (by omega)
    have hpos : (0 : ℚ) < ((2 ^ (26 - C) : ℕ) : ℚ) := by positivity
    rw [Nat.cast_zero, zero_sub, abs_neg, abs_of_nonneg (by positivity), div_le_iff₀ hpos]
    push_cast at hb ⊢
    have Pq' : (P : ℚ) ≤ 4194304 := by exact_mod_cast h1.le
    norm_num at hb ⊢
    linarith
  · by_cases h15 : C < 15
    · obtain ⟨a1, a2, a3⟩ := prodBody_low hC h15 h0 h1'
      rw [low (26 - C) (by omega)]
      exact assemble_sub t _ _ ht a1 (by positivity) (near_half (Nat.two_pow_pos _) a2 a3)
    · have C45 : C ≤ 45 := by
        by_contra hn
        have h3 : (2 : ℚ) ^ (-4 : Int) ≤ (2 : ℚ) ^ ((C : Int) - 50) := zpow_le_zpow_right₀ (by norm_num) (by omega)
        have := mul_le_mul P0 h3 (by positivity) (by positivity)
        norm_num at this
        linarith
      by_cases h21 : 2 ^ 21 ≤ P
      · obtain ⟨V, e, v1, v2, a2, a3⟩ := prodBody_big (by omega) C45 h21 h1'
        have hz := near_half (Nat.two_pow_pos 11) a2 a3
        have eq : (P : ℚ) * (2 : ℚ) ^ ((C : Int) - 50) = (P : ℚ) / ((2 ^ 11 : ℕ) : ℚ) * (2 : ℚ) ^ (((C - 14 : ℕ) : Int) - 25) := by
          rw [show (C : Int) - 50 = -(11 : ℕ) + ((((C - 14 : ℕ) : Int)) - 25) by omega, zpow_add₀ z2, zpow_neg, zpow_natCast]
          push_cast
          rw [div_eq_mul_inv]; ring
        rw [eq] at hq ⊢
        rw [e]
        refine (assemble t (C - 14) V _ ht (by omega) v1 v2 hz ?_ hq).2
        rw [le_div_iff₀ (by positivity)]
        have : (2 : ℚ) ^ 21 ≤ P := by exact_mod_cast h21
        push_cast
        norm_num at this ⊢
        exact this
      · by_cases hc15 : C = 15
        · subst hc15
          obtain ⟨a1, a2, a3⟩ := prodBody_edge (by omega) hc
          rw [low 11 (by norm_num)]
          exact assemble_sub t _ _ ht a1 (by positivity) (near_half (Nat.two_pow_pos _) a2 a3)
        · obtain ⟨V, e, v1, v2, a2, a3⟩ := prodBody_mid (by omega) (by omega) h0 (by omega) hc
          have hz := near_half (Nat.two_pow_pos 10) a2 a3
          have eq : (P : ℚ) * (2 : ℚ) ^ ((C : Int) - 50) = (P : ℚ) / ((2 ^ 10 : ℕ) : ℚ) * (2 : ℚ) ^ (((C - 15 : ℕ) : Int) - 25) := by
            rw [show (C : Int) - 50 = -(10 : ℕ) + ((((C - 15 : ℕ) : Int)) - 25) by omega, zpow_add₀ z2, zpow_neg, zpow_natCast]
            push_cast
            rw [div_eq_mul_inv]; ring
          rw [eq] at hq ⊢
          rw [e]
          refine (assemble t (C - 15) V _ ht (by omega) v1 v2 hz ?_ hq).2
          rw [le_div_iff₀ (by positivity)]
          push_cast
          norm_num at P0 ⊢
          exact P0

/-- With a carry the exponent is not incremented: half of the power of two is returned, 0 at the smallest normal. -/
theorem prodBody_carry {C P : Nat} (hC' : C ≤ 46) (hc : CarryN C P) : prodBody C P = (C - 15) * 2 ^ 10 := by
  unfold CarryN at hc
  rcases hc with ⟨h1, h2, h3⟩ | ⟨rfl, h2, h3⟩
  · have e : prodEM C P = (C - 15, P / 2 * 2) := by
      unfold prodEM; rw [if_pos (by omega), if_neg (by omega), if_neg (by omega)]
    unfold prodBody
    simp only [e]
    rw [if_neg (by omega)]
    omega
  · have e : prodEM 15 P = (0, P / 2) := by
      unfold prodEM; rw [if_pos (by omega), if_neg (by omega), if_pos rfl]
    unfold prodBody
    simp only [e]
    rw [if_neg (by omega)]
    omega

/-- From `2^16` on: a NaN, with the exceptions below `2^16 + 2^5` and from `2^17 - 2^5` on. -/
theorem prodBody_over {C P : Nat} (h0 : 2 ^ 20 ≤ P) (h1 : P ≤ 2047 * 2047) :
    (47 ≤ C ∨ C = 46 ∧ 2 ^ 21 - 2 ^ 9 ≤ P → prodBody C P = 0x7c00) ∧
    (C = 45 ∧ 2 ^ 21 ≤ P ∧ P < 2 ^ 21 + 2 ^ 10 ∨ C = 46 ∧ P < 2 ^ 20 + 2 ^ 9 → prodBody C P = 0x7c00) ∧
    (C = 45 ∧ 2 ^ 21 + 2 ^ 10 ≤ P ∨ C = 46 ∧ 2 ^ 20 + 2 ^ 9 ≤ P ∧ P < 2 ^ 21 - 2 ^ 9 →
      ∃ f, 0 < f ∧ f < 2 ^ 10 ∧ prodBody C P = 31 * 2 ^ 10 + f) := by
  have big : 15 ≤ C → 2 ^ 21 ≤ P → prodEM C P = (C - 14, P / 2) := fun a b => by
    unfold prodEM; rw [if_pos a, if_pos b]
  have mid : 16 ≤ C → P < 2 ^ 21 → prodEM C P = (C - 15, P / 2 * 2) := fun a b => by
    unfold prodEM; rw [if_pos (by omega), if_neg (by omega), if_neg (by omega)]
  refine ⟨fun h => ?_, fun h => ?_, fun h => ?_⟩
  · unfold prodBody
    simp only
    by_cases h47 : 47 ≤ C
    · rw [if_pos (Or.inl h47)]
    · obtain ⟨rfl, h2⟩ := h.resolve_left h47
      by_cases h21 : 2 ^ 21 ≤ P
      · rw [big (by omega) h21]; rfl
      · rw [mid (by omega) (by omega)]; simp only; rw [if_neg (by omega)]; omega
  · unfold prodBody
    simp only
    rcases h with ⟨rfl, h2, h3⟩ | ⟨rfl, h2⟩
    · rw [big (by omega) h2]; simp only; rw [if_neg (by omega)]; omega
    · rw [mid (by omega) (by omega)]; simp only; rw [if_neg (by omega)]; omega
  · unfold prodBody
    simp only
    rcases h with ⟨rfl, h2⟩ | ⟨rfl, h2, h3⟩
    · rw [big (by omega) (by omega)]; simp only; rw [if_neg (by omega)]
      exact ⟨(P / 2 + P / 2 % 2 ^ 10) / 2 ^ 10 % 2 ^ 10, by omega, by omega, rfl⟩
    · rw [mid (by omega) (by omega)]; simp only; rw [if_neg (by omega)]
      exact ⟨(P / 2 * 2 + P / 2 * 2 % 2 ^ 10) / 2 ^ 10 % 2 ^ 10, by omega, by omega, rfl⟩

end Verif.HalfM
