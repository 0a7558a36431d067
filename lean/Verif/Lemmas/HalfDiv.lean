import Verif.Lemmas.HalfMulNear
import Mathlib.Algebra.Order.Round
import Mathlib.Data.Rat.Floor
import Mathlib.Data.Int.Log

/-! # Quotients of halves through `float` -/

namespace Verif.HalfM

open HalfS

/-- A quotient of integers below `2^11`, scaled to `2^11` or more, is no closer than `2^-11` to an integer that it is not. -/
theorem quotient_gap (A B : Nat) (k : Int) (T : Int) (hA : A < 2 ^ 11) (hB0 : 0 < B) (hB : B < 2 ^ 11)
    (hz : (2 : ℚ) ^ 11 ≤ (A : ℚ) / B * (2 : ℚ) ^ k) (hc : |(T : ℚ) - (A : ℚ) / B * (2 : ℚ) ^ k| ≤ 1 / 2 ^ 11) :
    (T : ℚ) = (A : ℚ) / B * (2 : ℚ) ^ k := by
  have B0 : (0 : ℚ) < B := by exact_mod_cast hB0
  have B1 : (B : ℚ) < 2 ^ 11 := by exact_mod_cast hB
  have A1 : (A : ℚ) < 2 ^ 11 := by exact_mod_cast hA
  have k0 : 0 ≤ k := by
    by_contra hn
    have h1 : (2 : ℚ) ^ k ≤ 1 := zpow_le_one_of_nonpos₀ (by norm_num) (by omega)
    have h2 : (A : ℚ) / B < 2 ^ 11 := by
      rw [div_lt_iff₀ B0]
      have : (1 : ℚ) ≤ B := by exact_mod_cast hB0
      nlinarith
    have h3 : (A : ℚ) / B * (2 : ℚ) ^ k ≤ (A : ℚ) / B * 1 := mul_le_mul_of_nonneg_left h1 (by positivity)
    linarith
  obtain ⟨n, rfl⟩ : ∃ n : Nat, k = n := ⟨k.toNat, by omega⟩
  rw [zpow_natCast] at hc ⊢
  -- the difference, times `B`, is an integer
  have key : (T : ℚ) - (A : ℚ) / B * 2 ^ n = ((T * B - A * 2 ^ n : Int) : ℚ) / B := by
    push_cast
    field_simp
  rw [key, abs_div, abs_of_pos B0, div_le_iff₀ B0] at hc
  have h1 : |((T * B - A * 2 ^ n : Int) : ℚ)| < 1 := by
    refine lt_of_le_of_lt hc ?_
    rw [div_mul_eq_mul_div, one_mul, div_lt_one (by positivity)]
    exact B1
  have h2 : |T * B - A * 2 ^ n| < 1 := by exact_mod_cast h1
  have h3 : T * (B : Int) - A * 2 ^ n = 0 := Int.abs_lt_one_iff.1 h2
  rw [h3] at key
  simp only [Int.cast_zero, zero_div] at key
  linarith

theorem word32 {s e m : Nat} (hs : s < 2) (he : e < 256) (hm : m < 2 ^ 23) : s * 2 ^ 31 + e * 2 ^ 23 + m < 2 ^ 32 := by
  norm_num at *
  omega

/-- A magnitude `N·2^(E-23)` with `N` from `2^23` to `2^24` is that of a float of either sign. -/
theorem float_word (b : Bool) (N : Nat) (E : Int) (hE : -126 ≤ E) (hE' : E ≤ 126) (h1 : 2 ^ 23 ≤ N) (h2 : N ≤ 2 ^ 24) :
    ∃ h < 2 ^ 32, floatVal h = .fin b ((N : ℚ) * (2 : ℚ) ^ (E - 23)) := by
  obtain ⟨s, hs, rfl⟩ : ∃ s : Nat, s < 2 ∧ b = decide (s = 1) := by
    cases b
    · exact ⟨0, by norm_num, rfl⟩
    · exact ⟨1, by norm_num, rfl⟩
  obtain ⟨e, he⟩ : ∃ e : Nat, (e : Int) = E + 127 := ⟨(E + 127).toNat, by omega⟩
  by_cases h : N = 2 ^ 24
  · refine ⟨s * 2 ^ 31 + (e + 1) * 2 ^ 23 + 0, word32 hs (by omega) (by norm_num), ?_⟩
    rw [floatVal_eq s (e + 1) 0 hs (by omega) (by norm_num), if_neg (by omega), if_neg (by omega)]
    congr 1
    rw [h, show ((e + 1 : ℕ) : Int) - 150 = 1 + (E - 23) by omega, zpow_add₀ (by norm_num)]
    push_cast; ring
  · refine ⟨s * 2 ^ 31 + e * 2 ^ 23 + (N - 2 ^ 23), word32 hs (by omega) (by omega), ?_⟩
    rw [floatVal_eq s e (N - 2 ^ 23) hs (by omega) (by omega), if_neg (by omega), if_neg (by omega)]
    have h3 : 2 ^ 23 + (N - 2 ^ 23) = N := by omega
    rw [h3, show (e : Int) - 150 = E - 23 by omega]

/-- The float nearest to a positive number of the binade of `E`, by fields. -/
theorem nearest_float (s e m : Nat) (b : Bool) (E : Int) (Q F : ℚ) (hs : s < 2) (he : e < 256) (hm : m < 2 ^ 23) (hE : -126 ≤ E)
    (hE' : E ≤ 126) (hQ : (2 : ℚ) ^ E ≤ Q) (hQ' : Q < (2 : ℚ) ^ (E + 1))
    (hv : floatVal (s * 2 ^ 31 + e * 2 ^ 23 + m) = .fin b F)
    (hn : ∀ h < 2 ^ 32, ∀ u, floatVal h = .fin b u → |F - Q| ≤ |u - Q|) :
    b = decide (s = 1) ∧ |F - Q| ≤ (2 : ℚ) ^ (E - 24) ∧
      (((e : Int) = E + 127 ∧ F = ((2 ^ 23 + m : ℕ) : ℚ) * (2 : ℚ) ^ (E - 23)) ∨
        ((e : Int) = E + 128 ∧ m = 0 ∧ F = (2 : ℚ) ^ (E + 1))) := by
  have z2 : (2 : ℚ) ≠ 0 := by norm_num
  have U0 : (0 : ℚ) < (2 : ℚ) ^ (E - 23) := by positivity
  have he' : e ≠ 255 := by
    rintro rfl
    rw [floatVal_eq s 255 m hs he hm, if_pos rfl] at hv
    split at hv <;> cases hv
  obtain ⟨hb, hF'⟩ : b = decide (s = 1) ∧
      F = if e = 0 then (m : ℚ) * (2 : ℚ) ^ (-149 : Int) else ((2 ^ 23 + m : ℕ) : ℚ) * (2 : ℚ) ^ ((e : Int) - 150) := by
    rw [floatVal_eq s e m hs he hm, if_neg he'] at hv
    by_cases h0 : e = 0
    · rw [if_pos h0] at hv ⊢
      cases hv
      exact ⟨rfl, rfl⟩
    · rw [if_neg h0] at hv ⊢
      cases hv
      exact ⟨rfl, rfl⟩
  have near : ∀ N : Nat, 2 ^ 23 ≤ N → N ≤ 2 ^ 24 → |F - Q| ≤ |(N : ℚ) * (2 : ℚ) ^ (E - 23) - Q| := by
    intro N h1 h2
    obtain ⟨h, hh, hu⟩ := float_word b N E hE hE' h1 h2
    exact hn h hh _ hu
  have lo : (2 : ℚ) ^ E = ((2 ^ 23 : ℕ) : ℚ) * (2 : ℚ) ^ (E - 23) := by
    rw [show E = 23 + (E - 23) by ring, zpow_add₀ z2]; norm_num
  have hi : (2 : ℚ) ^ (E + 1) = ((2 ^ 24 : ℕ) : ℚ) * (2 : ℚ) ^ (E - 23) := by
    rw [show E + 1 = 24 + (E - 23) by ring, zpow_add₀ z2]; norm_num
  -- `F` is within the binade
  have F1 : (2 : ℚ) ^ E ≤ F := by
    by_contra hc
    push Not at hc
    have := near (2 ^ 23) le_rfl (by norm_num)
    rw [← lo, abs_of_nonpos (by linarith : F - Q ≤ 0), abs_of_nonpos (by linarith)] at this
    linarith
  have F2 : F ≤ (2 : ℚ) ^ (E + 1) := by
    by_contra hc
    push Not at hc
    have := near (2 ^ 24) (by norm_num) le_rfl
    rw [← hi, abs_of_nonneg (by linarith : 0 ≤ F - Q), abs_of_nonneg (by linarith)] at this
    linarith
  have dist : |F - Q| ≤ (2 : ℚ) ^ (E - 24) := by
    -- the nearest multiple
    have hr := abs_sub_round (Q / (2 : ℚ) ^ (E - 23))
    set n := round (Q / (2 : ℚ) ^ (E - 23)) with hn'
    have q1 : ((2 ^ 23 : ℕ) : ℚ) ≤ Q / (2 : ℚ) ^ (E - 23) := by rw [le_div_iff₀ U0, ← lo]; exact hQ
    have q2 : Q / (2 : ℚ) ^ (E - 23) < ((2 ^ 24 : ℕ) : ℚ) := by rw [div_lt_iff₀ U0, ← hi]; exact hQ'
    have n1 : (2 ^ 23 : Int) ≤ n := by
      have := (abs_le.1 hr).2
      have h3 : ((2 ^ 23 - 1 : Int) : ℚ) < n := by push_cast at q1 ⊢; linarith
      have := Int.cast_lt.1 h3
      omega
    have n2 : n ≤ (2 ^ 24 : Int) := by
      have := (abs_le.1 hr).1
      have h3 : ((n : Int) : ℚ) < ((2 ^ 24 + 1 : Int) : ℚ) := by push_cast at q2 ⊢; linarith
      have := Int.cast_lt.1 h3
      omega
    obtain ⟨N, hN⟩ : ∃ N : Nat, (N : Int) = n := ⟨n.toNat, by omega⟩
    have hNq : (N : ℚ) = (n : ℚ) := by exact_mod_cast hN
    refine le_trans (near N (by omega) (by omega)) ?_
    rw [hNq, abs_sub_comm]
    have : Q - (n : ℚ) * (2 : ℚ) ^ (E - 23) = (Q / (2 : ℚ) ^ (E - 23) - n) * (2 : ℚ) ^ (E - 23) := by field_simp
    rw [this, abs_mul, abs_of_pos U0, show E - 24 = (E - 23) + (-1) by ring, zpow_add₀ z2, mul_comm]
    have := mul_le_mul_of_nonneg_left hr U0.le
    norm_num at this ⊢
    exact this
  refine ⟨hb, dist, ?_⟩
  have he0 : e ≠ 0 := by
    intro h0
    rw [if_pos h0] at hF'
    have h1 : (m : ℚ) < (2 : ℚ) ^ (23 : Int) := by norm_num; exact_mod_cast hm
    have h2 : F < (2 : ℚ) ^ (-126 : Int) := by
      rw [hF', show (-126 : Int) = 23 + -149 by norm_num, zpow_add₀ z2]
      exact mul_lt_mul_of_pos_right h1 (by positivity)
    have h3 : (2 : ℚ) ^ (-126 : Int) ≤ (2 : ℚ) ^ E := zpow_le_zpow_right₀ (by norm_num) hE
    linarith
  rw [if_neg he0] at hF'
  have m1 : ((2 ^ 23 : ℕ) : ℚ) ≤ ((2 ^ 23 + m : ℕ) : ℚ) := by exact_mod_cast Nat.le_add_right _ _
  have m2 : ((2 ^ 23 + m : ℕ) : ℚ) < (2 : ℚ) ^ (24 : Int) := by
    norm_num
    have : 8388608 + m < 16777216 := by omega
    exact_mod_cast this
  have P0 : (0 : ℚ) < (2 : ℚ) ^ ((e : Int) - 150) := by positivity
  have f1 : (2 : ℚ) ^ ((e : Int) - 127) ≤ F := by
    rw [hF', show (e : Int) - 127 = 23 + ((e : Int) - 150) by ring, zpow_add₀ z2]
    exact mul_le_mul_of_nonneg_right (by norm_num at m1 ⊢) P0.le
  have f2 : F < (2 : ℚ) ^ ((e : Int) - 126) := by
    rw [hF', show (e : Int) - 126 = 24 + ((e : Int) - 150) by ring, zpow_add₀ z2]
    exact mul_lt_mul_of_pos_right m2 P0
  have a1 : E < (e : Int) - 126 := (zpow_lt_zpow_iff_right₀ (by norm_num : (1 : ℚ) < 2)).1 (lt_of_le_of_lt F1 f2)
  have a2 : (e : Int) - 127 ≤ E + 1 := (zpow_le_zpow_iff_right₀ (by norm_num : (1 : ℚ) < 2)).1 (le_trans f1 F2)
  by_cases h : (e : Int) = E + 127
  · left
    refine ⟨h, ?_⟩
    rw [hF', show (e : Int) - 150 = E - 23 by omega]
  · right
    have h' : (e : Int) = E + 128 := by omega
    have eF : F = (2 : ℚ) ^ (E + 1) := le_antisymm F2 (by rw [show E + 1 = (e : Int) - 127 by omega]; exact f1)
    refine ⟨h', ?_, eF⟩
    rw [eF, show E + 1 = 23 + ((e : Int) - 150) by omega, zpow_add₀ z2] at hF'
    have h3 := mul_right_cancel₀ P0.ne' hF'
    have h4 : (2 : ℚ) ^ (23 : Int) = ((2 ^ 23 : ℕ) : ℚ) := by norm_num
    rw [h4] at h3
    have h5 : 2 ^ 23 = 2 ^ 23 + m := by exact_mod_cast h3
    omega

/-- A quotient of integers below `2^11`, scaled by a power of two to below 1, stays away from 1. -/
theorem quotient_top (A B : Nat) (k : Int) (hA : A < 2 ^ 11) (hB0 : 0 < B) (hB : B < 2 ^ 11)
    (hz : (A : ℚ) / B * (2 : ℚ) ^ k < 1) : (A : ℚ) / B * (2 : ℚ) ^ k ≤ 1 - 1 / 4094 := by
  have B0 : (0 : ℚ) < B := by exact_mod_cast hB0
  by_cases h0 : 0 ≤ k
  · obtain ⟨n, rfl⟩ : ∃ n : Nat, k = n := ⟨k.toNat, by omega⟩
    rw [zpow_natCast, div_mul_eq_mul_div] at *
    rw [div_lt_one B0] at hz
    have h1 : A * 2 ^ n < B := by exact_mod_cast hz
    rw [div_le_iff₀ B0]
    have h2 : ((A * 2 ^ n + 1 : ℕ) : ℚ) ≤ B := by exact_mod_cast h1
    have h3 : ((B : ℕ) : ℚ) ≤ 4094 := by exact_mod_cast (by omega : B ≤ 4094)
    push_cast at h2
    linarith
  · obtain ⟨n, rfl⟩ : ∃ n : Nat, k = -(n : Int) := ⟨(-k).toNat, by omega⟩
    have P0 : (0 : ℚ) < 2 ^ n := by positivity
    rw [zpow_neg, zpow_natCast, ← div_eq_mul_inv, div_div] at *
    have D0 : (0 : ℚ) < B * 2 ^ n := by positivity
    rw [div_lt_one D0] at hz
    rw [div_le_iff₀ D0]
    have h1 : A < B * 2 ^ n := by exact_mod_cast hz
    have h2 : ((A + 1 : ℕ) : ℚ) ≤ ((B * 2 ^ n : ℕ) : ℚ) := by exact_mod_cast h1
    push_cast at h2
    by_cases h3 : B * 2 ^ n ≤ 4094
    · have h4 : ((B * 2 ^ n : ℕ) : ℚ) ≤ 4094 := by exact_mod_cast h3
      push_cast at h4
      linarith
    · have h4 : ((4094 : ℕ) : ℚ) ≤ ((B * 2 ^ n : ℕ) : ℚ) := by exact_mod_cast (by omega : 4094 ≤ B * 2 ^ n)
      have h5 : ((A : ℕ) : ℚ) ≤ ((2047 : ℕ) : ℚ) := by exact_mod_cast (by omega : A ≤ 2047)
      push_cast at h4 h5
      linarith

/-- A half other than zero is an integer below `2^11` times a power of two. -/
theorem mag_units (e m : Nat) (he : e < 31) (hm : m < 2 ^ 10) (h : mag e m ≠ 0) :
    ∃ (A : Nat) (i : Int), mag e m = A * (2 : ℚ) ^ i ∧ 0 < A ∧ A < 2 ^ 11 ∧ -24 ≤ i ∧ i ≤ 5 := by
  by_cases h0 : e = 0
  · refine ⟨m, -24, by simp [mag, h0], ?_, by omega, by norm_num, by norm_num⟩
    rcases Nat.eq_zero_or_pos m with rfl | h1
    · simp [mag, h0] at h
    · exact h1
  · exact ⟨2 ^ 10 + m, (e : Int) - 25, by simp [mag, h0], by omega, by omega, by omega, by omega⟩

/-- The quotient of two halves in `float`: its fields, how far it is from the exact quotient, and how far that is from the
numbers of twelve bits. -/
theorem quotient_float (fdiv : Nat → Nat → Nat) (hd : FloatDivision fdiv) (a b : Nat) (ha : a < 2 ^ 32) (hb : b < 2 ^ 32)
    (s s' e m e' m' : Nat) (hs : s < 2) (hs' : s' < 2) (he : e < 31) (hm : m < 2 ^ 10) (he' : e' < 31) (hm' : m' < 2 ^ 10)
    (hx : mag e m ≠ 0) (hy : mag e' m' ≠ 0)
    (hfa : floatVal a = .fin (decide (s = 1)) (mag e m)) (hfb : floatVal b = .fin (decide (s' = 1)) (mag e' m')) :
    ∃ (E : Int) (g n : Nat), fdiv a b = (s + s') % 2 * 2 ^ 31 + g * 2 ^ 23 + n ∧ n < 2 ^ 23 - 2 ^ 12 ∧ (g : Int) = E + 127 ∧
      -40 ≤ E ∧ E ≤ 40 ∧ (2 : ℚ) ^ E ≤ mag e m / mag e' m' ∧ mag e m / mag e' m' < (2 : ℚ) ^ (E + 1) ∧
      |((2 ^ 23 + n : ℕ) : ℚ) * (2 : ℚ) ^ (E - 23) - mag e m / mag e' m'| ≤ (2 : ℚ) ^ (E - 24) ∧
      ∀ T : Int, |(T : ℚ) * (2 : ℚ) ^ (E - 11) - mag e m / mag e' m'| ≤ (2 : ℚ) ^ (E - 22) →
        (T : ℚ) * (2 : ℚ) ^ (E - 11) = mag e m / mag e' m' := by
  have z2 : (2 : ℚ) ≠ 0 := by norm_num
  obtain ⟨A, i, hA, A0, A1, i0, i1⟩ := mag_units e m he hm hx
  obtain ⟨B, j, hB, B0, B1, j0, j1⟩ := mag_units e' m' he' hm' hy
  have B0' : (0 : ℚ) < B := by exact_mod_cast B0
  have A0' : (0 : ℚ) < A := by exact_mod_cast A0
  have hq : mag e m / mag e' m' = (A : ℚ) / B * (2 : ℚ) ^ (i - j) := by
    rw [hA, hB, zpow_sub₀ z2, mul_div_mul_comm]
  set Q := mag e m / mag e' m' with hQ
  have Q0 : 0 < Q := by rw [hq]; positivity
  obtain ⟨E, hE1, hE2⟩ : ∃ E : Int, (2 : ℚ) ^ E ≤ Q ∧ Q < (2 : ℚ) ^ (E + 1) := by
    have := Int.zpow_log_le_self (b := 2) (by norm_num) Q0
    have h2 := Int.lt_zpow_succ_log_self (b := 2) (R := ℚ) (by norm_num) Q
    exact ⟨Int.log 2 Q, by exact_mod_cast this, by exact_mod_cast h2⟩
  -- the range of the exponent
  have A2 : (A : ℚ) < (2 : ℚ) ^ (11 : Int) := by norm_num; exact_mod_cast A1
  have B2 : (B : ℚ) < (2 : ℚ) ^ (11 : Int) := by norm_num; exact_mod_cast B1
  have A3 : (1 : ℚ) ≤ A := by exact_mod_cast A0
  have B3 : (1 : ℚ) ≤ B := by exact_mod_cast B0
  have up : Q < (2 : ℚ) ^ (11 + (i - j)) := by
    rw [hq, zpow_add₀ z2]
    refine mul_lt_mul_of_pos_right ?_ (by positivity)
    rw [div_lt_iff₀ B0']
    nlinarith
  have dn : (2 : ℚ) ^ (-11 + (i - j)) < Q := by
    rw [hq, zpow_add₀ z2]
    refine mul_lt_mul_of_pos_right ?_ (by positivity)
    rw [lt_div_iff₀ B0', zpow_neg, inv_mul_lt_iff₀ (by positivity)]
    nlinarith
  have eu : E < 11 + (i - j) := (zpow_lt_zpow_iff_right₀ (by norm_num : (1 : ℚ) < 2)).1 (lt_of_le_of_lt hE1 up)
  have ed : -11 + (i - j) < E + 1 := (zpow_lt_zpow_iff_right₀ (by norm_num : (1 : ℚ) < 2)).1 (lt_trans dn hE2)
  have big : Q < 2 ^ 127 := by
    refine lt_trans up ?_
    rw [← zpow_natCast]
    exact (zpow_lt_zpow_iff_right₀ (by norm_num : (1 : ℚ) < 2)).2 (by push_cast; omega)
  obtain ⟨hw, hquot⟩ := hd a ha b hb
  rw [hfa, hfb] at hquot
  simp only [if_neg hy] at hquot
  obtain ⟨F, hF, hn⟩ := hquot big
  obtain ⟨t, g, n, ht, hg, hn', hword⟩ := float_fields (fdiv a b) hw
  rw [hword] at hF
  obtain ⟨hsgn, dist, hcase⟩ := nearest_float t g n _ E Q F ht hg hn' (by omega) (by omega) hE1 hE2 hF hn
  have ht' : t = (s + s') % 2 := by
    rcases (by omega : s = 0 ∨ s = 1) with rfl | rfl <;> rcases (by omega : s' = 0 ∨ s' = 1) with rfl | rfl <;>
      rcases (by omega : t = 0 ∨ t = 1) with rfl | rfl <;> first | rfl | (exfalso; revert hsgn; decide)
  subst ht'
  -- the exact quotient is not close below a power of two
  have top : Q ≤ (1 - 1 / 4094) * (2 : ℚ) ^ (E + 1) := by
    have := quotient_top A B (i - j - (E + 1)) A1 B0 B1 (by
      rw [zpow_sub₀ z2, ← mul_div_assoc, ← hq, div_lt_one (by positivity)]; exact hE2)
    rwa [zpow_sub₀ z2, ← mul_div_assoc, ← hq, div_le_iff₀ (by positivity)] at this
  have W0 : (0 : ℚ) < (2 : ℚ) ^ (E - 24) := by positivity
  have w1 : (2 : ℚ) ^ (E + 1) = 2 ^ 25 * (2 : ℚ) ^ (E - 24) := by
    rw [show E + 1 = 25 + (E - 24) by ring, zpow_add₀ z2]; norm_num
  have w2 : (2 : ℚ) ^ (E - 23) = 2 * (2 : ℚ) ^ (E - 24) := by
    rw [show E - 23 = 1 + (E - 24) by ring, zpow_add₀ z2]; norm_num
  have d1 := (abs_le.1 dist).2
  rcases hcase with ⟨hg', hF'⟩ | ⟨-, -, hF'⟩
  swap
  · exfalso
    rw [hF', w1] at d1
    rw [w1] at top
    nlinarith
  refine ⟨E, g, n, hword, ?_, hg', by omega, by omega, hE1, hE2, by rw [← hF']; exact dist, ?_⟩
  · by_contra hc
    have h1 : ((2 ^ 24 - 2 ^ 12 : ℕ) : ℚ) ≤ ((2 ^ 23 + n : ℕ) : ℚ) := by exact_mod_cast (by omega)
    have h2 : ((2 ^ 24 - 2 ^ 12 : ℕ) : ℚ) * (2 : ℚ) ^ (E - 23) ≤ F := by
      rw [hF']; exact mul_le_mul_of_nonneg_right h1 (by positivity)
    rw [w2] at h2
    rw [w1] at top
    norm_num at h2 top
    linarith
  · intro T hT
    have V0 : (0 : ℚ) < (2 : ℚ) ^ (E - 11) := by positivity
    have e1 : (A : ℚ) / B * (2 : ℚ) ^ (i - j - (E - 11)) = Q / (2 : ℚ) ^ (E - 11) := by
      rw [zpow_sub₀ z2 (i - j), ← mul_div_assoc, ← hq]
    have := quotient_gap A B (i - j - (E - 11)) T A1 B0 B1
      (by
        rw [e1, le_div_iff₀ V0]
        refine le_trans (le_of_eq ?_) hE1
        rw [← zpow_natCast, ← zpow_add₀ z2]; congr 1; push_cast; ring)
      (by
        rw [e1]
        have h1 : (T : ℚ) - Q / (2 : ℚ) ^ (E - 11) = (T * (2 : ℚ) ^ (E - 11) - Q) / (2 : ℚ) ^ (E - 11) := by field_simp
        rw [h1, abs_div, abs_of_pos V0, div_le_iff₀ V0]
        refine le_trans hT (le_of_eq ?_)
        rw [show E - 22 = -11 + (E - 11) by ring, zpow_add₀ z2]; norm_num)
    rw [e1] at this
    rw [this]
    field_simp

end Verif.HalfM
