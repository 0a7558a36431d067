import Verif.Props.HalfDiv

/-!
# Halves from numbers of other types

`math/half.hpp`: `half(T)` 553-554, `operator=(T)` 556-560, through `float`.
-/

namespace Verif.HalfM

open HalfS

/-- The whole property: the half of a number is a half nearest to it. `D` are the numbers of the type. -/
def C106Claim (W : Wide) (fcast : ℚ → Nat) (D : ℚ → Prop) : Prop :=
  ∀ d, D d → ∃ r < 2 ^ 16, halfOf W fcast d = .ok r ∧ NearestHalf r d

/-- The numbers of type `double` that are normal and moderate: 53 bits. -/
def Double (d : ℚ) : Prop := ∃ (M : Int) (k : Nat), |M| < 2 ^ 53 ∧ k ≤ 1000 ∧ d = M / 2 ^ k

theorem conversion_exists : ∃ fcast, FloatConversion fcast := by
  have : ∀ d : ℚ, ∃ r, FloatNearest d r := fun d => by
    obtain ⟨r, h1, h2⟩ := nearest_of (decide (d < 0)) |d|
    exact ⟨r, h1, h2⟩
  choose f hf using this
  exact ⟨f, fun d _ => hf d⟩

theorem signed_abs (d : ℚ) : ∃ t < 2, d = signed t |d| ∧ decide (d < 0) = decide (t = 1) := by
  by_cases h : d < 0
  · exact ⟨1, by norm_num, by simp [signed, abs_of_neg h], by simp [h]⟩
  · exact ⟨0, by norm_num, by simp [signed, abs_of_nonneg (not_lt.1 h)], by simp [h]⟩

theorem word16 {s b : Nat} (hs : s < 2) (hb : b < 2 ^ 15) : s * 2 ^ 15 + b < 2 ^ 16 := by omega

/-- Rounded to a float and then to a half: within half a place of the half and half a place of the float, and nearest unless the number
is that close to the middle between two halves. -/
theorem two_roundings (w : Nat → Nat → Nat) (f : Nat) (d : ℚ) (E : Int) (hf : FloatNearest d f) (E0 : -14 ≤ E) (E1 : E ≤ 15)
    (q1 : (2 : ℚ) ^ E ≤ |d|) (q2 : |d| < (2 : ℚ) ^ (E + 1)) (hmax : |d| ≤ 65519) :
    ∃ r v, r < 2 ^ 16 ∧ floatToHalf (some w) f = .ok r ∧ (halfVal r).toRat? = some v ∧
      |v - d| ≤ (2 : ℚ) ^ (E - 11) + (2 : ℚ) ^ (E - 24) ∧
      ((∀ T : Int, |(T : ℚ) * (2 : ℚ) ^ (E - 11) - (|d|)| ≤ (2 : ℚ) ^ (E - 24) → (T : ℚ) * (2 : ℚ) ^ (E - 11) = |d|) →
        NearestHalf r d) := by
  have z2 : (2 : ℚ) ≠ 0 := by norm_num
  obtain ⟨hw, F, hF, hnear⟩ := hf
  obtain ⟨t, ht, hd, hneg⟩ := signed_abs d
  have habs : ∀ p q : ℚ, |signed t p - signed t q| = |p - q| := by
    intro p q
    rw [signed_sub]; unfold signed; split
    · rw [abs_neg]
    · rfl
  generalize hQ : |d| = Q at *
  have Q0 : 0 ≤ Q := by rw [← hQ]; exact abs_nonneg _
  obtain ⟨t', g, n, ht', hg, hn, rfl⟩ := float_fields f hw
  obtain ⟨hb, dist, hc⟩ := nearest_float t' g n _ E Q F ht' hg hn (by omega) (by omega) q1 q2 hF hnear
  have htt : t' = t := by
    rw [hneg] at hb
    rcases (by omega : t = 0 ∨ t = 1) with rfl | rfl <;> rcases (by omega : t' = 0 ∨ t' = 1) with rfl | rfl <;>
      first | rfl | (exfalso; revert hb; decide)
  subst htt
  clear hb hF hneg hw
  have W0 : (0 : ℚ) < (2 : ℚ) ^ (E - 24) := by positivity
  have w1 : (2 : ℚ) ^ (E - 11) = 2 ^ 13 * (2 : ℚ) ^ (E - 24) := by
    rw [show E - 11 = 13 + (E - 24) by ring, zpow_add₀ z2]; norm_num
  have w2 : (2 : ℚ) ^ (E - 23) = 2 * (2 : ℚ) ^ (E - 24) := by
    rw [show E - 23 = 1 + (E - 24) by ring, zpow_add₀ z2]; norm_num
  have w4 : (2 : ℚ) ^ (E + 1) = 2 ^ 25 * (2 : ℚ) ^ (E - 24) := by
    rw [show E + 1 = 25 + (E - 24) by ring, zpow_add₀ z2]; norm_num
  obtain ⟨d1, d2⟩ := abs_le.1 dist
  -- in the top binade the float is below the last half place
  have top : E = 15 → F ≤ 65519 + 1 / 512 := by
    rintro rfl
    norm_num at d2 ⊢
    linarith
  -- the exponent of the half's grid
  obtain ⟨k, hk⟩ : ∃ k : Nat, (k : Int) = E + 15 := ⟨(E + 15).toNat, by omega⟩
  have eU : (2 : ℚ) ^ ((k : Int) - 25) = 2 * (2 : ℚ) ^ (E - 11) := by
    rw [show (k : Int) - 25 = 1 + (E - 11) by omega, zpow_add₀ z2]; norm_num
  -- it is enough to find the half on the grid
  suffices hs : ∃ (V : Nat) (r : Nat), r < 2 ^ 16 ∧ floatToHalf (some w) (t' * 2 ^ 31 + g * 2 ^ 23 + n) = .ok r ∧
      (halfVal r).toRat? = some (signed t' (V * (2 : ℚ) ^ ((k : Int) - 25))) ∧
      |(V : ℚ) * (2 * (2 : ℚ) ^ (E - 11)) - F| ≤ (2 : ℚ) ^ (E - 11) by
    obtain ⟨V, r, hr16, hr, hv, hclose⟩ := hs
    refine ⟨r, _, hr16, hr, hv, ?_, fun gap => ?_⟩
    · rw [hd, habs, eU]
      exact le_trans (abs_sub_le _ F _) (add_le_add hclose dist)
    · rw [hd]
      refine nearest_signed r t' k V Q (by omega) Q0 (by linarith) hv ?_ (Or.inr (by
        rw [show (k : Int) - 15 = E by omega]; exact q1))
      obtain ⟨c1, c2⟩ := abs_le.1 hclose
      rw [eU]
      by_contra hcon
      rw [not_le, lt_abs] at hcon
      rcases hcon with hcon | hcon
      · have := gap (2 * V - 1) (by
          rw [abs_le]
          push_cast
          constructor <;> linarith)
        push_cast at this
        linarith
      · have := gap (2 * V + 1) (by
          rw [abs_le]
          push_cast
          constructor <;> linarith)
        push_cast at this
        linarith
  rcases hc with ⟨hg', hF'⟩ | ⟨hg', rfl, hF'⟩
  · -- the float is in the same binade
    obtain ⟨x, hx⟩ := floatToHalf_ok w t' g n ht' hg hn
    rw [normal_body g n x (by omega) (by omega) hn] at hx
    have hc : (n + 2 ^ 12) / 2 ^ 13 ≤ 2 ^ 10 := by omega
    have hgk : g - 112 = k := by omega
    rw [hgk] at hx
    have hlt : k * 2 ^ 10 + (n + 2 ^ 12) / 2 ^ 13 < 31 * 2 ^ 10 := by
      by_cases h15 : E = 15
      · have h1 := top h15
        rw [hF', h15] at h1
        have h2 : (n : ℚ) < ((8384512 : ℕ) : ℚ) := by
          push_cast at h1 ⊢
          norm_num at h1
          linarith
        have h3 : n < 8384512 := by exact_mod_cast h2
        omega
      · omega
    rw [pack t' _ ht' (by omega)] at hx
    have hv := toRat_of_units t' k (2 ^ 10 + (n + 2 ^ 12) / 2 ^ 13) ht' (by omega) (Nat.le_add_right _ _) (by omega)
      (by rw [Nat.add_sub_cancel_left]; exact hlt)
    rw [Nat.add_sub_cancel_left] at hv
    refine ⟨_, _, word16 ht' (by omega), hx, hv, ?_⟩
    set c := (n + 2 ^ 12) / 2 ^ 13 with hcdef
    have c1 : ((2 ^ 13 * c : ℕ) : ℚ) ≤ ((n + 2 ^ 12 : ℕ) : ℚ) := by exact_mod_cast (by omega)
    have c2 : ((n + 2 ^ 12 : ℕ) : ℚ) ≤ ((2 ^ 13 * c + 2 ^ 13 : ℕ) : ℚ) := by exact_mod_cast (by omega)
    have k1 := mul_le_mul_of_nonneg_right c1 W0.le
    have k2 := mul_le_mul_of_nonneg_right c2 W0.le
    rw [hF', w1, w2, abs_le]
    push_cast at *
    norm_num at k1 k2 ⊢
    constructor <;> linarith
  · -- it is the power of two above
    have h15 : E ≠ 15 := by
      intro h
      have h1 := top h
      rw [hF', h] at h1
      norm_num at h1
    obtain ⟨x, hx⟩ := floatToHalf_ok w t' g 0 ht' hg (by norm_num)
    rw [normal_body g 0 x (by omega) (by omega) (by norm_num)] at hx
    have hgk : g - 112 = k + 1 := by omega
    rw [hgk, show (0 + 2 ^ 12) / 2 ^ 13 = 0 by norm_num, Nat.add_zero ((k + 1) * 2 ^ 10), pack t' _ ht' (by omega)] at hx
    have hv := toRat_of_units t' k (2 ^ 11) ht' (by omega) (by norm_num) le_rfl (by omega)
    rw [show k * 2 ^ 10 + (2 ^ 11 - 2 ^ 10) = (k + 1) * 2 ^ 10 by omega] at hv
    have hlt : (k + 1) * 2 ^ 10 < 2 ^ 15 := by
      clear hx hv
      omega
    refine ⟨2 ^ 11, t' * 2 ^ 15 + (k + 1) * 2 ^ 10, word16 ht' hlt, hx, by exact_mod_cast hv, ?_⟩
    rw [hF', w4, w1]
    norm_num
    rw [show 2048 * (2 * (8192 * (2 : ℚ) ^ (E - 24))) - 33554432 * (2 : ℚ) ^ (E - 24) = 0 by ring, abs_zero]
    positivity

/-- **C106 (accuracy).** Where wide shifts are defined, the half of a number of magnitude from `2^-14` to 65519 is off by at most half a
place `2^(E-11)` and half a place `2^(E-24)` of the float in between, `E` being the exponent of the number; and it is a nearest half
unless the number is closer than `2^(E-24)` to the middle between two halves, without being it. -/
theorem C106_accuracy_partial (w : Nat → Nat → Nat) (fcast : ℚ → Nat) (hc : FloatConversion fcast) (d : ℚ) (E : Int) (E0 : -14 ≤ E)
    (E1 : E ≤ 15) (q1 : (2 : ℚ) ^ E ≤ |d|) (q2 : |d| < (2 : ℚ) ^ (E + 1)) (hmax : |d| ≤ 65519) :
    ∃ r v, r < 2 ^ 16 ∧ halfOf (some w) fcast d = .ok r ∧ (halfVal r).toRat? = some v ∧
      |v - d| ≤ (2 : ℚ) ^ (E - 11) + (2 : ℚ) ^ (E - 24) ∧
      ((∀ T : Int, |(T : ℚ) * (2 : ℚ) ^ (E - 11) - (|d|)| ≤ (2 : ℚ) ^ (E - 24) → (T : ℚ) * (2 : ℚ) ^ (E - 11) = |d|) →
        NearestHalf r d) :=
  two_roundings w _ d E (hc d (lt_of_le_of_lt hmax (by norm_num))) E0 E1 q1 q2 hmax

/-- **C106 (integers).** The half of an integer from 1 to 65519 in magnitude is a nearest half, where wide shifts are defined. -/
theorem C106_integer_partial (w : Nat → Nat → Nat) (fcast : ℚ → Nat) (hc : FloatConversion fcast) (N : Int) (h0 : N ≠ 0)
    (hmax : |N| ≤ 65519) : ∃ r < 2 ^ 16, halfOf (some w) fcast (N : ℚ) = .ok r ∧ NearestHalf r N := by
  have z2 : (2 : ℚ) ≠ 0 := by norm_num
  have hq : |(N : ℚ)| ≤ 65519 := by
    have : ((|N| : Int) : ℚ) ≤ ((65519 : Int) : ℚ) := by exact_mod_cast hmax
    push_cast at this
    exact this
  have h1 : (1 : ℚ) ≤ |(N : ℚ)| := by
    have : (1 : Int) ≤ |N| := Int.one_le_abs h0
    have : ((1 : Int) : ℚ) ≤ ((|N| : Int) : ℚ) := by exact_mod_cast this
    push_cast at this
    exact this
  obtain ⟨E, hE1, hE2⟩ : ∃ E : Int, (2 : ℚ) ^ E ≤ |(N : ℚ)| ∧ |(N : ℚ)| < (2 : ℚ) ^ (E + 1) := by
    have := Int.zpow_log_le_self (b := 2) (by norm_num) (lt_of_lt_of_le one_pos h1)
    have h2 := Int.lt_zpow_succ_log_self (b := 2) (R := ℚ) (by norm_num) |(N : ℚ)|
    exact ⟨Int.log 2 |(N : ℚ)|, by exact_mod_cast this, by exact_mod_cast h2⟩
  have E0 : 0 ≤ E := by
    have h2 : (2 : ℚ) ^ (0 : Int) < (2 : ℚ) ^ (E + 1) := lt_of_le_of_lt (by norm_num; exact h1) hE2
    have := (zpow_lt_zpow_iff_right₀ (by norm_num : (1 : ℚ) < 2)).1 h2
    omega
  have E1 : E ≤ 15 := by
    have h2 : (2 : ℚ) ^ E < (2 : ℚ) ^ (16 : Int) := lt_of_le_of_lt (le_trans hE1 hq) (by norm_num)
    have := (zpow_lt_zpow_iff_right₀ (by norm_num : (1 : ℚ) < 2)).1 h2
    omega
  obtain ⟨r, v, hr, hr', -, -, hn⟩ := C106_accuracy_partial w fcast hc N E (by omega) E1 hE1 hE2 hq
  refine ⟨r, hr, hr', hn fun T hT => ?_⟩
  obtain ⟨M, hM⟩ : ∃ M : Int, |(N : ℚ)| = M := ⟨|N|, by push_cast; rfl⟩
  rw [hM] at hT ⊢
  by_cases h11 : 11 ≤ E
  · -- both are integers
    obtain ⟨k, hk⟩ : ∃ k : Nat, E - 11 = k := ⟨(E - 11).toNat, by omega⟩
    rw [hk, zpow_natCast] at hT ⊢
    have h3 : |((T * 2 ^ k - M : Int) : ℚ)| < 1 := by
      push_cast
      refine lt_of_le_of_lt hT ?_
      exact zpow_lt_one_of_neg₀ (by norm_num) (by omega)
    have h4 : |T * 2 ^ k - M| < 1 := by exact_mod_cast h3
    have h5 := Int.abs_lt_one_iff.1 h4
    have h6 : T * 2 ^ k = M := by omega
    exact_mod_cast h6
  · -- both are multiples of `2^(E-11)`
    obtain ⟨k, hk⟩ : ∃ k : Nat, E - 11 = -(k : Int) := ⟨(11 - E).toNat, by omega⟩
    have P0 : (0 : ℚ) < (2 : ℚ) ^ (E - 11) := by positivity
    have e1 : (M : ℚ) = ((M * 2 ^ k : Int) : ℚ) * (2 : ℚ) ^ (E - 11) := by
      rw [hk, zpow_neg, zpow_natCast]
      push_cast
      field_simp
    rw [e1, ← sub_mul, abs_mul, abs_of_pos P0, show E - 24 = -13 + (E - 11) by ring, zpow_add₀ z2] at hT
    have h2 := le_of_mul_le_mul_right hT P0
    have h3 : |((T - M * 2 ^ k : Int) : ℚ)| < 1 := by
      rw [Int.cast_sub]
      refine lt_of_le_of_lt h2 (by norm_num)
    have h4 : |T - M * 2 ^ k| < 1 := by exact_mod_cast h3
    have h5 := Int.abs_lt_one_iff.1 h4
    have h6 : T = M * 2 ^ k := by omega
    rw [e1, h6]

/-- The hypotheses are met by the year. -/
example : ((2026 : Int) ≠ 0) ∧ |(2026 : Int)| ≤ 65519 := by decide

/-- **C106 is false** for doubles, on every platform: `1 + 2^-11 - 2^-40` is nearest to 1 but becomes `1 + 2^-10`. -/
theorem C106_false (W : Wide) (fcast : ℚ → Nat) (hc : FloatConversion fcast) : ¬ C106Claim W fcast Double := by
  intro h
  set d : ℚ := 1 + 1 / 2 ^ 11 - 1 / 2 ^ 40 with hd
  have d0 : |d| = d := abs_of_pos (by rw [hd]; norm_num)
  obtain ⟨r, hr, hr', hn⟩ := h d ⟨2 ^ 40 + 2 ^ 29 - 1, 40, by norm_num, by norm_num, by rw [hd]; norm_num⟩
  obtain ⟨hw, F, hF, hnear⟩ := hc d (by rw [d0, hd]; norm_num)
  obtain ⟨t, g, n, ht, hg, hm, hword⟩ := float_fields _ hw
  rw [hword] at hF
  obtain ⟨hb, dist, hcase⟩ := nearest_float t g n _ 0 (|d|) F ht hg hm (by norm_num) (by norm_num) (by rw [d0, hd]; norm_num)
    (by rw [d0, hd]; norm_num) hF hnear
  have ht0 : t = 0 := by
    by_contra hne
    have : t = 1 := by omega
    rw [this, decide_eq_false (by rw [hd]; norm_num)] at hb
    simp at hb
  rw [d0, hd] at dist
  obtain ⟨d1, d2⟩ := abs_le.1 dist
  rcases hcase with ⟨hg', hF'⟩ | ⟨-, -, hF'⟩
  swap
  · rw [hF'] at d2; norm_num at d2
  have hg2 : g = 127 := by omega
  have hn2 : n = 2 ^ 12 := by
    rw [hF'] at d1 d2
    norm_num at d1 d2
    have a1 : (n : ℚ) < ((2 ^ 12 + 1 : ℕ) : ℚ) := by push_cast; linarith
    have a2 : ((2 ^ 12 : ℕ) : ℚ) < ((n + 1 : ℕ) : ℚ) := by push_cast; linarith
    have a3 : n < 2 ^ 12 + 1 := by exact_mod_cast a1
    have a4 : 2 ^ 12 < n + 1 := by exact_mod_cast a2
    omega
  unfold halfOf at hr'
  rw [hword, ht0, hg2, hn2] at hr'
  cases W with
  | none =>
    rw [(C48_undefined_iff _ (by norm_num)).2 (Or.inr (by norm_num))] at hr'
    cases hr'
  | some w =>
    obtain ⟨x, hx⟩ := floatToHalf_ok w 0 127 (2 ^ 12) (by norm_num) (by norm_num) (by norm_num)
    rw [normal_body 127 (2 ^ 12) x (by norm_num) (by norm_num) (by norm_num), pack 0 _ (by norm_num) (by norm_num)] at hx
    rw [hx] at hr'
    have hr1 : 0 * 2 ^ 15 + 15 * 2 ^ 10 + 1 = r := by
      have := Out.ok.inj hr'
      norm_num at this ⊢
      exact this
    have v1 := toRat_norm 0 15 1 (by norm_num) (by norm_num) (by norm_num) (by norm_num)
    have v2 := toRat_norm 0 15 0 (by norm_num) (by norm_num) (by norm_num) (by norm_num)
    unfold NearestHalf at hn
    rw [if_neg (by rw [d0, hd]; norm_num)] at hn
    obtain ⟨v, hv, hmin⟩ := hn
    rw [← hr1, v1] at hv
    have hv' := Option.some.inj hv
    have := hmin _ (by norm_num) _ v2
    rw [← hv', hd] at this
    norm_num [signed, abs_of_pos, abs_of_neg] at this

end Verif.HalfM
