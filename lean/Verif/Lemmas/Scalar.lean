import Verif.Model.Scalar
import Verif.Spec.Scalar
import Verif.Lemmas.Ieee

/-!
# Lemmas on the scalar functions
-/

namespace Verif.ScalarM

open Verif.ScalarS Verif.Ieee

theorem min2_eq (a b : ℚ) : min2 a b = min a b := by
  unfold min2
  split
  · rw [min_eq_left (by linarith)]
  · rw [min_eq_right (by linarith)]

theorem max2_eq (a b : ℚ) : max2 a b = max a b := by
  unfold max2
  split
  · rw [max_eq_left (by linarith)]
  · rw [max_eq_right (by linarith)]

theorem abs'_eq (a : ℚ) : abs' a = |a| := by
  unfold abs'
  split
  · rw [abs_of_neg (by assumption)]
  · rw [abs_of_nonneg (by linarith)]

theorem copySign_of_nonneg {m s : ℚ} (hs : 0 ≤ s) : copySign m s = |m| := by
  rw [copySign, if_neg (by linarith), abs'_eq]

theorem copySign_of_neg {m s : ℚ} (hs : s < 0) : copySign m s = -|m| := by
  rw [copySign, if_pos hs, abs'_eq]

theorem trunc_of_nonneg {x : ℚ} (h : 0 ≤ x) : trunc x = ⌊x⌋ := by
  rw [trunc, if_neg (by linarith)]

theorem trunc_of_neg {x : ℚ} (h : x < 0) : trunc x = ⌈x⌉ := by
  rw [trunc, if_pos h]

/-! ## Powers of ten -/

theorem mulLoop_exact (c : ℚ) (n : Nat) (r : ℚ) : mulLoop id c n r = r * c ^ n := by
  induction n generalizing r with
  | zero => simp [mulLoop]
  | succ n ih =>
    rw [mulLoop, ih, pow_succ]
    simp only [id]
    ring

theorem pow10_exact {e : Int} (h : e ≠ 7) : pow10 id e = (10 : ℚ) ^ e := by
  by_cases hb : -7 ≤ e ∧ e ≤ 7
  · have : e = -7 ∨ e = -6 ∨ e = -5 ∨ e = -4 ∨ e = -3 ∨ e = -2 ∨ e = -1 ∨ e = 0 ∨ e = 1 ∨ e = 2 ∨ e = 3 ∨ e = 4 ∨
        e = 5 ∨ e = 6 := by omega
    clear h hb
    rcases this with h | h | h | h | h | h | h | h | h | h | h | h | h | h <;> subst h <;> decide +kernel
  · unfold pow10
    rw [dif_neg hb]
    split
    · rename_i hp
      rw [mulLoop_exact, one_mul, ← zpow_natCast, Int.toNat_of_nonneg (by omega)]
    · rename_i hp
      rw [mulLoop_exact, one_mul, ← zpow_natCast, Int.toNat_of_nonneg (by omega)]
      simp

/-! ## Nearest multiples -/

theorem Mult.one_int (n : Int) : Mult 1 (n : ℚ) := ⟨n, by simp⟩

theorem mult_scale {u : ℚ} (hu : 0 < u) {w : ℚ} : Mult u w ↔ Mult 1 (w / u) := by
  constructor
  · rintro ⟨n, rfl⟩
    exact ⟨n, by field_simp⟩
  · rintro ⟨n, hn⟩
    refine ⟨n, ?_⟩
    rw [div_eq_iff hu.ne'] at hn
    rw [hn]; ring

theorem mult_neg {u w : ℚ} (h : Mult u w) : Mult u (-w) := by
  obtain ⟨n, rfl⟩ := h
  exact ⟨-n, by push_cast; ring⟩

theorem abs_scale {u : ℚ} (hu : 0 < u) (a b : ℚ) : |a * u - b| = |a - b / u| * u := by
  have : a * u - b = (a - b / u) * u := by field_simp
  rw [this, abs_mul, abs_of_pos hu]

theorem abs_scale' {u : ℚ} (hu : 0 < u) (a b : ℚ) : |a - b| = |a / u - b / u| * u := by
  have : a - b = (a / u - b / u) * u := by field_simp
  rw [this, abs_mul, abs_of_pos hu]

theorem abs_div_mul {u : ℚ} (hu : 0 < u) (a : ℚ) : |a| = |a / u| * u := by
  rw [abs_div, abs_of_pos hu]; field_simp

theorem NearestAway.scale {u q z : ℚ} (hu : 0 < u) (h : NearestAway 1 q z) : NearestAway u (q * u) (z * u) := by
  obtain ⟨⟨n, hn⟩, hw⟩ := h
  refine ⟨⟨n, by rw [hn]; ring⟩, fun w hm => ?_⟩
  have e1 : |z * u - q * u| = |z - q| * u := by rw [abs_scale hu, mul_div_assoc, div_self hu.ne', mul_one]
  have e2 : |w - q * u| = |w / u - q| * u := by rw [abs_scale' hu, mul_div_assoc, div_self hu.ne', mul_one]
  have e3 : |z * u| = |z| * u := by rw [abs_mul, abs_of_pos hu]
  rw [e1, e2, e3, abs_div_mul hu w]
  rcases hw (w / u) ((mult_scale hu).mp hm) with h1 | ⟨h1, h2⟩
  · exact .inl (mul_lt_mul_of_pos_right h1 hu)
  · exact .inr ⟨by rw [h1], mul_le_mul_of_nonneg_right h2 hu.le⟩

theorem NearestAway.neg {u x z : ℚ} (h : NearestAway u x z) : NearestAway u (-x) (-z) := by
  refine ⟨mult_neg h.1, fun w hw => ?_⟩
  have e1 : |-z - -x| = |z - x| := by rw [← abs_neg (z - x)]; congr 1; ring
  have e2 : |w - -x| = |-w - x| := by rw [← abs_neg (-w - x)]; congr 1; ring
  rw [e1, e2, abs_neg z, ← abs_neg w]
  exact h.2 _ (mult_neg hw)

theorem NearestAway.nearest {u x z : ℚ} (h : NearestAway u x z) : Nearest u x z :=
  ⟨h.1, fun w hw => by rcases h.2 w hw with h | ⟨h, _⟩ <;> linarith⟩

theorem NearestEven.scale {u q z : ℚ} (hu : 0 < u) (h : NearestEven 1 q z) : NearestEven u (q * u) (z * u) := by
  obtain ⟨n, hn, hw⟩ := h
  refine ⟨n, by rw [hn]; ring, fun w hm => ?_⟩
  have e1 : |z * u - q * u| = |z - q| * u := by rw [abs_scale hu, mul_div_assoc, div_self hu.ne', mul_one]
  have e2 : |w - q * u| = |w / u - q| * u := by rw [abs_scale' hu, mul_div_assoc, div_self hu.ne', mul_one]
  rw [e1, e2]
  rcases hw (w / u) ((mult_scale hu).mp hm) with h1 | ⟨h1, h2⟩
  · exact .inl (mul_lt_mul_of_pos_right h1 hu)
  · refine .inr ⟨by rw [h1], h2.imp (fun h => ?_) id⟩
    rw [div_eq_iff hu.ne'] at h
    exact h

theorem NearestEven.neg {u x z : ℚ} (h : NearestEven u x z) : NearestEven u (-x) (-z) := by
  obtain ⟨n, hn, h⟩ := h
  refine ⟨-n, by rw [hn]; push_cast; ring, fun w hw => ?_⟩
  have e1 : |-z - -x| = |z - x| := by rw [← abs_neg (z - x)]; congr 1; ring
  have e2 : |w - -x| = |-w - x| := by rw [← abs_neg (-w - x)]; congr 1; ring
  rw [e1, e2]
  rcases h _ (mult_neg hw) with h1 | ⟨h1, h2⟩
  · exact .inl h1
  · refine .inr ⟨h1, h2.imp (fun h => by rw [← h]; ring) (fun h => by omega)⟩

theorem TowardZero.scale {u q z : ℚ} (hu : 0 < u) (h : TowardZero 1 q z) : TowardZero u (q * u) (z * u) := by
  obtain ⟨⟨n, hn⟩, h1, h2, hw⟩ := h
  have e3 : |z * u| = |z| * u := by rw [abs_mul, abs_of_pos hu]
  have e4 : |q * u| = |q| * u := by rw [abs_mul, abs_of_pos hu]
  refine ⟨⟨n, by rw [hn]; ring⟩, ?_, ?_, fun w hm hle => ?_⟩
  · rw [e3, e4]; exact mul_le_mul_of_nonneg_right h1 hu.le
  · have : z * u * (q * u) = z * q * (u * u) := by ring
    rw [this]; positivity
  · rw [e4, abs_div_mul hu w] at hle
    rw [e3, abs_div_mul hu w]
    exact mul_le_mul_of_nonneg_right (hw _ ((mult_scale hu).mp hm) (le_of_mul_le_mul_right hle hu)) hu.le

theorem TowardZero.neg {u x z : ℚ} (h : TowardZero u x z) : TowardZero u (-x) (-z) := by
  obtain ⟨h0, h1, h2, hw⟩ := h
  exact ⟨mult_neg h0, by rwa [abs_neg, abs_neg], by linarith, fun w hm hle => by
    rw [abs_neg] at hle ⊢
    exact hw w hm hle⟩

theorem AwayFromZero.scale {u q z : ℚ} (hu : 0 < u) (h : AwayFromZero 1 q z) : AwayFromZero u (q * u) (z * u) := by
  obtain ⟨⟨n, hn⟩, h1, h2, hw⟩ := h
  have e3 : |z * u| = |z| * u := by rw [abs_mul, abs_of_pos hu]
  have e4 : |q * u| = |q| * u := by rw [abs_mul, abs_of_pos hu]
  refine ⟨⟨n, by rw [hn]; ring⟩, ?_, ?_, fun w hm hle => ?_⟩
  · rw [e3, e4]; exact mul_le_mul_of_nonneg_right h1 hu.le
  · have : z * u * (q * u) = z * q * (u * u) := by ring
    rw [this]; positivity
  · rw [e4, abs_div_mul hu w] at hle
    rw [e3, abs_div_mul hu w]
    exact mul_le_mul_of_nonneg_right (hw _ ((mult_scale hu).mp hm) (le_of_mul_le_mul_right hle hu)) hu.le

theorem AwayFromZero.neg {u x z : ℚ} (h : AwayFromZero u x z) : AwayFromZero u (-x) (-z) := by
  obtain ⟨h0, h1, h2, hw⟩ := h
  exact ⟨mult_neg h0, by rwa [abs_neg, abs_neg], by linarith, fun w hm hle => by
    rw [abs_neg] at hle ⊢
    exact hw w hm hle⟩

/-- An integer within half of `q` (the half only above) is nearest with ties away from zero. -/
theorem nearestAway_int {q : ℚ} {Y : Int} (h0 : 0 ≤ q) (h1 : (Y : ℚ) ≤ q + 1 / 2) (h2 : q < Y + 1 / 2) :
    NearestAway 1 q Y := by
  refine ⟨Mult.one_int Y, ?_⟩
  rintro w ⟨m, rfl⟩
  rw [mul_one]
  have habs : |(Y : ℚ) - q| ≤ 1 / 2 := abs_le.mpr ⟨by linarith, by linarith⟩
  rcases lt_trichotomy m Y with hm | hm | hm
  · have hc : (m : ℚ) ≤ Y - 1 := by exact_mod_cast (by omega : m ≤ Y - 1)
    have e : |(m : ℚ) - q| = q - m := by rw [abs_of_nonpos (by linarith)]; ring
    rw [e]
    by_cases hs : |(Y : ℚ) - q| < q - m
    · exact .inl hs
    · right
      have : |(Y : ℚ) - q| = q - m := le_antisymm (by linarith) (by linarith)
      refine ⟨this, ?_⟩
      have hY : (0 : ℚ) ≤ m := by
        have h3 : (-1 : ℚ) < m := by linarith
        have h4 : (-1 : Int) < m := by exact_mod_cast h3
        exact_mod_cast (by omega : 0 ≤ m)
      rw [abs_of_nonneg hY, abs_of_nonneg (by linarith)]
      linarith
  · subst hm
    exact .inr ⟨rfl, le_refl _⟩
  · left
    have hc : (Y : ℚ) + 1 ≤ m := by exact_mod_cast (by omega : Y + 1 ≤ m)
    rw [abs_of_nonneg (by linarith : (0 : ℚ) ≤ m - q)]
    linarith

theorem towardZero_floor {q : ℚ} (h0 : 0 ≤ q) : TowardZero 1 q ⌊q⌋ := by
  have hf : (0 : Int) ≤ ⌊q⌋ := Int.floor_nonneg.mpr h0
  have hf' : (0 : ℚ) ≤ ⌊q⌋ := by exact_mod_cast hf
  refine ⟨Mult.one_int _, ?_, by positivity, ?_⟩
  · rw [abs_of_nonneg hf', abs_of_nonneg h0]
    exact Int.floor_le q
  · rintro w ⟨m, rfl⟩ hle
    rw [mul_one] at hle ⊢
    rw [abs_of_nonneg hf']
    rw [abs_of_nonneg h0] at hle
    rw [← Int.cast_abs] at hle ⊢
    exact_mod_cast Int.le_floor.mpr hle

theorem awayFromZero_ceil {q : ℚ} (h0 : 0 ≤ q) : AwayFromZero 1 q ⌈q⌉ := by
  have hf : (0 : Int) ≤ ⌈q⌉ := Int.ceil_nonneg h0
  have hf' : (0 : ℚ) ≤ ⌈q⌉ := by exact_mod_cast hf
  refine ⟨Mult.one_int _, ?_, by positivity, ?_⟩
  · rw [abs_of_nonneg hf', abs_of_nonneg h0]
    exact Int.le_ceil q
  · rintro w ⟨m, rfl⟩ hle
    rw [mul_one] at hle ⊢
    rw [abs_of_nonneg hf']
    rw [abs_of_nonneg h0] at hle
    rw [← Int.cast_abs] at hle ⊢
    exact_mod_cast Int.ceil_le.mpr hle

/-! ## `round` in exact arithmetic -/

/-- `y` of `round` after line 30, in exact arithmetic; `q` is `|num * 10^dp|` -/
def roundY (mode : Mode) (q : ℚ) : Int :=
  if mode.bits.testBit 0 ∧ q - ⌊q⌋ ≥ 1/2 then ⌊q⌋ + 1 else ⌊q⌋

theorem round_exact {x : ℚ} {d : Int} (h7 : d ≠ 7) (hm7 : d ≠ -7) (mode : Mode) :
    round id x d mode =
      (evenStep id mode (roundY mode (|x| * 10 ^ d)) (|x| * 10 ^ d - ⌊|x| * 10 ^ d⌋)).bind fun y =>
        .ok (copySign (y * 10 ^ (-d)) x) := by
  unfold round
  simp only [id, pow10_exact h7, pow10_exact (e := -d) (by omega), abs'_eq]
  have e : |x * 10 ^ d| = |x| * 10 ^ d := by
    rw [abs_mul, abs_of_pos (zpow_pos (by norm_num : (0 : ℚ) < 10) d)]
  rw [e]
  congr 2
  unfold roundY
  split <;> push_cast <;> rfl

theorem evenStep_of_not {mode : Mode} (h : mode.bits.testBit 2 = false) (fl : ℚ → ℚ) (y d : ℚ) :
    evenStep fl mode y d = .ok y := by
  simp [evenStep, h]

theorem pos10 (d : Int) : (0 : ℚ) < 10 ^ d := zpow_pos (by norm_num) d

/-- Reassembling a result from the magnitude. -/
theorem assemble {P : ℚ → ℚ → ℚ → Prop} {x : ℚ} {d : Int} {Y : Int} (hY : 0 ≤ Y)
    (scale : ∀ {u q z : ℚ}, 0 < u → P 1 q z → P u (q * u) (z * u))
    (neg : ∀ {u x z : ℚ}, P u x z → P u (-x) (-z))
    (h : P 1 (|x| * 10 ^ d) Y) : P (10 ^ (-d)) x (copySign (Y * 10 ^ (-d)) x) := by
  have h1 := scale (pos10 (-d)) h
  have hY' : (0 : ℚ) ≤ Y := by exact_mod_cast hY
  have e1 : |x| * 10 ^ d * 10 ^ (-d) = |x| := by
    rw [mul_assoc, ← zpow_add₀ (by norm_num)]; simp
  have e2 : |(Y : ℚ) * 10 ^ (-d)| = Y * 10 ^ (-d) := abs_of_nonneg (mul_nonneg hY' (pos10 _).le)
  rw [e1] at h1
  rcases lt_or_ge x 0 with hx | hx
  · rw [copySign_of_neg hx, e2]
    rw [abs_of_neg hx] at h1
    have := neg h1
    rwa [neg_neg] at this
  · rw [copySign_of_nonneg hx, e2]
    rwa [abs_of_nonneg hx] at h1

theorem q_nonneg (x : ℚ) (d : Int) : 0 ≤ |x| * 10 ^ d := mul_nonneg (abs_nonneg _) (pos10 d).le

theorem roundY_nonneg (mode : Mode) {q : ℚ} (h : 0 ≤ q) : 0 ≤ roundY mode q := by
  have := Int.floor_nonneg.mpr h
  unfold roundY
  split <;> omega

/-- `nearestEven` of lines 32-34, for a nonnegative integral `y` that fits 64 bits -/
theorem evenStep_halfEven {Y : Int} (h0 : 0 ≤ Y) (h1 : Y < 2 ^ 64) (diff : ℚ) :
    evenStep id .halfEven Y diff =
      .ok (((if diff = 1 / 2 then (if Y % 2 = 0 then Y else Y + 1) else Y : Int) : ℚ)) := by
  have hb : Mode.halfEven.bits.testBit 2 = true := rfl
  have hb4 : Mode.halfEven.bits.testBit 4 = true := rfl
  have hlt : (Y : ℚ) < 2 ^ 64 := by exact_mod_cast h1
  have hpar : Y.toNat % 2 = 1 ↔ ¬Y % 2 = 0 := by omega
  unfold evenStep
  rw [if_pos hb, toU64, if_pos hlt, Int.floor_intCast]
  have hcast : ((Y.toNat : ℕ) : ℚ) = (Y : ℚ) := by
    rw [← Int.cast_natCast, Int.toNat_of_nonneg h0]
  simp only [Out.bind, hb4, true_and, id, hcast, hpar]
  congr 1
  split
  · by_cases h : Y % 2 = 0
    · simp [h]
    · simp [h]
  · rfl

/-- `x` is representable: so are the integer part and the fraction of its magnitude, and the next integer when the fraction
is not zero. -/
theorem repr_parts {f : Fmt} (he : f.emin ≤ 0) {x : ℚ} (h : Repr f x) :
    Repr f ((⌊|x|⌋ : Int) : ℚ) ∧ Repr f (|x| - ⌊|x|⌋) ∧ (|x| - ⌊|x|⌋ ≠ 0 → Repr f (⌊|x|⌋ + 1)) := by
  have hr : Repr f |x| := by
    rcases abs_cases x with ⟨h1, -⟩ | ⟨h1, -⟩ <;> rw [h1]
    · exact h
    · exact repr_neg h
  obtain ⟨m, e, hem, hm, hx⟩ := hr
  have hx0 : 0 ≤ |x| := abs_nonneg x
  have hm0 : 0 ≤ m := by
    by_contra hneg
    push Not at hneg
    have h1 : (m : ℚ) < 0 := by exact_mod_cast hneg
    have h2 := two_zpow_pos e
    have h3 : (m : ℚ) * 2 ^ e < 0 := mul_neg_of_neg_of_pos h1 h2
    linarith
  rcases le_or_gt 0 e with h0 | h0
  · obtain ⟨n, hn⟩ := zpow_int h0
    have hi : |x| = ((m * n : Int) : ℚ) := by rw [hx, hn]; push_cast; rfl
    rw [hi, Int.floor_intCast, sub_self]
    refine ⟨?_, repr_zero f, fun h => absurd rfl h⟩
    rw [← hi]
    exact ⟨m, e, hem, hm, hx⟩
  · obtain ⟨k, hk⟩ : ∃ k : Nat, e = -(k : Int) := ⟨(-e).toNat, by omega⟩
    have hpk : (0 : Int) < 2 ^ k := by positivity
    have hq : |x| = (m : ℚ) / ((2 ^ k : Int) : ℚ) := by
      rw [hx, hk, zpow_neg, zpow_natCast, div_eq_mul_inv]
      push_cast
      rfl
    have hfl : ⌊|x|⌋ = m / 2 ^ k := by
      rw [hq]
      exact_mod_cast Rat.floor_intCast_div_natCast m (2 ^ k)
    have hdiv0 : 0 ≤ m / 2 ^ k := Int.ediv_nonneg hm0 hpk.le
    have hdivle : m / 2 ^ k ≤ m := Int.ediv_le_self _ hm0
    have habsm : |m| = m := abs_of_nonneg hm0
    have hmod := Int.emod_add_mul_ediv m (2 ^ k)
    have hmod0 := Int.emod_nonneg m hpk.ne'
    have hmodlt := Int.emod_lt_of_pos m hpk
    refine ⟨repr_int he ?_, ?_, fun _ => ?_⟩
    · rw [hfl, abs_of_nonneg hdiv0]
      rw [habsm] at hm
      omega
    · refine ⟨m % 2 ^ k, e, hem, ?_, ?_⟩
      · rw [abs_of_nonneg hmod0]
        have h1 : 0 ≤ 2 ^ k * (m / 2 ^ k) := mul_nonneg hpk.le hdiv0
        rw [habsm] at hm
        omega
      · rw [hfl, hq, hk, zpow_neg, zpow_natCast]
        have hmq : (m : ℚ) = ((m % 2 ^ k : Int) : ℚ) + 2 ^ k * ((m / 2 ^ k : Int) : ℚ) := by
          exact_mod_cast hmod.symm
        have h2k : ((2 : ℚ) ^ k) ≠ 0 := by positivity
        push_cast at hmq ⊢
        rw [div_eq_mul_inv]
        conv_lhs => rw [hmq]
        field_simp
        ring
    · rw [hfl]
      have : Repr f (((m / 2 ^ k + 1 : Int)) : ℚ) := repr_int he (by
        rw [abs_of_nonneg (by omega)]
        rw [habsm] at hm
        omega)
      push_cast at this
      exact this

/-! ## `roundTo` and `roundUpTo` in exact arithmetic -/

theorem fmod_nonneg_eq {x v : ℚ} (hx : 0 ≤ x) (hv : 0 < v) : fmod x v = Int.fract (x / v) * v := by
  rw [fmod, trunc_of_nonneg (div_nonneg hx hv.le), Int.fract]
  field_simp

theorem fmod_eq_zero {x v : ℚ} (hv : 0 < v) : Mult v x ↔ fmod x v = 0 := by
  constructor
  · rintro ⟨n, rfl⟩
    have h1 : (n : ℚ) * v / v = n := by field_simp
    have h2 : trunc (n : ℚ) = n := by unfold trunc; split <;> simp
    rw [fmod, h1, h2]
    ring
  · intro h
    rw [fmod, sub_eq_zero] at h
    exact ⟨trunc (x / v), by rw [mul_comm]; exact h⟩

theorem roundTo_exact {x v : ℚ} (hv : 0 < v) :
    roundTo id x v = if 1 / 2 ≤ Int.fract (|x| / v) then copySign ((⌊|x| / v⌋ + 1) * v) x
      else if 0 ≤ x then ⌊|x| / v⌋ * v else -(⌊|x| / v⌋ * v + 2 * Int.fract (|x| / v) * v) := by
  unfold roundTo
  simp only [id, abs'_eq, fmod_nonneg_eq (abs_nonneg x) hv]
  by_cases h0 : x = 0
  · subst h0
    simp
  rw [if_neg h0]
  have hcond : Int.fract (|x| / v) * v ≥ v / 2 ↔ 1 / 2 ≤ Int.fract (|x| / v) := by
    constructor
    · intro h
      by_contra hc
      push Not at hc
      have := mul_lt_mul_of_pos_right hc hv
      linarith
    · intro h
      have := mul_le_mul_of_nonneg_right h hv.le
      linarith
  have hx : |x| = (⌊|x| / v⌋ + Int.fract (|x| / v)) * v := by
    rw [Int.floor_add_fract]; field_simp
  have hfl : (0 : ℚ) ≤ ⌊|x| / v⌋ := by exact_mod_cast Int.floor_nonneg.mpr (div_nonneg (abs_nonneg x) hv.le)
  have hfr := Int.fract_nonneg (|x| / v)
  by_cases hc : 1 / 2 ≤ Int.fract (|x| / v)
  · rw [if_pos (hcond.mpr hc), if_pos hc]
    congr 1
    linarith
  · rw [if_neg (fun h => hc (hcond.mp h)), if_neg hc]
    have h1 := mul_nonneg hfl hv.le
    have h2 := mul_nonneg hfr hv.le
    rcases le_or_gt 0 x with h | h
    · rw [if_pos h, copySign_of_nonneg h]
      have hx' : x = (⌊|x| / v⌋ + Int.fract (|x| / v)) * v := by rw [← hx, abs_of_nonneg h]
      have : x - Int.fract (|x| / v) * v = ⌊|x| / v⌋ * v := by linarith
      rw [this, abs_of_nonneg h1]
    · rw [if_neg (by linarith), copySign_of_neg h]
      have hx' : x = -((⌊|x| / v⌋ + Int.fract (|x| / v)) * v) := by rw [← hx, abs_of_neg h]; ring
      have : x - Int.fract (|x| / v) * v = -(⌊|x| / v⌋ * v + 2 * Int.fract (|x| / v) * v) := by linarith
      rw [this, abs_neg, abs_of_nonneg (by linarith)]

theorem leastAbove_ceil {v : ℚ} (hv : 0 < v) (x : ℚ) : LeastAbove v x (⌈x / v⌉ * v) := by
  refine ⟨⟨_, rfl⟩, ?_, ?_⟩
  · have := mul_le_mul_of_nonneg_right (Int.le_ceil (x / v)) hv.le
    rwa [div_mul_cancel₀ _ hv.ne'] at this
  · rintro w ⟨n, rfl⟩ h
    refine mul_le_mul_of_nonneg_right ?_ hv.le
    have : x / v ≤ n := by rwa [div_le_iff₀ hv]
    exact_mod_cast Int.ceil_le.mpr this

/-- A multiple of the integer step is nearest exactly when it is within half a step. -/
theorem nearest_int_iff {x v z : Int} (hv : 0 < v) (hz : v ∣ z) :
    Nearest (v : ℚ) (x : ℚ) (z : ℚ) ↔ |z - x| * 2 ≤ v := by
  obtain ⟨k, rfl⟩ := hz
  have hiff : Nearest (v : ℚ) (x : ℚ) ((v * k : Int) : ℚ) ↔ ∀ n : Int, |v * k - x| ≤ |n * v - x| := by
    constructor
    · intro h n
      have := h.2 (n * v) ⟨n, rfl⟩
      exact_mod_cast this
    · intro h
      refine ⟨⟨k, by push_cast; ring⟩, ?_⟩
      rintro w ⟨n, rfl⟩
      have := h n
      exact_mod_cast this
  rw [hiff]
  constructor
  · intro h
    have h1 := h (k - 1)
    have h2 := h (k + 1)
    rw [show (k - 1) * v - x = v * k - x - v by ring] at h1
    rw [show (k + 1) * v - x = v * k - x + v by ring] at h2
    generalize v * k - x = a at *
    rcases abs_cases a with ⟨ha, ha'⟩ | ⟨ha, ha'⟩ <;> rw [ha] at h1 h2 ⊢
    · rcases abs_cases (a - v) with ⟨hb, hb'⟩ | ⟨hb, hb'⟩ <;> rw [hb] at h1 <;> omega
    · rcases abs_cases (a + v) with ⟨hb, hb'⟩ | ⟨hb, hb'⟩ <;> rw [hb] at h2 <;> omega
  · intro h n
    rcases eq_or_ne n k with rfl | hne
    · rw [mul_comm]
    · have e : n * v - x = (v * k - x) + (n - k) * v := by ring
      rw [e]
      have hge : v ≤ |(n - k) * v| := by
        rw [abs_mul, abs_of_pos hv]
        have : 1 ≤ |n - k| := Int.one_le_abs (sub_ne_zero.mpr hne)
        nlinarith
      generalize (n - k) * v = b at *
      generalize v * k - x = a at *
      have h3 : |b| ≤ |a + b| + |a| := by
        have := abs_sub_abs_le_abs_sub b (-a)
        rw [abs_neg, sub_neg_eq_add, add_comm b a] at this
        omega
      omega

theorem fmod_int {x v : Int} (hx : 0 ≤ x) (hv : 0 < v) : fmod (x : ℚ) v = ((x % v : Int) : ℚ) := by
  obtain ⟨n, rfl⟩ := Int.eq_ofNat_of_zero_le hv.le
  have hx' : (0 : ℚ) ≤ x := by exact_mod_cast hx
  have hv' : (0 : ℚ) < (n : ℚ) := by exact_mod_cast hv
  rw [fmod, trunc_of_nonneg (div_nonneg hx' (by push_cast; exact hv'.le))]
  rw [Int.mod_nat_eq_sub_mul_floor_rat_div]
  push_cast
  rfl

end Verif.ScalarM
