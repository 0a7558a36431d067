import Verif.Lemmas.BlasSolveFl
import Verif.Lemmas.FloatSum
import Verif.Model.FlBlas

/-! Lemmas: the error of a triangular solve in floating-point arithmetic. -/

namespace Verif.Ieee

variable {f : Fmt} {x y : ℚ}

theorem rnd_abs (f : Fmt) (x : ℚ) : |rnd f x| = rnd f |x| := by
  rcases le_total 0 x with h | h
  · rw [abs_of_nonneg h, abs_of_nonneg (rnd_nonneg h)]
  · have := rnd_nonneg (f := f) (x := -x) (by linarith)
    rw [abs_of_nonpos h, rnd_neg, abs_of_nonpos (by rw [rnd_neg] at this; linarith)]

/-- In the normal range the error is small against the rounded number, too. -/
theorem rnd_rel_after (h : (2 : ℚ) ^ (f.emin + f.p - 1) ≤ |x|) : |rnd f x - x| ≤ unitRoundoff f * |rnd f x| := by
  have hpos : 0 < |x| := lt_of_lt_of_le (two_zpow_pos _) h
  have h1 := rnd_close f x
  have hp := f.hp
  have hl : f.emin + f.p - 1 ≤ Int.log 2 |x| := by
    by_contra hc
    have h2 := lt_log |x|
    have h3 : (2 : ℚ) ^ (Int.log 2 |x| + 1) ≤ 2 ^ (f.emin + f.p - 1) := zpow_le_zpow.mpr (by omega)
    linarith
  have h2 : (2 : ℚ) ^ Int.log 2 |x| ≤ |rnd f x| := by
    rw [rnd_abs]
    exact le_rnd_of_repr (repr_two_zpow (by omega)) (log_le_self hpos)
  have e : (2 : ℚ) ^ ulpExp f x / 2 = unitRoundoff f * 2 ^ Int.log 2 |x| := by
    have : ulpExp f x = Int.log 2 |x| - (f.p - 1) := max_eq_left (by omega)
    rw [this, unitRoundoff, ← zpow_add₀ (by norm_num), show Int.log 2 |x| - ((f.p : Int) - 1) = -(f.p : Int) + Int.log 2 |x| + 1 by ring,
      zpow_add_one₀ (by norm_num)]
    ring
  rw [e] at h1
  exact h1.trans (mul_le_mul_of_nonneg_left h2 (unit_pos f).le)

/-- Any rounding, against the rounded number. -/
theorem rnd_err_after (f : Fmt) (x : ℚ) : |rnd f x - x| ≤ unitRoundoff f * |rnd f x| + halfTiny f := by
  by_cases h : (2 : ℚ) ^ (f.emin + f.p - 1) ≤ |x|
  · have := rnd_rel_after h
    have := tiny_pos f
    linarith
  · push Not at h
    have h0 : 0 ≤ unitRoundoff f * |rnd f x| := mul_nonneg (unit_pos f).le (abs_nonneg _)
    by_cases hx : x = 0
    · subst hx
      rw [rnd_zero, sub_zero, abs_zero, mul_zero, zero_add]
      exact (tiny_pos f).le
    · have hE : ulpExp f x ≤ f.emin := ulpExp_le hx le_rfl (lt_of_lt_of_le h (zpow_le_zpow.2 (by omega)))
      have h1 := rnd_close f x
      have h2 : (2 : ℚ) ^ ulpExp f x ≤ 2 ^ f.emin := zpow_le_zpow.2 hE
      have e : halfTiny f = 2 ^ f.emin / 2 := by
        unfold halfTiny
        rw [zpow_sub₀ (by norm_num)]
        norm_num
      rw [e]
      linarith

/-- Differences, against the rounded number. -/
theorem rnd_sub_err_after (hx : Repr f x) (hy : Repr f y) : |rnd f (x - y) - (x - y)| ≤ unitRoundoff f * |rnd f (x - y)| := by
  by_cases h : (2 : ℚ) ^ (f.emin + f.p - 1) ≤ |x - y|
  · exact rnd_rel_after h
  · push Not at h
    have hm : Mult f.emin (x - y) := by
      rw [sub_eq_add_neg]
      exact (mult_emin hx).add (mult_emin (repr_neg hy))
    have : Repr f (x - y) := repr_of_mult hm le_rfl (le_of_lt (lt_of_lt_of_le h (zpow_le_zpow.2 (by omega))))
    rw [rnd_of_repr this, sub_self, abs_zero]
    exact mul_nonneg (unit_pos f).le (abs_nonneg _)

/-- One step of a solve: the equation of the row holds up to a few roundings of its terms. -/
theorem step_residual {b s S T D w z : ℚ} {k : Nat} (hb : Repr f b) (hs : Repr f s) (hS : |s - S| ≤ sumBound f k T) (hT : 0 ≤ T)
    (hw : w = rnd f (b - s)) (hz : (D = 1 ∧ z = w) ∨ (D ≠ 0 ∧ z = rnd f (w / D))) :
    |S + D * z - b| ≤ ((1 + unitRoundoff f) ^ (k + 2) - 1) * (T + |D * z|) + (k + |D|) * (1 + unitRoundoff f) ^ (k + 2) * halfTiny f := by
  have h1 : |w - (b - s)| ≤ unitRoundoff f * |w| := by rw [hw]; exact rnd_sub_err_after hb hs
  have hu := unit_pos f
  have hh := tiny_pos f
  have h2 : |D * z - w| ≤ unitRoundoff f * |D * z| + |D| * halfTiny f := by
    rcases hz with ⟨hD, hz⟩ | ⟨hD, hz⟩
    · rw [hD, hz, one_mul, sub_self, abs_zero, abs_one, one_mul]
      have := mul_nonneg hu.le (abs_nonneg w)
      linarith
    · have e : D * z - w = D * (z - w / D) := by field_simp
      have h3 := rnd_err_after f (w / D)
      rw [← hz] at h3
      rw [e, abs_mul, abs_mul]
      have := mul_le_mul_of_nonneg_left h3 (abs_nonneg D)
      linarith
  have hp : (1 + unitRoundoff f) ^ k ≤ (1 + unitRoundoff f) ^ (k + 2) := pow_unit_mono f (by omega)
  have hp2 : (1 + unitRoundoff f) ^ 2 ≤ (1 + unitRoundoff f) ^ (k + 2) := pow_unit_mono f (by omega)
  have hp1 : 1 + unitRoundoff f ≤ (1 + unitRoundoff f) ^ (k + 2) := by
    have := pow_unit_mono f (n := 1) (m := k + 2) (by omega)
    rwa [pow_one] at this
  unfold sumBound at hS
  generalize (1 + unitRoundoff f) ^ (k + 2) = P at *
  generalize (1 + unitRoundoff f) ^ k = P' at *
  generalize unitRoundoff f = u at *
  generalize halfTiny f = h at *
  have e : S + D * z - b = (S - s) + (D * z - w) + (w - (b - s)) := by ring
  have h3 := abs_add_three (S - s) (D * z - w) (w - (b - s))
  rw [← e, abs_sub_comm S s] at h3
  have h4 : |w| ≤ |D * z| + |D * z - w| := by
    have := abs_sub_abs_le_abs_sub w (D * z)
    rw [abs_sub_comm w] at this
    linarith
  have hDz : 0 ≤ |D * z| := abs_nonneg _
  have hD0 : 0 ≤ |D| := abs_nonneg _
  generalize |D * z| = X at *
  generalize |D| = d at *
  generalize |w| = W at *
  have h5 : W ≤ X + (u * X + d * h) := by linarith
  have h6 : u * W ≤ u * (X + (u * X + d * h)) := mul_le_mul_of_nonneg_left h5 hu.le
  have h7 : ((1 + u) ^ 2 - 1) * X ≤ (P - 1) * X := mul_le_mul_of_nonneg_right (by linarith) hDz
  have h8 : (P' - 1) * T ≤ (P - 1) * T := mul_le_mul_of_nonneg_right (by linarith) hT
  have h9 : (1 + u) * (d * h) ≤ P * (d * h) := mul_le_mul_of_nonneg_right hp1 (mul_nonneg hD0 hh.le)
  have h10 : P' * (k * h) ≤ P * (k * h) := mul_le_mul_of_nonneg_right hp (mul_nonneg (Nat.cast_nonneg k) hh.le)
  nlinarith

end Verif.Ieee
