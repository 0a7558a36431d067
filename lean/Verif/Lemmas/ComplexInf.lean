import Verif.Model.ComplexInf

/-! Lemmas about numbers with infinities. -/

namespace Verif.CxInf

open scoped NNReal
open X

noncomputable section

/-- The multiple `q` of `π` with a sign. -/
def frac (s : Bool) (q : ℝ≥0) : X := .fin s (q * NNReal.pi)

theorem ofReal_of_nonneg {r : ℝ} (h : 0 ≤ r) : ofReal r = .fin false r.toNNReal := by
  unfold ofReal
  rw [Real.nnabs_of_nonneg h]
  congr
  simpa using h

theorem piTimes_eq (q : ℝ≥0) : piTimes q = frac false q := by
  have h : (0 : ℝ) ≤ q * Real.pi := mul_nonneg q.2 Real.pi_pos.le
  unfold piTimes frac
  rw [ofReal_of_nonneg h]
  congr 1
  ext
  rw [Real.coe_toNNReal _ h, NNReal.coe_mul, NNReal.coe_real_pi]

theorem piTimes_34 : piTimes 0.75 = frac false (3 / 4) := by
  rw [← piTimes_eq]; norm_num
theorem piTimes_14 : piTimes 0.25 = frac false (1 / 4) := by
  rw [← piTimes_eq]; norm_num
theorem piTimes_12 : piTimes 0.5 = frac false (1 / 2) := by
  rw [← piTimes_eq]; norm_num
theorem piTimes_1 : piTimes 1 = frac false 1 := by
  rw [← piTimes_eq]; norm_num

theorem angle_eq (y : X) (q : ℝ≥0) : angle y (q * Real.pi) = frac y.signBit q := by
  unfold angle
  rw [← piTimes, piTimes_eq]
  rfl

theorem angle_half (y : X) : angle y (Real.pi / 2) = frac y.signBit (1 / 2) := by
  rw [← angle_eq]; congr 1; push_cast; ring
theorem angle_quarter (y : X) : angle y (Real.pi / 4) = frac y.signBit (1 / 4) := by
  rw [← angle_eq]; congr 1; push_cast; ring
theorem angle_three (y : X) : angle y (3 * Real.pi / 4) = frac y.signBit (3 / 4) := by
  rw [← angle_eq]; congr 1; push_cast; ring
theorem angle_pi (y : X) : angle y Real.pi = frac y.signBit 1 := by
  rw [← angle_eq]; congr 1; push_cast; ring
theorem angle_zero (y : X) : angle y 0 = .fin y.signBit 0 := by
  unfold angle
  rw [ofReal_of_nonneg le_rfl, Real.toNNReal_zero]
  rfl

theorem lt_inf_fin (n n' : Bool) (m : ℝ≥0) : lt (inf n) (fin n' m) ↔ n = true := Iff.rfl
theorem lt_fin_inf (n : Bool) (m : ℝ≥0) (n' : Bool) : lt (fin n m) (inf n') ↔ n' = false := Iff.rfl

theorem ofReal_pos {r : ℝ} (h : 0 < r) : ofReal r = .fin false r.toNNReal := ofReal_of_nonneg h.le

theorem ofReal_neg {r : ℝ} (h : r < 0) : ofReal r = .fin true (-r).toNNReal := by
  unfold ofReal
  congr
  · simpa using h
  · ext
    rw [Real.coe_nnabs, abs_of_neg h, Real.coe_toNNReal _ (by linarith)]

theorem toNNReal_ne {r : ℝ} (h : 0 < r) : r.toNNReal ≠ 0 := by
  simpa using h

theorem inf_mul_pos (n s : Bool) {r : ℝ} (h : 0 < r) : mul (inf n) (mul (fin s 1) (ofReal r)) = inf (n != s) := by
  rw [ofReal_pos h]
  simp [mul, toNNReal_ne h]

theorem inf_mul_neg (n s : Bool) {r : ℝ} (h : r < 0) : mul (inf n) (mul (fin s 1) (ofReal r)) = inf (n == s) := by
  rw [ofReal_neg h]
  simp [mul, toNNReal_ne (neg_pos.2 h)]
  cases n <;> cases s <;> simp_all

theorem inf_mul_zero (n s t : Bool) : mul (inf n) (fin s 0) = nan ∧ mul (inf n) (mul (fin t 1) (fin s 0)) = nan := by
  simp [mul]

theorem one_mul_ofReal (r : ℝ) : mul (fin false 1) (ofReal r) = ofReal r := by
  unfold ofReal
  simp [mul]

theorem ofReal_zero : ofReal 0 = fin false 0 := by rw [ofReal_of_nonneg le_rfl, Real.toNNReal_zero]
theorem ofReal_one : ofReal 1 = fin false 1 := by rw [ofReal_of_nonneg zero_le_one, Real.toNNReal_one]

theorem addFin_same (s : Bool) (m m' : ℝ≥0) : addFin s m s m' = fin s (m + m') := by
  unfold addFin
  cases s with
  | false =>
    by_cases h : (m : ℝ) + m' = 0
    · have : m + m' = 0 := by exact_mod_cast h
      simp [val, h, this]
    · simp only [val, h, if_neg, Bool.false_eq_true, not_false_eq_true]
      rw [ofReal_of_nonneg (by positivity)]
      congr 1
      ext; rw [Real.coe_toNNReal _ (by positivity)]; push_cast; rfl
  | true =>
    by_cases h : (m : ℝ) + m' = 0
    · have h1 : m + m' = 0 := by exact_mod_cast h
      have h2 : -(m : ℝ) + -(m' : ℝ) = 0 := by linarith
      simp [val, h2, h1]
    · have h2 : -(m : ℝ) + -(m' : ℝ) ≠ 0 := fun e => h (by linarith)
      have hp : (0 : ℝ) < m + m' := lt_of_le_of_ne (by positivity) (Ne.symm h)
      simp only [val, if_true, h2, if_false]
      rw [ofReal_neg (by linarith)]
      congr 1
      ext; rw [Real.coe_toNNReal _ (by linarith)]; push_cast; ring

theorem add_zero_one (s : Bool) : add one (fin false 0) = one ∧ add one (mul (fin s 0) (fin s 0)) = one := by
  constructor
  · change addFin false 1 false 0 = _
    rw [addFin_same, add_zero]; rfl
  · have : mul (fin s 0) (fin s 0) = fin false 0 := by simp [mul]
    rw [this]
    change addFin false 1 false 0 = _
    rw [addFin_same, add_zero]; rfl

theorem val_ofReal (r : ℝ) : ∃ s k, ofReal r = fin s k ∧ val s k = r := by
  rcases lt_or_ge r 0 with h | h
  · refine ⟨true, (-r).toNNReal, ofReal_neg h, ?_⟩
    simp only [val, if_true, Real.coe_toNNReal _ (neg_nonneg.2 h.le), neg_neg]
  · refine ⟨false, r.toNNReal, ofReal_of_nonneg h, ?_⟩
    simp only [val, Bool.false_eq_true, if_false, Real.coe_toNNReal _ h]

/-- The sum of finite numbers is finite. -/
theorem addFin_finite (n : Bool) (m : ℝ≥0) (n' : Bool) (m' : ℝ≥0) : ∃ s k, addFin n m n' m' = fin s k ∧ val s k = val n m + val n' m' := by
  unfold addFin
  split_ifs with h
  · exact ⟨_, 0, rfl, by rw [h]; unfold val; split_ifs <;> simp⟩
  · exact val_ofReal _

/-- The magnitude of a finite number. -/
theorem mag_fin (n : Bool) (m : ℝ≥0) : ∃ n', mag (fin n m) = fin n' m ∧ val n' m = m := by
  unfold mag
  cases n with
  | false =>
    have : ¬ lt (fin false m) zero := by
      change ¬ (val false m < val false 0)
      simp [val]
    rw [if_neg this]
    exact ⟨_, rfl, rfl⟩
  | true =>
    by_cases h : lt (fin true m) zero
    · rw [if_pos h]
      exact ⟨_, rfl, rfl⟩
    · rw [if_neg h]
      refine ⟨_, rfl, ?_⟩
      have h1 : ¬ (val true m < val false 0) := h
      simp only [val, if_true, Bool.false_eq_true, if_false, NNReal.coe_zero, neg_lt_zero, not_lt] at h1 ⊢
      have : (m : ℝ) = 0 := le_antisymm h1 m.2
      rw [this, neg_zero]

theorem mag_inf (n : Bool) : mag (inf n) = inf false := by
  unfold mag
  cases n with
  | false => rw [if_neg (by exact fun h => by cases h)]
  | true => rw [if_pos (by exact rfl)]; rfl

theorem lt_mag (n n' : Bool) (m m' : ℝ≥0) : lt (mag (fin n m)) (mag (fin n' m')) ↔ m < m' := by
  obtain ⟨a, h1, h2⟩ := mag_fin n m
  obtain ⟨b, h3, h4⟩ := mag_fin n' m'
  rw [h1, h3]
  change val a m < val b m' ↔ _
  rw [h2, h4]
  exact NNReal.coe_lt_coe

end

end Verif.CxInf
