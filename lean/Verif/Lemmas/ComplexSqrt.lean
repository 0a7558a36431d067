import Verif.Model.ComplexFn
import Mathlib.Tactic.Linarith
import Mathlib.Tactic.FieldSimp
import Mathlib.Tactic.Ring
import Mathlib.Tactic.Positivity

/-!
# The scaled hypotenuse of `_fabs`
-/

namespace Verif.Cx

noncomputable section

/-- The constants are right up to `d`. -/
structure Good (k : FabsConst) (d : ℝ) : Prop where
  digits : 0 < k.digits
  root2 : 0 < k.root2
  err : |k.root2 - Real.sqrt 2| + |k.onePlusRoot2 - (1 + Real.sqrt 2)| ≤ d

theorem sqrt2_bounds : 1.414 < Real.sqrt 2 ∧ Real.sqrt 2 < 1.415 := by
  constructor
  · exact Real.lt_sqrt_of_sq_lt (by norm_num)
  · rw [Real.sqrt_lt' (by norm_num)]; norm_num

theorem sqrt_div_sq {a b : ℝ} (hb : 0 < b) : Real.sqrt (a ^ 2 / b ^ 2 + 1) = Real.sqrt (a ^ 2 + b ^ 2) / b := by
  rw [show a ^ 2 / b ^ 2 + 1 = (a ^ 2 + b ^ 2) / b ^ 2 by field_simp, Real.sqrt_div' _ (by positivity), Real.sqrt_sq hb.le]

theorem sv_close {k : FabsConst} {d : ℝ} (hk : Good k d) {q s : ℝ} (hq : 0 ≤ q) (hs : 0 < s) (hsq : s ^ 2 = (q + 2) * q + 2) :
    |(q + 2) * q / (k.root2 + s) + k.onePlusRoot2 + q - (s + (1 + q))| ≤ d := by
  obtain ⟨s1, s2⟩ := sqrt2_bounds
  have h22 : Real.sqrt 2 ^ 2 = 2 := Real.sq_sqrt (by norm_num)
  have hr := hk.root2
  have hx : (q + 2) * q / (Real.sqrt 2 + s) = s - Real.sqrt 2 := by
    rw [div_eq_iff (by linarith)]
    nlinarith
  have e1 : (q + 2) * q / (k.root2 + s) - (q + 2) * q / (Real.sqrt 2 + s) =
      (Real.sqrt 2 - k.root2) * ((q + 2) * q / ((k.root2 + s) * (Real.sqrt 2 + s))) := by
    field_simp
    ring
  have e2 : 0 ≤ (q + 2) * q / ((k.root2 + s) * (Real.sqrt 2 + s)) := by positivity
  have e3 : (q + 2) * q / ((k.root2 + s) * (Real.sqrt 2 + s)) ≤ 1 := by
    rw [div_le_one (by positivity)]
    nlinarith [mul_pos hr (show 0 < Real.sqrt 2 + s by linarith), mul_pos hs (show 0 < Real.sqrt 2 by linarith)]
  have e4 : |(q + 2) * q / (k.root2 + s) - (q + 2) * q / (Real.sqrt 2 + s)| ≤ |k.root2 - Real.sqrt 2| := by
    rw [e1, abs_mul, abs_of_nonneg e2, abs_sub_comm]
    exact mul_le_of_le_one_right (abs_nonneg _) e3
  have e5 : (q + 2) * q / (k.root2 + s) + k.onePlusRoot2 + q - (s + (1 + q)) =
      ((q + 2) * q / (k.root2 + s) - (q + 2) * q / (Real.sqrt 2 + s)) + (k.onePlusRoot2 - (1 + Real.sqrt 2)) := by
    rw [hx]; ring
  rw [e5]
  exact le_trans (abs_add_le _ _) (le_trans (by linarith) hk.err)

theorem quot_close {b x y d : ℝ} (hb : 0 ≤ b) (hx : 2 ≤ x) (hy : 2 ≤ y) (h : |y - x| ≤ d) : |b / y - b / x| ≤ d / 4 * b := by
  have hd : 0 ≤ d := le_trans (abs_nonneg _) h
  have e6 : b / y - b / x = b * ((x - y) / (y * x)) := by
    field_simp
  rw [e6, abs_mul, abs_of_nonneg hb, abs_div, abs_of_pos (show 0 < y * x by positivity), mul_comm, abs_sub_comm]
  apply mul_le_mul_of_nonneg_right _ hb
  rw [div_le_iff₀ (by positivity)]
  have h4 : 4 ≤ y * x := by nlinarith
  nlinarith

/-- The hypotenuse: right up to `d / 4` times the shorter side, and not shorter than the longer one. -/
theorem fabsHyp_error {k : FabsConst} {d : ℝ} (hk : Good k d) (hd : d ≤ 1 / 10) {a b : ℝ} (hb : 0 ≤ b) (hab : b ≤ a) :
    |fabsHyp k a b - Real.sqrt (a ^ 2 + b ^ 2)| ≤ d / 4 * b ∧ a ≤ fabsHyp k a b := by
  have hd0 : 0 ≤ d := le_trans (add_nonneg (abs_nonneg _) (abs_nonneg _)) hk.err
  unfold fabsHyp
  simp only
  by_cases h0 : a - b = a
  · have : b = 0 := by linarith
    subst this
    rw [if_pos h0]
    simp [Real.sqrt_sq hab]
  rw [if_neg h0]
  have hb' : 0 < b := lt_of_le_of_ne hb (fun h => h0 (by rw [← h]; ring))
  have ha : 0 < a := by linarith
  have hH : 0 < Real.sqrt (a ^ 2 + b ^ 2) := Real.sqrt_pos.2 (by positivity)
  have hH2 : Real.sqrt (a ^ 2 + b ^ 2) ^ 2 = a ^ 2 + b ^ 2 := Real.sq_sqrt (by positivity)
  have haH : a < Real.sqrt (a ^ 2 + b ^ 2) := Real.lt_sqrt_of_sq_lt (by nlinarith)
  generalize hHd : Real.sqrt (a ^ 2 + b ^ 2) = H at hH hH2 haH
  have key : a + b / ((a + H) / b) = H := by
    have : a + H ≠ 0 := by linarith
    field_simp
    nlinarith
  by_cases h1 : b < a - b
  · rw [if_pos h1]
    have e : a / b + Real.sqrt (a / b * (a / b) + 1) = (a + H) / b := by
      rw [← sq, div_pow, sqrt_div_sq hb', hHd]; ring
    rw [e, key]
    simp only [sub_self, abs_zero]
    exact ⟨by positivity, haH.le⟩
  · rw [if_neg h1]
    have hq : 0 ≤ (a - b) / b := div_nonneg (by linarith) hb
    have hs : Real.sqrt (((a - b) / b + 2) * ((a - b) / b) + 2) = H / b := by
      rw [← hHd, ← sqrt_div_sq hb']
      congr 1
      field_simp
      ring
    rw [hs]
    generalize hqd : (a - b) / b = q at hq hs
    have hab' : a / b = 1 + q := by rw [← hqd]; field_simp; ring
    have hsq : (H / b) ^ 2 = (q + 2) * q + 2 := by
      rw [← hs, Real.sq_sqrt (by positivity)]
    have hs0 : 0 < H / b := by positivity
    obtain ⟨s, hsd⟩ : ∃ s, H / b = s := ⟨_, rfl⟩
    rw [hsd] at hs hsq hs0 ⊢
    have hdiff := sv_close hk hq hs0 hsq
    generalize (q + 2) * q / (k.root2 + s) + k.onePlusRoot2 + q = sv at hdiff
    have hsv0 : (a + H) / b = s + (1 + q) := by
      rw [add_div, hsd, hab']; ring
    rw [hsv0] at key
    have hsge : Real.sqrt 2 ≤ s := by
      rw [← hs]
      exact Real.sqrt_le_sqrt (by nlinarith)
    have hsv : 2.4 ≤ s + (1 + q) := by linarith [sqrt2_bounds.1]
    have hsv' : 2 ≤ sv := by linarith [(abs_le.1 hdiff).1]
    have h5 : 0 ≤ b / sv := by positivity
    refine ⟨?_, by linarith⟩
    rw [← key, add_sub_add_left_eq_sub]
    exact quot_close hb (by linarith) hsv' hdiff

theorem fabsHyp_nonneg {k : FabsConst} {d : ℝ} (hk : Good k d) (hd : d ≤ 1 / 10) {a b : ℝ} (hb : 0 ≤ b) (hab : b ≤ a) :
    0 ≤ fabsHyp k a b := le_trans (le_trans hb hab) (fabsHyp_error hk hd hb hab).2

/-- The scaling multiplies both sides by a power of two with an even, non-zero exponent. -/
theorem fabsScale_spec {k : FabsConst} {d : ℝ} (hk : Good k d) (a b : ℝ) :
    ∃ m : Int, m ≠ 0 ∧ fabsScale k a b = (2 * m, a * (2 : ℝ) ^ (-(2 * m)), b * (2 : ℝ) ^ (-(2 * m))) := by
  unfold fabsScale
  split
  · exact ⟨2, by norm_num, by norm_num⟩
  · split
    · refine ⟨-(k.digits : Int), by have := hk.digits; omega, ?_⟩
      have : -(2 * -(k.digits : Int)) = ((2 * k.digits : Nat) : Int) := by push_cast; ring
      rw [this, zpow_natCast]
      ring_nf
    · exact ⟨-1, by norm_num, by norm_num⟩

theorem max_min_sq (x y : ℝ) : max |x| |y| ^ 2 + min |x| |y| ^ 2 = x ^ 2 + y ^ 2 := by
  rcases le_total |x| |y| with h | h
  · rw [max_eq_right h, min_eq_left h, sq_abs, sq_abs]; ring
  · rw [max_eq_left h, min_eq_right h, sq_abs, sq_abs]

/-- `_fabs` of a number other than zero: `R * 2 ^ exponent` is the magnitude up to the error of the constants. -/
theorem fabs_spec {k : FabsConst} {d : ℝ} (hk : Good k d) (hd : d ≤ 1 / 10) (z : Cx ℝ) (hz : z.re ≠ 0 ∨ z.im ≠ 0) :
    ∃ (m : Int) (R : ℝ), m ≠ 0 ∧ fabs k z = (2 * m, R * (2 : ℝ) ^ (-(2 * m))) ∧
      |R - Real.sqrt (z.re ^ 2 + z.im ^ 2)| ≤ d / 4 * min |z.re| |z.im| ∧ |z.re| ≤ R ∧ |z.im| ≤ R := by
  have hav : max |z.re| |z.im| ≠ 0 := by
    intro h
    have h1 : |z.re| ≤ 0 := h ▸ le_max_left _ _
    have h2 : |z.im| ≤ 0 := h ▸ le_max_right _ _
    rcases hz with h' | h'
    · exact h' (abs_nonpos_iff.1 h1)
    · exact h' (abs_nonpos_iff.1 h2)
  have hb0 : 0 ≤ min |z.re| |z.im| := le_min (abs_nonneg _) (abs_nonneg _)
  have hba : min |z.re| |z.im| ≤ max |z.re| |z.im| := min_le_max
  have e := max_min_sq z.re z.im
  unfold fabs
  simp only
  rw [if_neg hav]
  have ha1 : |z.re| ≤ max |z.re| |z.im| := le_max_left _ _
  have ha2 : |z.im| ≤ max |z.re| |z.im| := le_max_right _ _
  generalize max |z.re| |z.im| = a at *
  generalize min |z.re| |z.im| = b at *
  obtain ⟨m, hm, hs⟩ := fabsScale_spec hk a b
  rw [hs]
  have hp : (0 : ℝ) < (2 : ℝ) ^ (-(2 * m)) := by positivity
  have hpq : (2 : ℝ) ^ (-(2 * m)) * (2 : ℝ) ^ (2 * m) = 1 := by
    rw [← zpow_add₀ (by norm_num)]; simp
  have hq : (0 : ℝ) < (2 : ℝ) ^ (2 * m) := by positivity
  obtain ⟨h1, h2⟩ := fabsHyp_error hk hd (a := a * (2 : ℝ) ^ (-(2 * m))) (b := b * (2 : ℝ) ^ (-(2 * m))) (by positivity)
    (mul_le_mul_of_nonneg_right hba hp.le)
  have e2 : Real.sqrt ((a * (2 : ℝ) ^ (-(2 * m))) ^ 2 + (b * (2 : ℝ) ^ (-(2 * m))) ^ 2) =
      Real.sqrt (z.re ^ 2 + z.im ^ 2) * (2 : ℝ) ^ (-(2 * m)) := by
    rw [mul_pow, mul_pow, ← add_mul, e, Real.sqrt_mul (by positivity), Real.sqrt_sq hp.le]
  rw [e2] at h1
  generalize fabsHyp k (a * (2 : ℝ) ^ (-(2 * m))) (b * (2 : ℝ) ^ (-(2 * m))) = r at h1 h2
  have hr : a ≤ r * (2 : ℝ) ^ (2 * m) := by
    have := mul_le_mul_of_nonneg_right h2 hq.le
    rwa [mul_assoc, hpq, mul_one] at this
  refine ⟨m, r * (2 : ℝ) ^ (2 * m), hm, ?_, ?_, le_trans ha1 hr, le_trans ha2 hr⟩
  · rw [mul_assoc, mul_comm ((2 : ℝ) ^ (2 * m)), hpq, mul_one]
  · have e3 : r * (2 : ℝ) ^ (2 * m) - Real.sqrt (z.re ^ 2 + z.im ^ 2) =
        (r - Real.sqrt (z.re ^ 2 + z.im ^ 2) * (2 : ℝ) ^ (-(2 * m))) * (2 : ℝ) ^ (2 * m) := by
      rw [sub_mul, mul_assoc (Real.sqrt _), hpq, mul_one]
    rw [e3, abs_mul, abs_of_pos hq]
    have := mul_le_mul_of_nonneg_right h1 hq.le
    rwa [← mul_assoc, mul_assoc (d / 4 * b), hpq, mul_one] at this

/-- The real quantity all of `sqrt` rests on. -/
theorem rho_eq {R x : ℝ} (m : Int) (hx : 0 ≤ |x| + R) :
    ldexp (Real.sqrt (2 * (ldexp |x| (-(2 * m)) + R * (2 : ℝ) ^ (-(2 * m))))) (2 * m / 2 - 1) = Real.sqrt ((|x| + R) / 2) := by
  unfold ldexp
  rw [show (2 * m / 2 - 1 : Int) = m - 1 by omega]
  have hp : (0 : ℝ) < (2 : ℝ) ^ (m - 1) := by positivity
  have key : ∀ A : ℝ, 0 ≤ A → Real.sqrt A * (2 : ℝ) ^ (m - 1) = Real.sqrt (A * ((2 : ℝ) ^ (m - 1)) ^ 2) := by
    intro A hA
    rw [Real.sqrt_mul hA, Real.sqrt_sq hp.le]
  rw [← add_mul, key _ (by have : (0 : ℝ) < (2 : ℝ) ^ (-(2 * m)) := by positivity
                           have := mul_nonneg hx this.le
                           linarith)]
  congr 1
  have : ((2 : ℝ) ^ (m - 1)) ^ 2 = (2 : ℝ) ^ (2 * m) / 4 := by
    rw [← zpow_natCast, ← zpow_mul, show (m - 1) * ((2 : Nat) : Int) = 2 * m - 2 by push_cast; ring, zpow_sub₀ (by norm_num)]
    norm_num
  rw [this]
  have h2 : (2 : ℝ) ^ (-(2 * m)) * (2 : ℝ) ^ (2 * m) = 1 := by
    rw [← zpow_add₀ (by norm_num)]; simp
  calc 2 * ((|x| + R) * (2 : ℝ) ^ (-(2 * m))) * ((2 : ℝ) ^ (2 * m) / 4)
      = (|x| + R) / 2 * ((2 : ℝ) ^ (-(2 * m)) * (2 : ℝ) ^ (2 * m)) := by ring
    _ = _ := by rw [h2, mul_one]

theorem copySign_sq (x y : ℝ) : copySign x y ^ 2 = x ^ 2 := by
  unfold copySign
  split <;> simp

/-- What `sqrt` returns, in terms of the computed magnitude `R`. -/
theorem sqrt_spec {k : FabsConst} {d : ℝ} (hk : Good k d) (hd : d ≤ 1 / 10) (z : Cx ℝ) (hz : z.re ≠ 0 ∨ z.im ≠ 0) :
    ∃ R : ℝ, |R - Real.sqrt (z.re ^ 2 + z.im ^ 2)| ≤ d / 4 * min |z.re| |z.im| ∧ |z.re| ≤ R ∧ |z.im| ≤ R ∧ 0 < R ∧
      0 < Real.sqrt ((|z.re| + R) / 2) ∧
      sqrt k z = if 0 ≤ z.re then ⟨Real.sqrt ((|z.re| + R) / 2), z.im / (2 * Real.sqrt ((|z.re| + R) / 2))⟩
        else ⟨|z.im / (2 * Real.sqrt ((|z.re| + R) / 2))|, copySign (Real.sqrt ((|z.re| + R) / 2)) z.im⟩ := by
  obtain ⟨m, R, hm, hf, h1, h2, h3⟩ := fabs_spec hk hd z hz
  have hR : 0 < R := by
    rcases hz with h | h
    · exact lt_of_lt_of_le (abs_pos.2 h) h2
    · exact lt_of_lt_of_le (abs_pos.2 h) h3
  refine ⟨R, h1, h2, h3, hR, Real.sqrt_pos.2 (by positivity), ?_⟩
  unfold sqrt
  rw [hf]
  simp only
  rw [if_neg (by omega), rho_eq m (by positivity)]

/-- The square of the result. -/
theorem sqrt_square {k : FabsConst} {d : ℝ} (hk : Good k d) (hd : d ≤ 1 / 10) (z : Cx ℝ) :
    |(sqrt k z).re ^ 2 - (sqrt k z).im ^ 2 - z.re| ≤ d * Real.sqrt (z.re ^ 2 + z.im ^ 2) ∧
    2 * (sqrt k z).re * (sqrt k z).im = z.im ∧ 0 ≤ (sqrt k z).re ∧ ((sqrt k z).re = 0 → 0 ≤ (sqrt k z).im) := by
  by_cases hz : z.re ≠ 0 ∨ z.im ≠ 0
  · obtain ⟨R, h1, h2, h3, hR, hr, e⟩ := sqrt_spec hk hd z hz
    have hd0 : 0 ≤ d := le_trans (add_nonneg (abs_nonneg _) (abs_nonneg _)) hk.err
    generalize hrd : Real.sqrt ((|z.re| + R) / 2) = r at hr e
    have hr2 : r ^ 2 = (|z.re| + R) / 2 := by rw [← hrd, Real.sq_sqrt (by positivity)]
    set N := Real.sqrt (z.re ^ 2 + z.im ^ 2) with hN
    have hN2 : N ^ 2 = z.re ^ 2 + z.im ^ 2 := Real.sq_sqrt (by positivity)
    have hN0 : 0 ≤ N := Real.sqrt_nonneg _
    have hmin : min |z.re| |z.im| ≤ N := le_trans (min_le_left _ _) (Real.abs_le_sqrt (by nlinarith [sq_nonneg z.im]))
    have hNR : N ≤ 2 * R := by
      have : N ^ 2 ≤ (2 * R) ^ 2 := by
        rw [hN2, ← sq_abs z.re, ← sq_abs z.im]
        nlinarith [abs_nonneg z.re, abs_nonneg z.im]
      exact abs_le_of_sq_le_sq' this (by linarith) |>.2
    have hX : abs (r ^ 2 - (z.im / (2 * r)) ^ 2 - |z.re|) ≤ d * N := by
      have e1 : r ^ 2 - (z.im / (2 * r)) ^ 2 - |z.re| = (R - N) * ((R + N) / (2 * (|z.re| + R))) := by
        rw [div_pow, mul_pow, hr2]
        have h5 : |z.re| ^ 2 = z.re ^ 2 := sq_abs _
        field_simp
        nlinarith
      have h4 : (R + N) / (2 * (|z.re| + R)) ≤ 3 / 2 := by
        rw [div_le_iff₀ (by positivity)]
        nlinarith [abs_nonneg z.re]
      have h5 : 0 ≤ (R + N) / (2 * (|z.re| + R)) := by positivity
      rw [e1, abs_mul, abs_of_nonneg h5]
      calc |R - N| * ((R + N) / (2 * (|z.re| + R))) ≤ (d / 4 * N) * (3 / 2) :=
            mul_le_mul (le_trans h1 (mul_le_mul_of_nonneg_left hmin (by positivity))) h4 h5 (by positivity)
        _ ≤ d * N := by nlinarith [mul_nonneg hd0 hN0]
    rw [e]
    by_cases hre : 0 ≤ z.re
    · rw [if_pos hre]
      rw [abs_of_nonneg hre] at hX
      exact ⟨hX, by field_simp, hr.le, fun h => absurd h hr.ne'⟩
    · rw [if_neg hre]
      rw [abs_of_neg (not_le.1 hre)] at hX
      simp only
      rw [copySign_sq, sq_abs]
      refine ⟨?_, ?_, abs_nonneg _, fun h => ?_⟩
      · rw [← abs_neg]
        convert hX using 2
        ring
      · rw [abs_div, abs_of_pos (show 0 < 2 * r by positivity)]
        unfold copySign
        rw [abs_of_pos hr]
        split
        · rename_i h; rw [abs_of_neg h]; field_simp
        · rename_i h; rw [abs_of_nonneg (not_lt.1 h)]; field_simp
      · have : z.im = 0 := by
          have := abs_eq_zero.1 h
          rcases div_eq_zero_iff.1 this with h | h
          · exact h
          · linarith
        unfold copySign
        rw [this]
        simp
  · simp only [not_or, not_not] at hz
    have e : sqrt k z = ⟨0, 0⟩ := by
      unfold sqrt fabs
      simp [hz.1, hz.2]
    rw [e, hz.1, hz.2]
    simp

end

end Verif.Cx
