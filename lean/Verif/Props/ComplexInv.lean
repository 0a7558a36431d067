import Verif.Lemmas.ComplexInv

/-!
# C65: complex inverse functions, logarithms and powers
-/

namespace Verif.Cx

/-! ### The inverse trigonometric and hyperbolic functions -/

/-- **C65 (acos).** For exact constants and arguments that are not among the very largest, for either sign of a zero imaginary part, the result is an
inverse under `cos`, in the principal strip, with an imaginary part of the opposite sign. -/
theorem C65_acos_partial {k : FabsConst} (hk : Exact k) {big : ℝ} (hb : 0 ≤ big) (nz : Bool) (z : Cx ℝ) (hz : ‖toC z‖ + 1 ≤ big ^ 2) :
    Complex.cos (toC (acos k big nz z)) = toC z ∧ 0 ≤ (acos k big nz z).re ∧ (acos k big nz z).re ≤ Real.pi ∧
    (0 < z.im ∨ z.im = 0 ∧ nz = false → (acos k big nz z).im ≤ 0) ∧ (z.im < 0 ∨ z.im = 0 ∧ nz = true → 0 ≤ (acos k big nz z).im) := by
  obtain ⟨x, y⟩ := z
  rw [norm_toC] at hz
  generalize hw : sqrtZ k (!nz) ⟨1 + x, -y⟩ = w
  generalize hzz : sqrtZ k (!nz) ⟨1 - x, -y⟩ = s
  obtain ⟨w1, w2, w3, w4⟩ := sqrtZ_spec hk _ _ _ hw
  obtain ⟨s1, s2, s3, s4⟩ := sqrtZ_spec hk _ _ _ hzz
  obtain ⟨b1, b2⟩ := sqrtZ_le w1 w2 hb (sqrt_shift_le hz (Or.inl ⟨by simp, by simp⟩))
  have e : acos k big nz ⟨x, y⟩ = ⟨2 * atan2 s.re w.re, Real.arsinh (w.re * s.im + w.im * s.re)⟩ := by
    unfold acos
    simp only [hw, hzz]
    rw [abs_le] at b1 b2
    rw [if_neg (by linarith), if_neg (by linarith), if_neg (by linarith), arcLog_zero]
  obtain ⟨c1, c2⟩ := acos_core w1 w2 s1 s2
  rw [e, ← (C52_simple _).2.2.1]
  have ha : 0 ≤ atan2 s.re w.re := Complex.arg_nonneg_iff.2 s3
  have hb' : |atan2 s.re w.re| ≤ Real.pi / 2 := Complex.abs_arg_le_pi_div_two_iff.2 w3
  rw [abs_le] at hb'
  refine ⟨?_, ?_, ?_, ?_, ?_⟩
  · exact congrArg toC (Cx.ext c1 c2)
  · show 0 ≤ 2 * atan2 s.re w.re; linarith
  · show 2 * atan2 s.re w.re ≤ _; linarith
  · intro h
    have hw := (sqrtZ_sign ⟨w1, w2, w3, w4⟩).2 (by rcases h with h | ⟨h, h'⟩ <;> [(left; simpa using h); (right; exact ⟨by simpa using h, by simp [h']⟩)])
    have hs := (sqrtZ_sign ⟨s1, s2, s3, s4⟩).2 (by rcases h with h | ⟨h, h'⟩ <;> [(left; simpa using h); (right; exact ⟨by simpa using h, by simp [h']⟩)])
    show Real.arsinh _ ≤ 0
    rw [Real.arsinh_nonpos_iff]
    nlinarith
  · intro h
    have hw := (sqrtZ_sign ⟨w1, w2, w3, w4⟩).1 (by rcases h with h | ⟨h, h'⟩ <;> [(left; simpa using h); (right; exact ⟨by simpa using h, by simp [h']⟩)])
    have hs := (sqrtZ_sign ⟨s1, s2, s3, s4⟩).1 (by rcases h with h | ⟨h, h'⟩ <;> [(left; simpa using h); (right; exact ⟨by simpa using h, by simp [h']⟩)])
    show 0 ≤ Real.arsinh _
    rw [Real.arsinh_nonneg_iff]
    nlinarith

/-- `cos` is injective in the strip. -/
theorem cos_inj {a b : ℂ} (ha : 0 ≤ a.re ∧ a.re ≤ Real.pi) (hb : 0 < b.re ∧ b.re < Real.pi) (h : Complex.cos a = Complex.cos b) : a = b := by
  obtain ⟨n, hn | hn⟩ := Complex.cos_eq_cos_iff.1 h
  · have hr := congrArg Complex.re hn
    simp at hr
    have h1 : (n : ℝ) < 1 := by nlinarith [Real.pi_pos]
    have h2 : (-1 : ℝ) < n := by nlinarith [Real.pi_pos]
    have h0 : n = 0 := by
      have h1 : n < 1 := by exact_mod_cast h1
      have h2 : -1 < n := by exact_mod_cast h2
      omega
    rw [hn, h0]; simp
  · have hr := congrArg Complex.re hn
    simp at hr
    have h1 : (n : ℝ) < 1 := by nlinarith [Real.pi_pos]
    have h2 : (0 : ℝ) < n := by nlinarith [Real.pi_pos]
    have h1 : n < 1 := by exact_mod_cast h1
    have h2 : 0 < n := by exact_mod_cast h2
    omega

/-- **C65 (acos inverts cos).** `acos(cos w) = w` for `w` in the open principal strip. -/
theorem C65_acos_cos_partial {k : FabsConst} (hk : Exact k) {big : ℝ} (hb : 0 ≤ big) (nz : Bool) (w : Cx ℝ) (h0 : 0 < w.re) (h1 : w.re < Real.pi)
    (hz : ‖toC (cos w)‖ + 1 ≤ big ^ 2) : acos k big nz (cos w) = w := by
  obtain ⟨a, b, c, -⟩ := C65_acos_partial hk hb nz (cos w) hz
  exact toC_inj (cos_inj ⟨b, c⟩ ⟨h0, h1⟩ (a.trans (C52_simple w).2.2.1))

/-- **C65 (acosh).** -/
theorem C65_acosh_partial {k : FabsConst} (hk : Exact k) {big : ℝ} (hb : 0 ≤ big) (nz : Bool) (z : Cx ℝ) (hz : ‖toC z‖ + 1 ≤ big ^ 2) :
    Complex.cosh (toC (acosh k big nz z)) = toC z ∧ 0 ≤ (acosh k big nz z).re ∧ |(acosh k big nz z).im| ≤ Real.pi ∧
    (0 < z.im ∨ z.im = 0 ∧ nz = false → 0 ≤ (acosh k big nz z).im) ∧ (z.im < 0 ∨ z.im = 0 ∧ nz = true → (acosh k big nz z).im ≤ 0) := by
  obtain ⟨x, y⟩ := z
  rw [norm_toC] at hz
  generalize hw : sqrtZ k (!nz) ⟨x - 1, -y⟩ = w
  generalize hv : sqrtZ k nz ⟨x - 1, y⟩ = v
  generalize hzz : sqrtZ k nz ⟨x + 1, y⟩ = s
  obtain ⟨w1, w2, w3, w4⟩ := sqrtZ_spec hk _ _ _ hw
  obtain ⟨s1, s2, s3, s4⟩ := sqrtZ_spec hk _ _ _ hzz
  obtain ⟨b1, b2⟩ := sqrtZ_le w1 w2 hb (sqrt_shift_le hz (Or.inl ⟨by simp, by simp⟩))
  have hvw : v = conj w := by
    rw [← hw, ← hv]
    cases nz
    · show _ = conj (sqrtZ k true _)
      rw [sqrtZ_false, sqrtZ_true]
      simp [conj]
    · show _ = conj (sqrtZ k false _)
      rw [sqrtZ_false, sqrtZ_true]
      rfl
  have e : acosh k big nz ⟨x, y⟩ = ⟨Real.arsinh (w.re * s.re - w.im * s.im), 2 * atan2 (-w.im) s.re⟩ := by
    unfold acosh
    simp only [hw, hzz, hv]
    rw [abs_le] at b1 b2
    rw [if_neg (by linarith), if_neg (by linarith), arcLog_zero, hvw]
    rfl
  obtain ⟨c1, c2⟩ := acosh_core w1 w2 s1 s2
  rw [e, ← (C52_simple _).2.2.2.2]
  have hb' : |atan2 (-w.im) s.re| ≤ Real.pi / 2 := Complex.abs_arg_le_pi_div_two_iff.2 s3
  have hsgn : w.im * s.im ≤ 0 := by
    rcases lt_trichotomy y 0 with h | h | h
    · have h1 := (sqrtZ_sign ⟨w1, w2, w3, w4⟩).1 (Or.inl (by linarith))
      have h2 := (sqrtZ_sign ⟨s1, s2, s3, s4⟩).2 (Or.inl h)
      nlinarith
    · cases nz
      · have h1 := (sqrtZ_sign ⟨w1, w2, w3, w4⟩).2 (Or.inr ⟨by linarith, rfl⟩)
        have h2 := (sqrtZ_sign ⟨s1, s2, s3, s4⟩).1 (Or.inr ⟨h, rfl⟩)
        nlinarith
      · have h1 := (sqrtZ_sign ⟨w1, w2, w3, w4⟩).1 (Or.inr ⟨by linarith, rfl⟩)
        have h2 := (sqrtZ_sign ⟨s1, s2, s3, s4⟩).2 (Or.inr ⟨h, rfl⟩)
        nlinarith
    · have h1 := (sqrtZ_sign ⟨w1, w2, w3, w4⟩).2 (Or.inl (by linarith))
      have h2 := (sqrtZ_sign ⟨s1, s2, s3, s4⟩).1 (Or.inl h)
      nlinarith
  refine ⟨?_, ?_, ?_, ?_, ?_⟩
  · exact congrArg toC (Cx.ext c1 c2)
  · show 0 ≤ Real.arsinh _
    rw [Real.arsinh_nonneg_iff]
    nlinarith
  · show |2 * _| ≤ _
    rw [abs_mul, abs_two]; linarith
  · intro h
    have hw := (sqrtZ_sign ⟨w1, w2, w3, w4⟩).2 (by rcases h with h | ⟨h, h'⟩ <;> [(left; simpa using h); (right; exact ⟨by simpa using h, by simp [h']⟩)])
    have : 0 ≤ atan2 (-w.im) s.re := Complex.arg_nonneg_iff.2 (by show 0 ≤ -w.im; linarith)
    show 0 ≤ 2 * _
    linarith
  · intro h
    have hw := (sqrtZ_sign ⟨w1, w2, w3, w4⟩).1 (by rcases h with h | ⟨h, h'⟩ <;> [(left; simpa using h); (right; exact ⟨by simpa using h, by simp [h']⟩)])
    show 2 * atan2 (-w.im) s.re ≤ 0
    rcases hw.eq_or_lt with h0 | h0
    · have : 0 = atan2 (-w.im) s.re := by
        symm
        exact Complex.arg_eq_zero_iff.2 ⟨s3, by show -w.im = 0; linarith⟩
      linarith
    · have : atan2 (-w.im) s.re < 0 := Complex.arg_neg_iff.2 (by show -w.im < 0; linarith)
      linarith

/-- **C65 (asinh).** `nz` is the sign of a zero real part. -/
theorem C65_asinh_partial {k : FabsConst} (hk : Exact k) {big : ℝ} (hb : 0 ≤ big) (nz : Bool) (z : Cx ℝ) (hz : ‖toC z‖ + 1 ≤ big ^ 2) :
    Complex.sinh (toC (asinh k big nz z)) = toC z ∧ |(asinh k big nz z).im| ≤ Real.pi / 2 ∧
    (0 < z.re ∨ z.re = 0 ∧ nz = false → 0 ≤ (asinh k big nz z).re) ∧ (z.re < 0 ∨ z.re = 0 ∧ nz = true → (asinh k big nz z).re ≤ 0) := by
  obtain ⟨x, y⟩ := z
  rw [norm_toC] at hz
  generalize hw : sqrtZ k nz ⟨1 - y, x⟩ = w
  generalize hzz : sqrtZ k (!nz) ⟨1 + y, -x⟩ = s
  obtain ⟨w1, w2, w3, w4⟩ := sqrtZ_spec hk _ _ _ hw
  obtain ⟨s1, s2, s3, s4⟩ := sqrtZ_spec hk _ _ _ hzz
  obtain ⟨b1, b2⟩ := sqrtZ_le w1 w2 hb (sqrt_shift_le hz (Or.inr (Or.inr (Or.inr ⟨by simp, rfl⟩))))
  have e : asinh k big nz ⟨x, y⟩ = ⟨Real.arsinh (w.im * s.re - w.re * s.im), atan2 y (w.re * s.re - w.im * s.im)⟩ := by
    unfold asinh
    simp only [hw, hzz]
    rw [abs_le] at b1 b2
    rw [if_neg (by linarith), if_neg (by linarith), if_neg (by linarith), arcLog_zero]
    rfl
  obtain ⟨c1, c2⟩ := asinh_core w1 w2 s1 s2
  rw [e, ← (C52_simple _).2.2.2.1]
  refine ⟨?_, ?_, ?_, ?_⟩
  · exact congrArg toC (Cx.ext c1 c2)
  · refine Complex.abs_arg_le_pi_div_two_iff.2 ?_
    show 0 ≤ w.re * s.re - w.im * s.im
    have hsgn : w.im * s.im ≤ 0 := by
      rcases lt_trichotomy x 0 with h | h | h
      · have h1 := (sqrtZ_sign ⟨w1, w2, w3, w4⟩).2 (Or.inl h)
        have h2 := (sqrtZ_sign ⟨s1, s2, s3, s4⟩).1 (Or.inl (by linarith))
        nlinarith
      · cases nz
        · have h1 := (sqrtZ_sign ⟨w1, w2, w3, w4⟩).1 (Or.inr ⟨h, rfl⟩)
          have h2 := (sqrtZ_sign ⟨s1, s2, s3, s4⟩).2 (Or.inr ⟨by linarith, rfl⟩)
          nlinarith
        · have h1 := (sqrtZ_sign ⟨w1, w2, w3, w4⟩).2 (Or.inr ⟨h, rfl⟩)
          have h2 := (sqrtZ_sign ⟨s1, s2, s3, s4⟩).1 (Or.inr ⟨by linarith, rfl⟩)
          nlinarith
      · have h1 := (sqrtZ_sign ⟨w1, w2, w3, w4⟩).1 (Or.inl h)
        have h2 := (sqrtZ_sign ⟨s1, s2, s3, s4⟩).2 (Or.inl (by linarith))
        nlinarith
    nlinarith
  · intro h
    have hw := (sqrtZ_sign ⟨w1, w2, w3, w4⟩).1 h
    have hs := (sqrtZ_sign ⟨s1, s2, s3, s4⟩).2 (by rcases h with h | ⟨h, h'⟩ <;> [(left; simpa using h); (right; exact ⟨by simpa using h, by simp [h']⟩)])
    show 0 ≤ Real.arsinh _
    rw [Real.arsinh_nonneg_iff]
    nlinarith
  · intro h
    have hw := (sqrtZ_sign ⟨w1, w2, w3, w4⟩).2 h
    have hs := (sqrtZ_sign ⟨s1, s2, s3, s4⟩).1 (by rcases h with h | ⟨h, h'⟩ <;> [(left; simpa using h); (right; exact ⟨by simpa using h, by simp [h']⟩)])
    show Real.arsinh _ ≤ 0
    rw [Real.arsinh_nonpos_iff]
    nlinarith

/-- **C65 (asin).** -/
theorem C65_asin_partial {k : FabsConst} (hk : Exact k) {big : ℝ} (hb : 0 ≤ big) (nz : Bool) (z : Cx ℝ) (hz : ‖toC z‖ + 1 ≤ big ^ 2) :
    Complex.sin (toC (asin k big nz z)) = toC z ∧ |(asin k big nz z).re| ≤ Real.pi / 2 ∧
    (0 < z.im ∨ z.im = 0 ∧ nz = false → 0 ≤ (asin k big nz z).im) ∧ (z.im < 0 ∨ z.im = 0 ∧ nz = true → (asin k big nz z).im ≤ 0) := by
  obtain ⟨a, b, c, d⟩ := C65_asinh_partial hk hb (!nz) ⟨-z.im, z.re⟩ (by
    rw [norm_toC] at hz ⊢
    show Real.sqrt ((-z.im) ^ 2 + z.re ^ 2) + 1 ≤ _
    rw [neg_sq, add_comm (z.im ^ 2)]; exact hz)
  unfold asin
  generalize asinh k big (!nz) ⟨-z.im, z.re⟩ = s at *
  refine ⟨?_, b, ?_, ?_⟩
  · have e : toC s = toC ⟨s.im, -s.re⟩ * Complex.I := by
      apply Complex.ext <;> simp [toC]
    rw [e, Complex.sinh_mul_I] at a
    have e2 : toC ⟨-z.im, z.re⟩ = toC z * Complex.I := by
      apply Complex.ext <;> simp [toC]
    rw [e2] at a
    exact mul_right_cancel₀ Complex.I_ne_zero a
  · intro h
    have := d (by rcases h with h | ⟨h, h'⟩ <;> [(left; simpa using h); (right; exact ⟨by simpa using h, by simp [h']⟩)])
    show 0 ≤ -s.re; linarith
  · intro h
    have := c (by rcases h with h | ⟨h, h'⟩ <;> [(left; simpa using h); (right; exact ⟨by simpa using h, by simp [h']⟩)])
    show -s.re ≤ 0; linarith

/-- `sin` is injective in the strip. -/
theorem sin_inj {a b : ℂ} (ha : |a.re| ≤ Real.pi / 2) (hb : |b.re| < Real.pi / 2) (h : Complex.sin a = Complex.sin b) : a = b := by
  rw [abs_le] at ha
  rw [abs_lt] at hb
  have e : ∀ c : ℂ, (Real.pi / 2 - c).re = Real.pi / 2 - c.re := fun c => by
    rw [Complex.sub_re, show (Real.pi / 2 : ℂ) = ((Real.pi / 2 : ℝ) : ℂ) by push_cast; rfl, Complex.ofReal_re]
  have := cos_inj (a := Real.pi / 2 - a) (b := Real.pi / 2 - b) (by rw [e]; constructor <;> linarith) (by rw [e]; constructor <;> linarith)
    (by rw [Complex.cos_pi_div_two_sub, Complex.cos_pi_div_two_sub, h])
  exact sub_right_injective this

/-- **C65 (asin inverts sin).** -/
theorem C65_asin_sin_partial {k : FabsConst} (hk : Exact k) {big : ℝ} (hb : 0 ≤ big) (nz : Bool) (w : Cx ℝ) (h : |w.re| < Real.pi / 2)
    (hz : ‖toC (sin w)‖ + 1 ≤ big ^ 2) : asin k big nz (sin w) = w := by
  obtain ⟨a, b, -⟩ := C65_asin_partial hk hb nz (sin w) hz
  exact toC_inj (sin_inj b h (a.trans (C52_simple w).2.1))

/-- **C65 (asinh inverts sinh).** -/
theorem C65_asinh_sinh_partial {k : FabsConst} (hk : Exact k) {big : ℝ} (hb : 0 ≤ big) (nz : Bool) (w : Cx ℝ) (h : |w.im| < Real.pi / 2)
    (hz : ‖toC (sinh w)‖ + 1 ≤ big ^ 2) : asinh k big nz (sinh w) = w := by
  obtain ⟨a, b, -⟩ := C65_asinh_partial hk hb nz (sinh w) hz
  have a := a.trans (C52_simple w).2.2.2.1
  have e : ∀ c : ℂ, Complex.sin (c * Complex.I) = Complex.sinh c * Complex.I := Complex.sin_mul_I
  have := sin_inj (a := toC (asinh k big nz (sinh w)) * Complex.I) (b := toC w * Complex.I)
    (by simpa [toC] using b) (by simpa [toC] using h) (by rw [e, e, a])
  exact toC_inj (mul_right_cancel₀ Complex.I_ne_zero this)

/-- `cosh` is injective in the half strip. -/
theorem cosh_inj {a b : ℂ} (ha : 0 ≤ a.re ∧ |a.im| ≤ Real.pi) (hb : 0 < b.re ∧ |b.im| < Real.pi) (h : Complex.cosh a = Complex.cosh b) : a = b := by
  rw [abs_le] at ha
  rw [abs_lt] at hb
  rw [← Complex.cos_mul_I, ← Complex.cos_mul_I] at h
  obtain ⟨n, hn | hn⟩ := Complex.cos_eq_cos_iff.1 h
  · have hr := congrArg Complex.re hn
    simp at hr
    have h1 : (n : ℝ) < 1 := by nlinarith [Real.pi_pos]
    have h2 : (-1 : ℝ) < n := by nlinarith [Real.pi_pos]
    have h0 : n = 0 := by
      have h1 : n < 1 := by exact_mod_cast h1
      have h2 : -1 < n := by exact_mod_cast h2
      omega
    rw [h0] at hn
    simp at hn
    exact hn.symm
  · have hi := congrArg Complex.im hn
    simp at hi
    linarith

/-- **C65 (acosh inverts cosh).** -/
theorem C65_acosh_cosh_partial {k : FabsConst} (hk : Exact k) {big : ℝ} (hb : 0 ≤ big) (nz : Bool) (w : Cx ℝ) (h0 : 0 < w.re) (h1 : |w.im| < Real.pi)
    (hz : ‖toC (cosh w)‖ + 1 ≤ big ^ 2) : acosh k big nz (cosh w) = w := by
  obtain ⟨a, b, c, -⟩ := C65_acosh_partial hk hb nz (cosh w) hz
  exact toC_inj (cosh_inj ⟨b, c⟩ ⟨h0, h1⟩ (a.trans (C52_simple w).2.2.2.2))

/-- The argument of `logP1` in `atanh`. -/
noncomputable def atanhArg (z : Cx ℝ) : ℝ := 4 * |z.re| / ((1 - |z.re|) * (1 - |z.re|) + |z.im| * |z.im|)

/-- **C65 (atanh).** For arguments other than `±1` with components up to `arcBig`, the result, corrected by at most half the third power of the machine epsilon,
is an inverse under `tanh`, in the principal strip. There is no error unless the argument of `logP1` is tiny. -/
theorem C65_atanh_partial {k : LogConst} (he0 : 0 ≤ k.eps) (he : k.eps ≤ 1 / 2) {big : ℝ} (nz : Bool) (z : Cx ℝ) (h1 : |z.re| ≤ big) (h2 : |z.im| ≤ big)
    (hp : toC z ≠ 1) (hm : toC z ≠ -1) (hmax : atanhArg z ≠ k.max) :
    ∃ r d, atanh k big nz z = some r ∧ Complex.tanh (toC ⟨r.re + d, r.im⟩) = toC z ∧ |r.im| ≤ Real.pi / 2 ∧ |d| ≤ k.eps ^ 3 / 2 ∧
      (z.re = 0 ∨ k.eps ≤ atanhArg z → d = 0) := by
  obtain ⟨x, y⟩ := z
  simp only at h1 h2
  unfold atanh
  simp only
  rw [if_neg (by linarith), if_neg (by linarith)]
  by_cases h3 : |x| ≠ 1
  · rw [if_pos h3]
    have hD : 0 < (1 - |x|) ^ 2 + y ^ 2 := by
      have : 0 < (1 - |x|) ^ 2 := by
        have : 1 - |x| ≠ 0 := sub_ne_zero.2 (Ne.symm h3)
        positivity
      nlinarith [sq_nonneg y]
    have hD' : (1 - |x|) * (1 - |x|) + |y| * |y| = (1 - |x|) ^ 2 + y ^ 2 := by rw [abs_mul_abs_self]; ring
    have hx : 0 ≤ atanhArg ⟨x, y⟩ := by unfold atanhArg; simp only; rw [hD']; positivity
    obtain ⟨l, hl, e1, e2⟩ := logP1_spec he (by linarith) hmax
    have hl0 := logP1_nonneg he hx hmax hl
    have hL0 : 0 ≤ Real.log (1 + atanhArg ⟨x, y⟩) := Real.log_nonneg (by linarith)
    have hl' : logP1 k (4 * |x| / ((1 - |x|) * (1 - |x|) + |y| * |y|)) = some l := hl
    rw [hl']
    refine ⟨_, copySign (1 / 4 * Real.log (1 + atanhArg ⟨x, y⟩)) x - copySign (1 / 4 * l) x, rfl, ?_, ?_, ?_, ?_⟩
    · refine tanh_core hp hm ?_ ?_
      · have e := exp_four_log hD (u := copySign (1 / 4 * Real.log (1 + atanhArg ⟨x, y⟩)) x) rfl
        simp only [toC]
        rw [normSq_one_sub, normSq_one_add]
        rw [add_sub_cancel]
        exact e
      · simp only [toC]
        rw [q_eq, show ∀ t : ℝ, 2 * (1 / 2 * t) = t by intro t; ring]
        have e : (1 - |x|) * (1 + |x|) - |y| * |y| = 1 - x ^ 2 - y ^ 2 := by
          rw [abs_mul_abs_self]
          linear_combination -(sq_abs x)
        rw [e]
        exact exp_atan2Z nz _ _
    · simp only
      rw [abs_mul, abs_of_pos (show (0 : ℝ) < 1 / 2 by norm_num)]
      linarith [abs_atan2Z_le nz ((1 - |x|) * (1 + |x|) - |y| * |y|) (2 * y)]
    · rw [copySign_sub _ _ _ (by linarith) (by linarith), ← mul_sub, abs_mul, abs_of_pos (show (0 : ℝ) < 1 / 4 by norm_num), abs_sub_comm]
      by_cases ht : atanhArg ⟨x, y⟩ = 0 ∨ k.eps ≤ |atanhArg ⟨x, y⟩|
      · rw [e2 ht, sub_self, abs_zero]
        rw [mul_zero]
        positivity
      · push Not at ht
        rw [abs_of_nonneg hx] at ht e1
        have : atanhArg ⟨x, y⟩ ^ 3 ≤ k.eps ^ 3 := pow_le_pow_left₀ hx ht.2.le 3
        linarith
    · intro h
      have : l = Real.log (1 + atanhArg ⟨x, y⟩) := e2 (by
        rcases h with h | h
        · left; have h : x = 0 := h; simp [atanhArg, h]
        · right; rw [abs_of_nonneg hx]; exact h)
      rw [this, sub_self]
  · rw [if_neg h3]
    push Not at h3
    have hy : y ≠ 0 := by
      intro hy
      rcases (abs_eq (by norm_num : (0 : ℝ) ≤ 1)).1 h3 with h | h
      · exact hp (by rw [h, hy]; rfl)
      · exact hm (by rw [h, hy]; apply Complex.ext <;> simp [toC])
    rw [if_neg hy]
    have hx2 : x ^ 2 = 1 := by rw [← sq_abs, h3]; norm_num
    have hay : 0 < |y| := abs_pos.2 hy
    have hA : 0 < Real.sqrt (Real.sqrt (4 + y * y)) / Real.sqrt |y| := by
      have : 0 < 4 + y * y := by nlinarith
      positivity
    have hlog : Real.log (Real.sqrt (Real.sqrt (4 + y * y)) / Real.sqrt |y|) = 1 / 4 * Real.log (1 + 4 * |x| / ((1 - |x|) * (1 - |x|) + |y| * |y|)) := by
      have : 0 < 4 + y * y := by nlinarith
      have hyy : |y| * |y| = y * y := abs_mul_abs_self y
      have e : 1 + 4 * |x| / ((1 - |x|) * (1 - |x|) + |y| * |y|) = (4 + y * y) / (|y| * |y|) := by
        rw [h3, hyy]
        field_simp
        ring
      rw [e, Real.log_div (by positivity) (by positivity), Real.log_div (by positivity) (by positivity), Real.log_sqrt (by positivity),
        Real.log_sqrt (by positivity), Real.log_sqrt (by positivity), Real.log_mul hay.ne' hay.ne']
      ring
    rw [rlog_pos hA]
    refine ⟨_, 0, rfl, ?_, ?_, ?_, fun _ => rfl⟩
    · refine tanh_core hp hm ?_ ?_
      · simp only [toC]
        rw [normSq_one_sub, normSq_one_add, add_zero, hlog]
        exact exp_four_log (by rw [h3]; have : 0 < y ^ 2 := by positivity
                               linarith) rfl
      · simp only [toC]
        rw [q_eq, hx2, sub_self, zero_sub]
        unfold copySignZ
        rw [abs_of_nonneg (by have := (quarter_le (t := |y|)).1; positivity)]
        rcases lt_or_gt_of_ne hy with h | h
        · rw [if_pos (Or.inl h), mul_neg, show ∀ t : ℝ, 2 * (1 / 2 * t) = t by intro t; ring]
          have := exp_quarter_neg hay
          rw [sq_abs, show -(2 * |y|) = 2 * y by rw [abs_of_neg h]; ring] at this
          exact this
        · rw [if_neg (by rintro (h' | ⟨h', -⟩) <;> linarith), show ∀ t : ℝ, 2 * (1 / 2 * t) = t by intro t; ring]
          have := exp_quarter hay
          rw [sq_abs, abs_of_pos h] at this
          rw [abs_of_pos h]
          exact this
    · have := quarter_le (t := |y|)
      have h0 : 0 ≤ 1 / 2 * (Real.pi / 2 + atan2 |y| 2) := by linarith
      simp only [copySignZ]
      split
      · rw [abs_neg, abs_abs, abs_of_nonneg h0]; linarith
      · rw [abs_abs, abs_of_nonneg h0]; linarith
    · rw [abs_zero]; positivity

/-- `tanh` is injective in the strip. -/
theorem tanh_inj {a b : ℂ} (ha : |a.im| ≤ Real.pi / 2) (hb : |b.im| < Real.pi / 2) (ca : Complex.cosh a ≠ 0) (cb : Complex.cosh b ≠ 0)
    (h : Complex.tanh a = Complex.tanh b) : a = b := by
  rw [Complex.tanh_eq_sinh_div_cosh, Complex.tanh_eq_sinh_div_cosh, div_eq_div_iff ca cb] at h
  have h0 : Complex.sinh (a - b) = 0 := by rw [Complex.sinh_sub]; linear_combination h
  have h1 : Complex.sin ((a - b) * Complex.I) = 0 := by rw [Complex.sin_mul_I, h0, zero_mul]
  obtain ⟨n, hn⟩ := Complex.sin_eq_zero_iff.1 h1
  have hr := congrArg Complex.re hn
  have hi := congrArg Complex.im hn
  simp at hr hi
  rw [abs_le] at ha
  rw [abs_lt] at hb
  have h1 : (n : ℝ) < 1 := by nlinarith [Real.pi_pos]
  have h2 : (-1 : ℝ) < n := by nlinarith [Real.pi_pos]
  have hn0 : n = 0 := by
    have h1 : n < 1 := by exact_mod_cast h1
    have h2 : -1 < n := by exact_mod_cast h2
    omega
  rw [hn0] at hr
  simp at hr
  apply Complex.ext <;> linarith

/-- **C65 (atan).** -/
theorem C65_atan_partial {k : LogConst} (he0 : 0 ≤ k.eps) (he : k.eps ≤ 1 / 2) {big : ℝ} (nz : Bool) (z : Cx ℝ) (h1 : |z.re| ≤ big) (h2 : |z.im| ≤ big)
    (hp : toC z ≠ Complex.I) (hm : toC z ≠ -Complex.I) (hmax : atanhArg ⟨-z.im, z.re⟩ ≠ k.max) :
    ∃ r d, atan k big nz z = some r ∧ Complex.tan (toC ⟨r.re, r.im + d⟩) = toC z ∧ |r.re| ≤ Real.pi / 2 ∧ |d| ≤ k.eps ^ 3 / 2 ∧
      (z.im = 0 ∨ k.eps ≤ atanhArg ⟨-z.im, z.re⟩ → d = 0) := by
  have e2 : toC ⟨-z.im, z.re⟩ = toC z * Complex.I := by
    apply Complex.ext <;> simp [toC]
  obtain ⟨r, d, a1, a2, a3, a4, a5⟩ := C65_atanh_partial he0 he nz ⟨-z.im, z.re⟩ (by rw [abs_neg]; exact h2) h1
    (by rw [e2]; intro h; apply hm; linear_combination -Complex.I * h + toC z * Complex.I_sq)
    (by rw [e2]; intro h; apply hp; linear_combination -Complex.I * h + toC z * Complex.I_sq) hmax
  refine ⟨⟨r.im, -r.re⟩, -d, by unfold atan; rw [a1]; rfl, ?_, a3, by rwa [abs_neg], fun h => by rw [a5 (by rcases h with h | h <;> simp [h]), neg_zero]⟩
  have e : toC ⟨r.re + d, r.im⟩ = toC ⟨r.im, -r.re + -d⟩ * Complex.I := by
    apply Complex.ext
    · simp [toC]; ring
    · simp [toC]
  rw [e, Complex.tanh_mul_I, e2] at a2
  exact mul_right_cancel₀ Complex.I_ne_zero a2

/-! ### Logarithms and powers -/

/-- The logarithm of `z`: the principal value, or its conjugate for a negative zero imaginary part. -/
noncomputable def logZ (nz : Bool) (z : ℂ) : ℂ := if z.im = 0 ∧ nz = true then (starRingEnd ℂ) (Complex.log z) else Complex.log z

theorem logHypot_mid {k : LogConst} (he0 : 0 ≤ k.eps) (he : k.eps ≤ 1 / 2) (hmax : 2 ≤ k.max) (z : Cx ℝ) (h0 : toC z ≠ 0)
    (hr : z.re = 0 ∨ z.im = 0 ∨ k.tiny < max |z.re| |z.im| ∧ max |z.re| |z.im| < k.huge) :
    ∃ d : ℝ, logHypot k z.re z.im = some (Real.log ‖toC z‖ + d) ∧ |d| ≤ k.eps ^ 3 ∧ (k.eps ≤ |‖toC z‖ ^ 2 - 1| → d = 0) := by
  obtain ⟨x, y⟩ := z
  simp only at hr ⊢
  have hn : ‖toC ⟨x, y⟩‖ ^ 2 = max |x| |y| ^ 2 + min |x| |y| ^ 2 := by
    rw [max_min_sq, norm_toC, Real.sq_sqrt (by positivity)]
  have hpos : 0 < ‖toC ⟨x, y⟩‖ := norm_pos_iff.2 h0
  generalize hN : ‖toC ⟨x, y⟩‖ = N at hn hpos ⊢
  unfold logHypot
  simp only
  have hb0 : 0 ≤ min |x| |y| := le_min (abs_nonneg _) (abs_nonneg _)
  have hab : min |x| |y| ≤ max |x| |y| := min_le_max
  have hcase : min |x| |y| = 0 ∨ k.tiny < max |x| |y| ∧ max |x| |y| < k.huge := by
    rcases hr with h | h | h
    · left; rw [h]; simp
    · left; rw [h]; simp
    · exact Or.inr h
  generalize max |x| |y| = a at *
  generalize min |x| |y| = b at *
  by_cases hb : b = 0
  · rw [if_pos hb]
    have ha : N = a := by
      have : N ^ 2 = a ^ 2 := by rw [hn, hb]; ring
      exact (pow_left_inj₀ hpos.le (by linarith) (by norm_num)).1 this
    exact ⟨0, by rw [ha, add_zero]; exact rlog_pos (ha ▸ hpos), by rw [abs_zero]; positivity, fun _ => rfl⟩
  · rw [if_neg hb, if_pos (hcase.resolve_left hb)]
    have hbp : 0 < b := lt_of_le_of_ne hb0 (Ne.symm hb)
    have hlog : Real.log (1 + (N ^ 2 - 1)) = 2 * Real.log N := by
      rw [add_sub_cancel, Real.log_pow]; norm_num
    have key : ∀ t, t = N ^ 2 - 1 → -1 < t → t < 2 → ∃ d : ℝ, (logP1 k t).map (· * (1 / 2)) = some (Real.log N + d) ∧ |d| ≤ k.eps ^ 3 ∧ (k.eps ≤ |N ^ 2 - 1| → d = 0) := by
      intro t ht h1 h2
      obtain ⟨l, hl, e1, e2⟩ := logP1_spec he h1 (by linarith : t < k.max).ne
      refine ⟨l * (1 / 2) - Real.log N, by rw [hl]; simp, ?_, ?_⟩
      · rw [ht, hlog] at e1 e2
        rw [show l * (1 / 2) - Real.log N = 1 / 2 * (l - 2 * Real.log N) by ring, abs_mul, abs_of_pos (show (0 : ℝ) < 1 / 2 by norm_num)]
        by_cases hc : N ^ 2 - 1 = 0 ∨ k.eps ≤ |N ^ 2 - 1|
        · rw [e2 hc, sub_self, abs_zero, mul_zero]; positivity
        · push Not at hc
          have : |N ^ 2 - 1| ^ 3 ≤ k.eps ^ 3 := pow_le_pow_left₀ (abs_nonneg _) hc.2.le 3
          linarith
      · intro h
        rw [ht, hlog] at e2
        rw [e2 (Or.inr h)]
        ring
    unfold logHypotMid
    simp only
    by_cases ha : a = 1
    · rw [if_pos ha]
      exact key _ (by rw [hn, ha]; ring) (by nlinarith) (by nlinarith)
    · rw [if_neg ha]
      split
      · rename_i h
        rw [normMinusOne_eq]
        exact key _ (by rw [hn]) (by nlinarith) (by nlinarith)
      · refine ⟨0, ?_, by rw [abs_zero]; positivity, fun _ => rfl⟩
        have e : a * a + b * b = N ^ 2 := by rw [hn]; ring
        rw [e, rlog_pos (by positivity), Real.log_pow]
        simp only [Option.map_some, Option.some.injEq]
        push_cast
        ring

theorem logHypot_far {k : LogConst} (z : Cx ℝ) (h1 : z.re ≠ 0) (h2 : z.im ≠ 0)
    (hr : ¬(k.tiny < max |z.re| |z.im| ∧ max |z.re| |z.im| < k.huge)) :
    logHypot k z.re z.im = some (Real.log ‖toC z‖ + (Int.log 2 (max |z.re| |z.im|) : ℝ) * (k.cl + k.cm - Real.log 2)) := by
  obtain ⟨x, y⟩ := z
  simp only at hr h1 h2 ⊢
  have hn : ‖toC ⟨x, y⟩‖ ^ 2 = max |x| |y| ^ 2 + min |x| |y| ^ 2 := by
    rw [max_min_sq, norm_toC, Real.sq_sqrt (by positivity)]
  have hpos : 0 < ‖toC ⟨x, y⟩‖ := norm_pos_iff.2 (fun h => h1 (toC_eq_zero.1 h).1)
  generalize hN : ‖toC ⟨x, y⟩‖ = N at hn hpos ⊢
  have hb0 : 0 < min |x| |y| := lt_min (abs_pos.2 h1) (abs_pos.2 h2)
  unfold logHypot
  simp only
  rw [if_neg hb0.ne', if_neg hr]
  generalize max |x| |y| = a at *
  generalize min |x| |y| = b at *
  unfold logHypotScaled ldexp
  simp only
  have e : a * 2 ^ (-Int.log 2 a) * (a * 2 ^ (-Int.log 2 a)) + b * 2 ^ (-Int.log 2 a) * (b * 2 ^ (-Int.log 2 a)) = N ^ 2 * ((2 : ℝ) ^ (-Int.log 2 a)) ^ 2 := by
    rw [hn]; ring
  rw [e, rlog_pos (by positivity), Real.log_mul (by positivity) (by positivity), Real.log_pow, Real.log_pow, Real.log_zpow]
  simp only [Option.map_some, Option.some.injEq]
  push_cast
  ring

theorem log_eq {k : LogConst} {nz : Bool} {z : Cx ℝ} {d : ℝ} (h : logHypot k z.re z.im = some (Real.log ‖toC z‖ + d)) :
    (log k nz z).map toC = some (logZ nz (toC z) + d) := by
  unfold log
  rw [h]
  show some (toC ⟨_, _⟩) = _
  congr 1
  unfold logZ atan2Z atan2
  have e : (toC z).im = z.im := rfl
  rw [e]
  split
  · apply Complex.ext
    · simp [toC, Complex.log_re]
    · simp [toC, Complex.log_im]
  · apply Complex.ext
    · simp [toC, Complex.log_re]
    · simp [toC, Complex.log_im]

/-- **C65 (log).** For arguments other than zero whose square does not overflow or underflow, `log` is the principal value (for a negative zero imaginary part:
its limit from below) up to the third power of the machine epsilon, and exactly so unless the argument is that close to the unit circle. -/
theorem C65_log_partial {k : LogConst} (he0 : 0 ≤ k.eps) (he : k.eps ≤ 1 / 2) (hmax : 2 ≤ k.max) (nz : Bool) (z : Cx ℝ) (h0 : toC z ≠ 0)
    (hr : z.re = 0 ∨ z.im = 0 ∨ k.tiny < max |z.re| |z.im| ∧ max |z.re| |z.im| < k.huge) :
    ∃ d : ℝ, (log k nz z).map toC = some (logZ nz (toC z) + d) ∧ |d| ≤ k.eps ^ 3 ∧ (k.eps ≤ |‖toC z‖ ^ 2 - 1| → d = 0) := by
  obtain ⟨d, h, a, b⟩ := logHypot_mid he0 he hmax z h0 hr
  exact ⟨d, log_eq h, a, b⟩

/-- **C65 (log, very large and very small arguments).** The error is the exponent times the error of the constants that represent `log(2)`. -/
theorem C65_log_far_partial {k : LogConst} (nz : Bool) (z : Cx ℝ) (h1 : z.re ≠ 0) (h2 : z.im ≠ 0)
    (hr : ¬(k.tiny < max |z.re| |z.im| ∧ max |z.re| |z.im| < k.huge)) :
    (log k nz z).map toC = some (logZ nz (toC z) + ((Int.log 2 (max |z.re| |z.im|) * (k.cl + k.cm - Real.log 2) : ℝ) : ℂ)) :=
  log_eq (logHypot_far z h1 h2 hr)

/-- `log(0)` is not finite. -/
theorem C65_log_zero (k : LogConst) (nz : Bool) : log k nz ⟨0, 0⟩ = none := by
  simp [log, logHypot, rlog]

theorem exp_logZ {nz : Bool} {z : ℂ} (h : z ≠ 0) : Complex.exp (logZ nz z) = z := by
  unfold logZ
  split
  · rename_i hz
    rw [Complex.exp_conj, Complex.exp_log h]
    apply Complex.ext
    · simp
    · simp [hz.1]
  · exact Complex.exp_log h

/-- **C65 (exp inverts log).** -/
theorem C65_exp_log_partial {k : LogConst} (he0 : 0 ≤ k.eps) (he : k.eps ≤ 1 / 2) (hmax : 2 ≤ k.max) (nz : Bool) (z : Cx ℝ) (h0 : toC z ≠ 0)
    (hr : z.re = 0 ∨ z.im = 0 ∨ k.tiny < max |z.re| |z.im| ∧ max |z.re| |z.im| < k.huge) :
    ∃ d : ℝ, (log k nz z).map (fun w => toC (exp w)) = some (toC z * Real.exp d) ∧ |d| ≤ k.eps ^ 3 ∧ (k.eps ≤ |‖toC z‖ ^ 2 - 1| → d = 0) := by
  obtain ⟨d, a, b, c⟩ := C65_log_partial he0 he hmax nz z h0 hr
  refine ⟨d, ?_, b, c⟩
  rw [Option.map_eq_some_iff] at a
  obtain ⟨w, hw, e⟩ := a
  rw [hw]
  show some (toC (exp w)) = some _
  rw [(C52_simple w).1, e, Complex.exp_add, exp_logZ h0, Complex.ofReal_exp]

theorem map_exp {o : Option (Cx ℝ)} {f : Cx ℝ → Cx ℝ} {g : ℂ → ℂ} {m : ℂ} (hf : ∀ c, toC (f c) = g (toC c)) (h : o.map toC = some m) :
    (o.map fun c => exp (f c)).map toC = some (Complex.exp (g m)) := by
  rw [Option.map_eq_some_iff] at h
  obtain ⟨c, rfl, rfl⟩ := h
  show some (toC (exp (f c))) = _
  rw [(C52_simple _).1, hf]

theorem log_real {k : LogConst} {nz : Bool} {x : ℝ} (hx : x ≠ 0) : (log k nz ⟨x, 0⟩).map toC = some (logZ nz (toC ⟨x, 0⟩)) := by
  have h : logHypot k (⟨x, 0⟩ : Cx ℝ).re (⟨x, 0⟩ : Cx ℝ).im = some (Real.log ‖toC ⟨x, 0⟩‖ + 0) := by
    unfold logHypot
    simp only
    rw [if_pos (by simp), rlog_pos (by simp [hx])]
    rw [norm_toC]
    simp [Real.sqrt_sq_eq_abs]
  have := log_eq (nz := nz) h
  simpa using this

theorem toC_sMul (p : ℝ) (c : Cx ℝ) : toC (sMul p c) = (p : ℂ) * toC c := (C51_binary_partial c c p).2.2.2.2.2.2.2.2.2.1
theorem toC_mulS (c : Cx ℝ) (p : ℝ) : toC (mulS c p) = toC c * (p : ℂ) := (C51_binary_partial c c p).2.2.2.2.2.2.2.2.1
theorem toC_mul (b c : Cx ℝ) : toC (mul b c) = toC b * toC c := (C51_binary_partial b c 0).2.2.1
theorem toC_conj (c : Cx ℝ) : toC (conj c) = (starRingEnd ℂ) (toC c) := by apply Complex.ext <;> simp [toC, conj]

theorem logZ_pos {nz : Bool} {x : ℝ} (hx : 0 < x) : logZ nz (toC ⟨x, 0⟩) = (Real.log x : ℝ) := by
  have e : toC ⟨x, 0⟩ = (x : ℂ) := by apply Complex.ext <;> simp [toC]
  unfold logZ
  rw [e, ← Complex.ofReal_log hx.le, Complex.conj_ofReal, ite_self]

theorem powReal_eq {k : LogConst} {x : ℝ} (hx : x ≠ 0) (p : ℝ) :
    (powReal k x p).map toC = some (Complex.exp (p * logZ false (toC ⟨x, 0⟩))) := by
  unfold powReal
  by_cases h : 0 ≤ x
  · have hx : 0 < x := lt_of_le_of_ne h (Ne.symm hx)
    rw [if_pos h, logZ_pos hx]
    unfold rpow
    rw [if_neg (by rintro ⟨a, -⟩; linarith)]
    show some (toC ⟨x ^ p, 0⟩) = _
    congr 1
    rw [← Complex.ofReal_mul, ← Complex.ofReal_exp, Real.rpow_def_of_pos hx, mul_comm]
    rfl
  · rw [if_neg h]
    exact map_exp (g := fun m => (p : ℂ) * m) (toC_sMul p) (log_real (nz := false) hx)

theorem conj_logZ {nz : Bool} {z : ℂ} (h : z.im = 0) : (starRingEnd ℂ) (logZ nz z) = logZ (!nz) z := by
  unfold logZ
  cases nz <;> simp [h]

/-- **C65 (pow).** For a base other than zero, `pow(z, w)` is `exp(w log z)` with the logarithm that `log` computes up to its error `d` (or exactly, when the base is real). -/
theorem C65_pow {k : LogConst} {nz : Bool} {z : Cx ℝ} (w : Cx ℝ) (h0 : toC z ≠ 0) {d : ℝ} (hd : (log k nz z).map toC = some (logZ nz (toC z) + d)) :
    ∃ e : ℝ, (e = d ∨ e = 0) ∧ (pow k nz z w).map toC = some (Complex.exp (toC w * (logZ nz (toC z) + e))) := by
  obtain ⟨x, y⟩ := z
  obtain ⟨p, q⟩ := w
  have hre : q = 0 → toC ⟨p, q⟩ = (p : ℂ) := by rintro rfl; apply Complex.ext <;> simp [toC]
  unfold pow
  simp only
  by_cases hq : q = 0
  · rw [if_pos hq, hre hq]
    unfold powS
    simp only
    by_cases hy : y = 0
    · subst hy
      rw [if_pos rfl]
      have hx : x ≠ 0 := fun h => h0 (toC_eq_zero.2 ⟨h, rfl⟩)
      refine ⟨0, Or.inr rfl, ?_⟩
      rw [Complex.ofReal_zero, add_zero]
      have hP := powReal_eq (k := k) hx p
      cases nz
      · exact hP
      · rw [if_pos rfl]
        rw [Option.map_eq_some_iff] at hP
        obtain ⟨c, hc, e⟩ := hP
        rw [hc]
        show some (toC (conj c)) = _
        rw [toC_conj, e, ← Complex.exp_conj, map_mul, Complex.conj_ofReal, conj_logZ rfl]
        rfl
    · rw [if_neg hy]
      exact ⟨d, Or.inl rfl, map_exp (g := fun m => (p : ℂ) * m) (toC_sMul p) hd⟩
  · rw [if_neg hq]
    by_cases hx : y = 0 ∧ 0 < x
    · rw [if_pos hx, rlog_pos hx.2]
      obtain ⟨rfl, hx⟩ := hx
      refine ⟨0, Or.inr rfl, ?_⟩
      rw [Complex.ofReal_zero, add_zero, logZ_pos hx]
      show some (toC (exp _)) = _
      rw [(C52_simple _).1, toC_mulS]
    · rw [if_neg hx]
      exact ⟨d, Or.inl rfl, map_exp (g := fun m => toC ⟨p, q⟩ * m) (toC_mul ⟨p, q⟩) hd⟩

/-- **C65 (pow against the principal power).** -/
theorem C65_pow_partial {k : LogConst} (he0 : 0 ≤ k.eps) (he : k.eps ≤ 1 / 2) (hmax : 2 ≤ k.max) (z w : Cx ℝ) (h0 : toC z ≠ 0)
    (hr : z.re = 0 ∨ z.im = 0 ∨ k.tiny < max |z.re| |z.im| ∧ max |z.re| |z.im| < k.huge) :
    ∃ d : ℝ, (pow k false z w).map toC = some (toC z ^ toC w * Complex.exp (toC w * d)) ∧ |d| ≤ k.eps ^ 3 ∧ (k.eps ≤ |‖toC z‖ ^ 2 - 1| → d = 0) := by
  obtain ⟨d, a, b, c⟩ := C65_log_partial he0 he hmax false z h0 hr
  obtain ⟨e, h, f⟩ := C65_pow w h0 a
  refine ⟨e, ?_, ?_, ?_⟩
  · rw [f, mul_add, Complex.exp_add, Complex.cpow_def_of_ne_zero h0]
    simp only [logZ]
    simp [mul_comm]
  · rcases h with rfl | rfl
    · exact b
    · rw [abs_zero]; positivity
  · rcases h with rfl | rfl
    · exact c
    · exact fun _ => rfl

/-- **C65 (powers of zero).** A real exponent gives the limit; any other exponent gives NaN, also when `0 ^ w = 0` because its real part is positive. -/
theorem C65_pow_zero (k : LogConst) (w : Cx ℝ) :
    (pow k false ⟨0, 0⟩ w).map toC = if w.im = 0 ∧ 0 ≤ w.re then some ((0 : ℂ) ^ toC w) else none := by
  obtain ⟨p, q⟩ := w
  unfold pow
  simp only
  by_cases hq : q = 0
  · subst hq
    rw [if_pos rfl]
    unfold powS powReal rpow
    simp only [if_true, Bool.false_eq_true, if_false, le_refl, true_and]
    by_cases hp : p < 0
    · rw [if_pos hp, if_neg (by simpa using hp)]; rfl
    · rw [if_neg hp, if_pos (by simpa using hp)]
      show some (toC ⟨0 ^ p, 0⟩) = _
      congr 1
      have e : toC ⟨p, 0⟩ = (p : ℂ) := by apply Complex.ext <;> simp [toC]
      have e2 : toC ⟨(0 : ℝ) ^ p, 0⟩ = (((0 : ℝ) ^ p : ℝ) : ℂ) := by apply Complex.ext <;> simp [toC]
      rw [e, e2, Complex.ofReal_cpow le_rfl, Complex.ofReal_zero]
  · rw [if_neg hq, if_neg (by simp), C65_log_zero, if_neg (by rintro ⟨a, -⟩; exact hq a)]
    rfl

/-- The property for `pow` includes a zero base and an exponent with positive real part. -/
theorem C65_pow_false (k : LogConst) : ¬ ∀ z w : Cx ℝ, 0 < w.re → (pow k false z w).map toC = some (toC z ^ toC w) := by
  intro h
  have := h ⟨0, 0⟩ ⟨1, 1⟩ (by norm_num)
  rw [C65_pow_zero, if_neg (by norm_num)] at this
  cases this

/-- **C65 (logarithms to a base).** -/
theorem C65_log_base {k : LogConst} {nz nb : Bool} {z b : Cx ℝ} {d e : ℝ} (hd : (log k nz z).map toC = some (logZ nz (toC z) + d))
    (he : (log k nb b).map toC = some (logZ nb (toC b) + e)) :
    (logBase k nz nb z b).map toC = (if logZ nb (toC b) + e = 0 then none else some ((logZ nz (toC z) + d) / (logZ nb (toC b) + e))) ∧
    (∀ x : ℝ, 0 < x → x ≠ 1 → (logBaseS k nz z x).map toC = some ((logZ nz (toC z) + d) / Real.log x)) ∧
    (log2 k nz z).map toC = some ((logZ nz (toC z) + d) / Real.log 2) ∧ (log10 k nz z).map toC = some ((logZ nz (toC z) + d) / Real.log 10) := by
  rw [Option.map_eq_some_iff] at hd he
  obtain ⟨l, hl, el⟩ := hd
  obtain ⟨m, hm, em⟩ := he
  have key : ∀ x : ℝ, 0 < x → x ≠ 1 → (logBaseS k nz z x).map toC = some ((logZ nz (toC z) + d) / Real.log x) := by
    intro x hx hx1
    unfold logBaseS
    rw [hl, rlog_pos hx]
    show (divS rdiv l (Real.log x)).map toC = _
    rw [(C51_binary_partial l l (Real.log x)).2.2.2.2.2.2.2.2.2.2.1, if_neg (Real.log_ne_zero_of_pos_of_ne_one hx hx1), el]
  refine ⟨?_, key, key 2 (by norm_num) (by norm_num), key 10 (by norm_num) (by norm_num)⟩
  unfold logBase
  rw [hl, hm]
  show (div rdiv l m).map toC = _
  rw [(C51_binary_partial l m 0).2.2.2.1, em, el]

/-- **C65 (scalar bases, exp2, exp10, cbrt).** -/
theorem C65_spow {k : LogConst} {x : ℝ} (hx : x ≠ 0) (w : Cx ℝ) : (sPow k x w).map toC = some ((x : ℂ) ^ toC w) := by
  have e : toC ⟨x, 0⟩ = (x : ℂ) := by apply Complex.ext <;> simp [toC]
  have hl : logZ false (toC ⟨x, 0⟩) = Complex.log x := by unfold logZ; rw [e]; simp
  have h0 : (x : ℂ) ≠ 0 := by exact_mod_cast hx
  rw [Complex.cpow_def_of_ne_zero h0, ← hl]
  obtain ⟨p, q⟩ := w
  unfold sPow
  simp only
  by_cases hq : q = 0
  · subst hq
    rw [if_pos rfl, powReal_eq hx]
    have : toC ⟨p, 0⟩ = (p : ℂ) := by apply Complex.ext <;> simp [toC]
    rw [this, mul_comm]
  · rw [if_neg hq]
    by_cases hp : 0 < x
    · rw [if_pos hp, rlog_pos hp]
      show some (toC (exp _)) = _
      rw [(C52_simple _).1, toC_mulS, logZ_pos hp, mul_comm]
    · rw [if_neg hp, mul_comm]
      exact map_exp (g := fun m => toC ⟨p, q⟩ * m) (toC_mul ⟨p, q⟩) (log_real (nz := false) hx)

theorem C65_exp2 (k : LogConst) (w : Cx ℝ) : (exp2 k w).map toC = some ((2 : ℂ) ^ toC w) ∧ (exp10 k w).map toC = some ((10 : ℂ) ^ toC w) :=
  ⟨by exact_mod_cast C65_spow (k := k) (x := 2) (by norm_num) w, by exact_mod_cast C65_spow (k := k) (x := 10) (by norm_num) w⟩

/-- `cbrt` (with the exponent `1 / 3` exact) is a cube root up to the error of the logarithm. -/
theorem C65_cbrt_partial {k : LogConst} (he0 : 0 ≤ k.eps) (he : k.eps ≤ 1 / 2) (hmax : 2 ≤ k.max) (z : Cx ℝ) (h0 : toC z ≠ 0)
    (hr : z.re = 0 ∨ z.im = 0 ∨ k.tiny < max |z.re| |z.im| ∧ max |z.re| |z.im| < k.huge) :
    ∃ d : ℝ, (cbrt k false z).map (fun r => toC r ^ 3) = some (toC z * Real.exp d) ∧ |d| ≤ k.eps ^ 3 := by
  obtain ⟨d, a, b, -⟩ := C65_pow_partial he0 he hmax z ⟨1 / 3, 0⟩ h0 hr
  refine ⟨d, ?_, b⟩
  have e : pow k false z ⟨1 / 3, 0⟩ = cbrt k false z := by unfold pow cbrt; simp
  rw [e, Option.map_eq_some_iff] at a
  obtain ⟨r, hr, er⟩ := a
  rw [hr]
  show some (toC r ^ 3) = _
  congr 1
  have e3 : toC ⟨1 / 3, 0⟩ = (3 : ℂ)⁻¹ := by
    apply Complex.ext
    · simp [toC]
    · simp [toC]
  rw [er, mul_pow, e3, ← Complex.exp_nat_mul]
  have := Complex.cpow_nat_inv_pow (toC z) (n := 3) (by norm_num)
  push_cast at this
  rw [this, Complex.ofReal_exp]
  congr 2
  push_cast
  ring

/-- **C65 (log of an infinite argument).** The magnitude is infinite, but the logarithm has the sign of the infinite component. -/
theorem C65_log_infinite_false (k : LogConst) :
    ¬ (∀ (s : Bool) (y : ℝ), logHypotExt k (.inf s) (.fin y) = .inf false) ∧
    (∀ (s : Bool) (y : ℝ), logHypotExt k (.inf s) (.fin y) = .inf s ∧ logHypotExt k (.fin y) (.inf s) = .inf s) ∧
    (∀ s t, logHypotExt k (.inf s) (.inf t) = .inf s) :=
  ⟨fun h => (nomatch (h true 0 : Ext.inf true = Ext.inf false)), fun _ _ => ⟨rfl, rfl⟩, fun _ _ => rfl⟩

/-! ### Cases that meet the hypotheses -/

noncomputable def constExact : FabsConst := ⟨0, 53, Real.sqrt 2, 1 + Real.sqrt 2⟩
theorem exact_constExact : Exact constExact := ⟨by decide, rfl, rfl⟩
noncomputable def logD : LogConst := ⟨2 ^ (-52 : Int), 2 ^ 1024 - 2 ^ 971, 1 / 2 ^ 485, 2 ^ 511, 22713 / 32768, 1.4286068203094172321214581765680755e-6, id⟩

example : Complex.cos (toC (acos constExact 10 false ⟨3, 4⟩)) = ⟨3, 4⟩ :=
  (C65_acos_partial exact_constExact (by norm_num) false ⟨3, 4⟩ (by
    rw [norm_toC]; rw [show (3 : ℝ) ^ 2 + 4 ^ 2 = 5 ^ 2 by norm_num, Real.sqrt_sq (by norm_num)]; norm_num)).1

example : (pow logD false ⟨3, 4⟩ ⟨1, -2⟩).map toC = some ((⟨3, 4⟩ : ℂ) ^ (⟨1, -2⟩ : ℂ)) := by
  have hn : ‖toC ⟨3, 4⟩‖ = 5 := by rw [norm_toC, show (3 : ℝ) ^ 2 + 4 ^ 2 = 5 ^ 2 by norm_num, Real.sqrt_sq (by norm_num)]
  obtain ⟨d, a, -, c⟩ := C65_pow_partial (k := logD) (by norm_num [logD]) (by norm_num [logD])
    (by
      show (2 : ℝ) ≤ 2 ^ 1024 - 2 ^ 971
      have h1 : (2 : ℝ) ^ 1024 = 2 ^ 971 * 2 ^ 53 := by rw [← pow_add]
      have h2 : (1 : ℝ) ≤ 2 ^ 971 := one_le_pow₀ (by norm_num)
      rw [h1, show (2 : ℝ) ^ 53 = 9007199254740992 by norm_num]
      generalize (2 : ℝ) ^ 971 = t at h2
      linarith) ⟨3, 4⟩ ⟨1, -2⟩
    (by rw [← norm_pos_iff, hn]; norm_num) (Or.inr (Or.inr (by
      have e : max |(3 : ℝ)| |4| = 4 := by norm_num
      show 1 / 2 ^ 485 < max |(3 : ℝ)| |4| ∧ max |(3 : ℝ)| |4| < 2 ^ 511
      rw [e]
      refine ⟨lt_of_le_of_lt (div_le_self (by norm_num) (one_le_pow₀ (by norm_num))) (by norm_num), ?_⟩
      calc (4 : ℝ) < 2 ^ 3 := by norm_num
        _ ≤ 2 ^ 511 := pow_le_pow_right₀ (by norm_num) (by norm_num))))
  have hd : d = 0 := c (by rw [hn]; norm_num [logD])
  rw [a, hd]
  simp [toC]

end Verif.Cx
