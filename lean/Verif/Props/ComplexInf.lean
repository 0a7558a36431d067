import Verif.Lemmas.ComplexInf

/-!
# C119, C120: complex numbers with infinite components

`frac s q` is `q * π` with sign bit `s`.
-/

namespace Verif.CxInf

open scoped NNReal
open X

noncomputable section

/-- No component is NaN and one is infinite. -/
def Infinite (z : C) : Prop := z.re.isNaN = false ∧ z.im.isNaN = false ∧ (z.re.isInf = true ∨ z.im.isInf = true)

/-- C119 in full, the parts that fail: where a component is infinite and none is NaN, the real parts of `log` and `acosh` are `+∞`, `cosh`
and `sinh` of `±∞ + iy` have no NaN, and the real part of `tanh` of `±∞ + iy` is `±1` (ISO C, Annex G.6). -/
def C119Claim : Prop :=
  ∀ (F : Fin) (z : C), Infinite z → (clog F z).re = inf false ∧ (cacosh F z).re = inf false ∧
    (z.im.isFinite = true → (ccosh z).im ≠ nan ∧ (csinh z).im ≠ nan) ∧ (∀ n, z.re = inf n → (ctanh z).re = fin n 1)

/-- `sqrt` at the infinities, as in Annex G.6.4.2 of ISO C. -/
theorem C119_sqrt (F : Fin) (s t : Bool) (y : ℝ≥0) (x : X) :
    csqrt F ⟨x, inf s⟩ = ⟨inf false, inf s⟩ ∧ csqrt F ⟨inf true, fin t y⟩ = ⟨fin false 0, inf t⟩ ∧
      csqrt F ⟨inf false, fin t y⟩ = ⟨inf false, fin t 0⟩ := by
  refine ⟨?_, ?_, ?_⟩ <;> simp [csqrt, isInf, isNaN, lt_inf_fin, zero, pinf, copySign, signBit]

/-- `sqrt` with a NaN: infinite if the other component is `±∞` in the imaginary part or `+∞`, else NaN. -/
theorem C119_sqrt_nan (F : Fin) (s n t : Bool) (x y : ℝ≥0) :
    csqrt F ⟨nan, inf s⟩ = ⟨inf false, inf s⟩ ∧ csqrt F ⟨inf false, nan⟩ = ⟨inf false, nan⟩ ∧ csqrt F ⟨inf true, nan⟩ = ⟨nan, inf false⟩ ∧
      csqrt F ⟨nan, fin t y⟩ = cnan ∧ csqrt F ⟨fin n x, nan⟩ = cnan ∧ csqrt F cnan = cnan := by
  refine ⟨?_, ?_, ?_, ?_, ?_, ?_⟩ <;> simp [csqrt, isInf, isNaN, lt_inf_fin, zero, pinf, copySign, signBit, cnan, X.abs]

/-- `acos` at the infinities, as in Annex G.6.1.1. -/
theorem C119_acos (F : Fin) (s n t : Bool) (x y : ℝ≥0) :
    cacos F ⟨fin n x, inf s⟩ = ⟨frac false (1 / 2), inf (!s)⟩ ∧ cacos F ⟨inf true, fin t y⟩ = ⟨frac false 1, inf (!t)⟩ ∧
      cacos F ⟨inf false, fin t y⟩ = ⟨fin false 0, inf (!t)⟩ ∧ cacos F ⟨inf true, inf s⟩ = ⟨frac false (3 / 4), inf (!s)⟩ ∧
      cacos F ⟨inf false, inf s⟩ = ⟨frac false (1 / 4), inf (!s)⟩ := by
  refine ⟨?_, ?_, ?_, ?_, ?_⟩ <;>
    simp [cacos, isInf, isNaN, lt_inf_fin, zero, copySign, signBit, neg, pinf, piTimes_12, piTimes_34, piTimes_14, piTimes_1]

/-- `asinh` at the infinities, as in Annex G.6.2.2. -/
theorem C119_asinh (F : Fin) (s n t : Bool) (x y : ℝ≥0) :
    casinh F ⟨fin n x, inf s⟩ = ⟨inf n, frac s (1 / 2)⟩ ∧ casinh F ⟨inf n, fin t y⟩ = ⟨inf n, fin t 0⟩ ∧
      casinh F ⟨inf n, inf s⟩ = ⟨inf n, frac s (1 / 4)⟩ := by
  refine ⟨?_, ?_, ?_⟩ <;> simp [casinh, isInf, isNaN, zero, copySign, signBit, pinf, piTimes_12, piTimes_14, frac]

/-- `asin` at the infinities: `asin(z) = -i asinh(iz)`. -/
theorem C119_asin (F : Fin) (s n t : Bool) (x y : ℝ≥0) :
    casin F ⟨fin n x, inf s⟩ = ⟨fin n 0, inf s⟩ ∧ casin F ⟨inf n, fin t y⟩ = ⟨frac n (1 / 2), inf t⟩ ∧
      casin F ⟨inf n, inf s⟩ = ⟨frac n (1 / 4), inf s⟩ := by
  have h := fun s n t x y => C119_asinh F s n t x y
  refine ⟨?_, ?_, ?_⟩
  · simp only [casin, neg, (h s (!s) n y x).2.1, Bool.not_not]
  · simp only [casin, neg, (h n (!t) t y y).1, Bool.not_not]
  · simp only [casin, neg, (h n (!s) t y y).2.2, Bool.not_not]

/-- `atanh` at the infinities, as in Annex G.6.2.3. -/
theorem C119_atanh (F : Fin) (s n t : Bool) (x y : ℝ≥0) :
    catanh F ⟨fin n x, inf s⟩ = ⟨fin n 0, frac s (1 / 2)⟩ ∧ catanh F ⟨inf n, fin t y⟩ = ⟨fin n 0, frac t (1 / 2)⟩ ∧
      catanh F ⟨inf n, inf s⟩ = ⟨fin n 0, frac s (1 / 2)⟩ := by
  have h1 : add one (inf false) = inf false := rfl
  refine ⟨?_, ?_, ?_⟩
  · by_cases hb : lt (fin false F.arcBig) (fin false x)
    · simp only [catanh, isInf, isNaN, X.abs, hb, if_true, Bool.or_self, Bool.false_eq_true, if_false, piTimes_12]
      have h2 : mul (div (inf s) (fin false x)) (div (inf s) (fin false x)) = inf false := by simp [div, mul]
      rw [h2, h1]
      have hz : ∀ k u, copySign (div (fin u k) (inf false)) (fin n x) = fin n 0 := fun _ _ => rfl
      have hx : x ≠ 0 := by
        rintro rfl
        have h3 : val false F.arcBig < val false 0 := hb
        simp [val] at h3
      have h4 : div one (fin false x) = fin false (1 / x) := by simp [one, div, hx]
      rw [h4, hz]; rfl
    · simp only [catanh, isInf, isNaN, X.abs, hb, lt_fin_inf, if_true, Bool.or_self, Bool.false_eq_true, if_false, piTimes_12]
      have h2 : div (fin false x) (inf s) = fin s 0 := by simp [div]
      rw [h2, (add_zero_one s).2]
      have h3 : div (fin s 0) (inf s) = fin false 0 := by simp [div]
      rw [h3]
      have h4 : div (fin false 0) one = fin false 0 := by simp [one, div]
      rw [h4]; rfl
  · simp [catanh, isInf, isNaN, zero, copySign, signBit, piTimes_12, frac]
  · simp [catanh, isInf, isNaN, zero, copySign, signBit, piTimes_12, frac]

/-- `atan` at the infinities: `atan(z) = -i atanh(iz)`. -/
theorem C119_atan (F : Fin) (s n t : Bool) (x y : ℝ≥0) :
    catan F ⟨fin n x, inf s⟩ = ⟨frac n (1 / 2), fin s 0⟩ ∧ catan F ⟨inf n, fin t y⟩ = ⟨frac n (1 / 2), fin t 0⟩ ∧
      catan F ⟨inf n, inf s⟩ = ⟨frac n (1 / 2), fin s 0⟩ := by
  have h := fun s n t x y => C119_atanh F s n t x y
  refine ⟨?_, ?_, ?_⟩
  · simp only [catan, neg, (h s (!s) n y x).2.1, Bool.not_not]
  · simp only [catan, neg, (h n (!t) t y y).1, Bool.not_not]
  · simp only [catan, neg, (h n (!s) t y y).2.2, Bool.not_not]

/-- `proj`, `abs` and `arg` at the infinities (G.6, 7.3.9.5, F.10.1.4). -/
theorem C119_proj_abs_arg (s n t : Bool) (x y : ℝ≥0) (z : C) :
    ((z.re.isInf = true ∨ z.im.isInf = true) → proj z = ⟨inf false, fin z.im.signBit 0⟩ ∧ cabs z = inf false) ∧
      (z.re.isInf = false → z.im.isInf = false → proj z = z) ∧
      carg ⟨fin n x, inf s⟩ = frac s (1 / 2) ∧ carg ⟨inf true, fin t y⟩ = frac t 1 ∧ carg ⟨inf false, fin t y⟩ = fin t 0 ∧
      carg ⟨inf true, inf s⟩ = frac s (3 / 4) ∧ carg ⟨inf false, inf s⟩ = frac s (1 / 4) := by
  refine ⟨fun h => ⟨?_, ?_⟩, fun h1 h2 => ?_, ?_, ?_, ?_, ?_, ?_⟩
  · have : (z.re.isInf || z.im.isInf) = true := by simpa using h
    simp only [proj, this, if_true]; rfl
  · obtain ⟨re, im⟩ := z
    cases re <;> cases im <;> simp_all [cabs, hypot, isInf, pinf]
  · simp [proj, h1, h2]
  · exact angle_half _
  · exact angle_pi _
  · exact angle_zero _
  · exact angle_three _
  · exact angle_quarter _

/-- `exp` at the infinities, as in Annex G.6.3.1: `exp(+∞ ± i0) = +∞ ± i0`; `exp(+∞ + iy)` is infinite in the direction of `cos y + i sin y`;
`exp(-∞ + iy)` is zero in that direction and zero for infinite or NaN `y`; `exp(+∞ + i∞)` is infinite. -/
theorem C119_exp (s : Bool) (y : ℝ≥0) (w : X) (hw : w = nan ∨ w = inf s) :
    cexp ⟨inf false, fin s 0⟩ = ⟨inf false, fin s 0⟩ ∧
      (y ≠ 0 → 0 < Real.cos y → (cexp ⟨inf false, fin s y⟩).re = inf false) ∧ (y ≠ 0 → Real.cos y < 0 → (cexp ⟨inf false, fin s y⟩).re = inf true) ∧
      (y ≠ 0 → 0 < Real.sin y → (cexp ⟨inf false, fin s y⟩).im = inf s) ∧ (y ≠ 0 → Real.sin y < 0 → (cexp ⟨inf false, fin s y⟩).im = inf (!s)) ∧
      (∃ a b, cexp ⟨inf true, fin s y⟩ = ⟨fin a 0, fin b 0⟩) ∧ (∃ b, cexp ⟨inf true, w⟩ = ⟨fin false 0, fin b 0⟩) ∧
      cexp ⟨inf false, w⟩ = ⟨inf false, nan⟩ := by
  have hp : ∀ z : X, cexp ⟨inf false, z⟩ = polarPos (inf false) z := fun z => by
    simp [cexp, isFinite, isInf, zero, lt_inf_fin]
  have hn : ∀ z : X, cexp ⟨inf true, z⟩ = polarPos zero z := fun z => by
    simp [cexp, isFinite, isInf, zero, lt_inf_fin]
  have hy : y ≠ 0 → polarPos (inf false) (fin s y) = ⟨mul (inf false) (cos (fin s y)), mul (inf false) (sin (fin s y))⟩ := fun h => by
    simp [polarPos, isNaN, isInf, isZero, h]
  have hc : cos (fin s y) = mul (fin false 1) (ofReal (Real.cos y)) := (one_mul_ofReal _).symm
  have hs : sin (fin s y) = mul (fin s 1) (ofReal (Real.sin y)) := rfl
  refine ⟨?_, fun h h1 => ?_, fun h h1 => ?_, fun h h1 => ?_, fun h h1 => ?_, ?_, ?_, ?_⟩
  · rw [hp]; simp [polarPos, isNaN, isInf, isZero]
  · rw [hp, hy h, hc, inf_mul_pos _ _ h1]; rfl
  · rw [hp, hy h, hc, inf_mul_neg _ _ h1]; rfl
  · rw [hp, hy h, hs, inf_mul_pos _ _ h1]; simp
  · rw [hp, hy h, hs, inf_mul_neg _ _ h1]; cases s <;> rfl
  · rw [hn]
    by_cases h : y = 0
    · exact ⟨false, s, by simp [polarPos, isNaN, isInf, isZero, zero, h]⟩
    · simp only [polarPos, isNaN, isInf, Bool.or_self, Bool.false_eq_true, if_false, isZero, h]
      rw [hc, hs]
      unfold ofReal
      simp only [zero, mul, zero_mul]
      exact ⟨_, _, rfl⟩
  · rw [hn]
    rcases hw with rfl | rfl
    · exact ⟨false, by simp [polarPos, isNaN, isInf, zero, copySign, signBit]⟩
    · exact ⟨s, by simp [polarPos, isNaN, isInf, zero, copySign, signBit]⟩
  · rw [hp]
    rcases hw with rfl | rfl <;> simp [polarPos, isNaN, isInf, sin, odd]

/-- `cosh` and `sinh` of `±∞ + iy` are infinite in the direction of `cos y ± i sin y` where neither is zero; `sin` and `cos` likewise. -/
theorem C119_cosh_sinh_partial (n s : Bool) (y : ℝ≥0) :
    (0 < Real.cos y → (ccosh ⟨inf n, fin s y⟩).re = inf false ∧ (csinh ⟨inf n, fin s y⟩).re = inf n ∧ (csin ⟨fin s y, inf n⟩).im = inf n ∧
      (ccos ⟨fin s y, inf n⟩).re = inf false) ∧
    (Real.cos y < 0 → (ccosh ⟨inf n, fin s y⟩).re = inf true ∧ (csinh ⟨inf n, fin s y⟩).re = inf (!n) ∧ (csin ⟨fin s y, inf n⟩).im = inf (!n) ∧
      (ccos ⟨fin s y, inf n⟩).re = inf true) ∧
    (0 < Real.sin y → (ccosh ⟨inf n, fin s y⟩).im = inf (n != s) ∧ (csinh ⟨inf n, fin s y⟩).im = inf s ∧ (csin ⟨fin s y, inf n⟩).re = inf s ∧
      (ccos ⟨fin s y, inf n⟩).im = inf (n == s)) ∧
    (Real.sin y < 0 → (ccosh ⟨inf n, fin s y⟩).im = inf (n == s) ∧ (csinh ⟨inf n, fin s y⟩).im = inf (!s) ∧ (csin ⟨fin s y, inf n⟩).re = inf (!s) ∧
      (ccos ⟨fin s y, inf n⟩).im = inf (n != s)) := by
  have hc : cos (fin s y) = mul (fin false 1) (ofReal (Real.cos y)) := (one_mul_ofReal _).symm
  have hs : sin (fin s y) = mul (fin s 1) (ofReal (Real.sin y)) := rfl
  have h1 : ∀ n, cosh (inf n) = inf false := fun _ => rfl
  have h2 : ∀ n, sinh (inf n) = inf n := fun _ => rfl
  refine ⟨fun h => ?_, fun h => ?_, fun h => ?_, fun h => ?_⟩
  · simp only [ccosh, csinh, csin, ccos, hc, h1, h2, inf_mul_pos _ _ h]
    cases n <;> simp
  · simp only [ccosh, csinh, csin, ccos, hc, h1, h2, inf_mul_neg _ _ h]
    cases n <;> simp
  · simp only [ccosh, csinh, csin, ccos, hs, h1, h2, neg, inf_mul_pos _ _ h]
    cases n <;> cases s <;> simp
  · simp only [ccosh, csinh, csin, ccos, hs, h1, h2, neg, inf_mul_neg _ _ h]
    cases n <;> cases s <;> simp

/-- On the real line they are NaN: `cosh(±∞ ± i0)`, `sinh(±∞ ± i0)`, and `cos` and `sin` of `±0 ± i∞`, where Annex G has a zero. -/
theorem C119_cosh_sinh_false (n s : Bool) :
    (ccosh ⟨inf n, fin s 0⟩).im = nan ∧ (csinh ⟨inf n, fin s 0⟩).im = nan ∧ (ccos ⟨fin s 0, inf n⟩).im = nan ∧ (csin ⟨fin s 0, inf n⟩).re = nan := by
  have hs : sin (fin s 0) = mul (fin s 1) (fin false 0) := by
    unfold sin odd
    simp [ofReal_zero]
  have h1 : ∀ n, cosh (inf n) = inf false := fun _ => rfl
  have h2 : ∀ n, sinh (inf n) = inf n := fun _ => rfl
  simp only [ccosh, csinh, ccos, csin, hs, h1, h2, neg, (inf_mul_zero _ _ _).2, and_self]

/-- `log` of an infinite number: the infinity is passed on with its sign, so the real part is `-∞` for `-∞ + iy` and `x - i∞`, where it should be
`+∞`; it is right for `+∞ + iy` and `x + i∞`. -/
theorem C119_log_false (F : Fin) (n t s : Bool) (x y : ℝ≥0) :
    (clog F ⟨inf n, fin t y⟩).re = inf n ∧ (clog F ⟨fin t x, inf n⟩).re = inf n ∧ (clog F ⟨inf n, inf s⟩).re = inf n := by
  refine ⟨?_, ?_, ?_⟩ <;> simp [clog, logHypot, isFinite, isNaN, isInf]

/-- The imaginary part of `log` is right. -/
theorem C119_log_im_partial (F : Fin) (s n t : Bool) (x y : ℝ≥0) :
    (clog F ⟨fin n x, inf s⟩).im = frac s (1 / 2) ∧ (clog F ⟨inf true, fin t y⟩).im = frac t 1 ∧ (clog F ⟨inf false, fin t y⟩).im = fin t 0 ∧
      (clog F ⟨inf true, inf s⟩).im = frac s (3 / 4) ∧ (clog F ⟨inf false, inf s⟩).im = frac s (1 / 4) :=
  (C119_proj_abs_arg s n t x y ⟨nan, nan⟩).2.2

/-- So a power of `-∞ + iy` with a positive exponent is zero instead of infinite. -/
theorem C119_pow_false (F : Fin) (t : Bool) (y r : ℝ≥0) (hr : r ≠ 0) : cpow F ⟨inf true, fin t y⟩ (fin false r) = ⟨fin false 0, fin false 0⟩ := by
  have h : clog F ⟨inf true, fin t y⟩ = ⟨inf true, frac t 1⟩ := by
    have h1 := (C119_log_false F true t t y y).1
    have h2 := (C119_log_im_partial F t t t y y).2.1
    cases hc : clog F ⟨inf true, fin t y⟩
    simp_all
  have hm : rmul (fin false r) ⟨inf true, frac t 1⟩ = ⟨inf true, nan⟩ := by
    simp [rmul, cmul, mul, hr, zero, sub, neg, add, frac]
  rw [cpow, h, hm]
  simp [cexp, isFinite, isInf, zero, lt_inf_fin, polarPos, isNaN, copySign, signBit]

/-- `acosh` of `±∞ + iy` and `±∞ ± i∞`, as in Annex G.6.2.1. -/
theorem C119_acosh_partial (F : Fin) (s t : Bool) (y : ℝ≥0) :
    cacosh F ⟨inf true, fin t y⟩ = ⟨inf false, frac t 1⟩ ∧ cacosh F ⟨inf false, fin t y⟩ = ⟨inf false, fin t 0⟩ ∧
      cacosh F ⟨inf true, inf s⟩ = ⟨inf false, frac s (3 / 4)⟩ ∧ cacosh F ⟨inf false, inf s⟩ = ⟨inf false, frac s (1 / 4)⟩ := by
  refine ⟨?_, ?_, ?_, ?_⟩ <;>
    simp [cacosh, isInf, isNaN, lt_inf_fin, zero, copySign, signBit, pinf, piTimes_34, piTimes_14, piTimes_1, frac]

/-- `acosh(x ± i∞)` has a NaN as its real part, where Annex G has `+∞`; the imaginary part is right. -/
theorem C119_acosh_false (F : Fin) (n s : Bool) (x : ℝ≥0) : cacosh F ⟨fin n x, inf s⟩ = ⟨nan, frac s (1 / 2)⟩ := by
  have hq : ∀ x s, csqrt F ⟨x, inf s⟩ = ⟨inf false, inf s⟩ := fun x s => (C119_sqrt F s s 0 x).1
  have hd : div (inf s) (inf false) = nan := rfl
  have hm : mul (inf (!s)) nan = nan := rfl
  have ha : atan2 (inf s) (inf false) = frac s (1 / 4) := angle_quarter _
  have h2 : mul (fin false 2) (frac s (1 / 4)) = frac s (1 / 2) := by
    unfold frac
    simp only [mul]
    congr 1
    · cases s <;> rfl
    · rw [← mul_assoc]; congr 1; ext; push_cast; norm_num
  have hng : neg (inf s) = inf (!s) := rfl
  have hsn : sub (inf false) nan = nan := rfl
  have has : asinh nan = nan := rfl
  have hb : lt (fin false F.arcBig) (inf false) := rfl
  have key : acoshRest F ⟨fin n x, inf s⟩ = ⟨nan, frac s (1 / 2)⟩ := by
    unfold acoshRest
    dsimp only
    rw [hng, hq, hq, hq]
    dsimp only
    rw [if_pos hb]
    dsimp only
    rw [hd, hm, hsn, has, ha, h2, if_neg (show ¬ isZero (inf false) from fun h => h),
      if_neg (show ¬ (¬ lt nan zero ∧ nan.isNaN = false) from fun h => by cases h.2)]
    rfl
  rw [← key]
  rfl

/-- `tanh` of `±∞ + iy` is `±1`, `tan` of `x ± i∞` is `±i`; the imaginary (real) part is `+0`. -/
theorem C119_tanh_partial (n s : Bool) (y : ℝ≥0) :
    ctanh ⟨inf n, fin s y⟩ = ⟨fin n 1, fin false 0⟩ ∧ ctan ⟨fin s y, inf n⟩ = ⟨fin false 0, fin n 1⟩ := by
  have key : ∀ n, ctanh ⟨inf n, fin s y⟩ = ⟨fin n 1, fin false 0⟩ := by
    intro n
    have ht : ∃ u k, tan (fin s y) = fin u k := by
      unfold tan odd ofReal
      exact ⟨_, _, rfl⟩
    obtain ⟨u, k, ht⟩ := ht
    have hs : sinh (inf n) = inf n := rfl
    have h1 : add one (mul (fin u k) (fin u k)) = fin false (1 + k * k) := by
      have : mul (fin u k) (fin u k) = fin false (k * k) := by simp [mul]
      rw [this]
      exact addFin_same false 1 (k * k)
    have h2 : mul (inf n) (fin false (1 + k * k)) = inf n := by simp [mul]
    have h3 : mul (inf n) (inf n) = inf false := by simp [mul]
    have h4 : add one (inf false) = inf false := rfl
    simp only [ctanh, ht, hs, h1, h2, h3, h4, isInf, if_true, zero, lt_inf_fin]
    cases n <;> simp [one, neg]
  refine ⟨key n, ?_⟩
  simp only [ctan, neg, key, Bool.not_not]

/-- `tanh(±∞ ± i∞)` is NaN in both components, where Annex G has `±1 ± i0`. -/
theorem C119_tanh_false (n s : Bool) : ctanh ⟨inf n, inf s⟩ = cnan := by
  have ht : tan (inf s) = nan := rfl
  have hm : ∀ x : X, mul x nan = nan := fun x => by cases x <;> rfl
  have ha : ∀ x : X, add x nan = nan := fun x => by cases x <;> rfl
  have hd : ∀ x : X, div x nan = nan := fun x => by cases x <;> rfl
  have hn : ∀ x : X, mul nan x = nan := fun _ => rfl
  simp [ctanh, ht, hm, ha, hd, hn, isInf, cnan]

/-- The inverse functions are NaN in both components if a component is NaN. -/
theorem C119_nan (F : Fin) (z : C) (h : z.re = nan ∨ z.im = nan) :
    cacos F z = cnan ∧ cacosh F z = cnan ∧ casinh F z = cnan ∧ catanh F z = cnan := by
  have : (z.re.isNaN || z.im.isNaN) = true := by
    rcases h with h | h <;> simp [h, isNaN]
  simp [cacos, cacosh, casinh, catanh, this]

theorem C119_false : ¬ C119Claim := by
  intro h
  have h1 := (h ⟨fun z => z, fun z => z, fun z => z, fun z => z, fun z => z.re, 1⟩ ⟨inf true, fin false 0⟩ ⟨rfl, rfl, .inl rfl⟩).1
  rw [(C119_log_false _ true false false 0 0).1] at h1
  cases h1

/-! ### C120 -/

/-- No component is NaN and none is infinite. -/
def Finite (z : C) : Prop := z.re.isFinite = true ∧ z.im.isFinite = true

/-- C120 in full: an infinite number times a number other than zero has an infinite component; a finite number divided by an infinite one is zero;
an infinite number divided by a finite one and a number other than zero divided by zero have an infinite component; a scalar can be multiplied
from either side. -/
def C120Claim : Prop :=
  (∀ z w : C, Infinite z → Finite w → ¬ (isZero w.re ∧ isZero w.im) → (cmul z w).re.isInf = true ∨ (cmul z w).im.isInf = true) ∧
  (∀ z w : C, Finite z → Infinite w → isZero (cdiv z w).re ∧ isZero (cdiv z w).im) ∧
  (∀ z w : C, Infinite z → Finite w → (cdiv z w).re.isInf = true ∨ (cdiv z w).im.isInf = true) ∧
  (∀ z : C, ∀ r : X, r.isFinite = true → rmul r z = cmulr z r)

/-- The product of a number with one infinite component and a finite number other than zero has an infinite component. -/
theorem C120_mul_partial (n t u v : Bool) (y a b : ℝ≥0) (h : a ≠ 0 ∨ b ≠ 0) :
    ((cmul ⟨inf n, fin t y⟩ ⟨fin u a, fin v b⟩).re.isInf = true ∨ (cmul ⟨inf n, fin t y⟩ ⟨fin u a, fin v b⟩).im.isInf = true) ∧
      ((cmul ⟨fin t y, inf n⟩ ⟨fin u a, fin v b⟩).re.isInf = true ∨ (cmul ⟨fin t y, inf n⟩ ⟨fin u a, fin v b⟩).im.isInf = true) := by
  by_cases ha : a = 0
  · have hb : b ≠ 0 := h.resolve_left (not_not.2 ha)
    simp [cmul, mul, hb, ha, sub, neg, add, isInf]
  · simp [cmul, mul, ha, sub, neg, add, isInf]

/-- So has the product of a number with two infinite components and a finite number off the axes. -/
theorem C120_mul_both_partial (n s u v : Bool) (a b : ℝ≥0) (ha : a ≠ 0) (hb : b ≠ 0) :
    (cmul ⟨inf n, inf s⟩ ⟨fin u a, fin v b⟩).re.isInf = true ∨ (cmul ⟨inf n, inf s⟩ ⟨fin u a, fin v b⟩).im.isInf = true := by
  cases n <;> cases s <;> cases u <;> cases v <;> simp [cmul, mul, ha, hb, sub, neg, add, isInf]

/-- On the axes the product is NaN in both components. -/
theorem C120_mul_false (n s u v : Bool) (a : ℝ≥0) :
    cmul ⟨inf n, inf s⟩ ⟨fin u a, fin v 0⟩ = cnan ∧ cmul ⟨inf n, inf s⟩ ⟨fin u 0, fin v a⟩ = cnan := by
  have h1 : ∀ x : X, sub x nan = nan := fun x => by cases x <;> rfl
  have h2 : ∀ x : X, add x nan = nan := fun x => by cases x <;> rfl
  have h3 : ∀ x : X, add nan x = nan := fun x => rfl
  have h4 : ∀ x : X, sub nan x = nan := fun x => rfl
  have h5 : ∀ n s, mul (inf n) (fin s 0) = nan := fun n s => (inf_mul_zero n s s).1
  simp only [cmul, h5, h1, h2, h3, h4, cnan, and_self]

/-- Division by zero is NaN in both components, whatever is divided. -/
theorem C120_div_zero_false (z : C) (s t : Bool) : cdiv z ⟨fin s 0, fin t 0⟩ = cnan := by
  have h : ¬ lt (mag (fin t 0)) (mag (fin s 0)) := by rw [lt_mag]; exact lt_irrefl _
  simp [cdiv, isNaN, h, isZero]

/-- A finite number divided by a number with one infinite component is zero. -/
theorem C120_div_inf_partial (n t u v : Bool) (y a b : ℝ≥0) :
    (∃ p q, cdiv ⟨fin u a, fin v b⟩ ⟨inf n, fin t y⟩ = ⟨fin p 0, fin q 0⟩) ∧
      (∃ p q, cdiv ⟨fin u a, fin v b⟩ ⟨fin t y, inf n⟩ = ⟨fin p 0, fin q 0⟩) := by
  have hf : ∀ s k s' k' r, ∃ p, div (add (fin s k) (fin s' k')) (inf r) = fin p 0 := by
    intro s k s' k' r
    obtain ⟨p, q, h, -⟩ := addFin_finite s k s' k'
    change ∃ p, div (addFin s k s' k') (inf r) = fin p 0
    rw [h]
    exact ⟨_, rfl⟩
  obtain ⟨w, hw, hv⟩ := mag_fin t y
  constructor
  · have h1 : lt (mag (fin t y)) (mag (inf n)) := by rw [hw, mag_inf]; rfl
    have h2 : div (fin t y) (inf n) = fin (t != n) 0 := rfl
    have h3 : mul (fin (t != n) 0) (fin t y) = fin ((t != n) != t) 0 := by simp [mul]
    have h4 : ∀ s k, add (inf n) (fin s k) = inf n := fun _ _ => rfl
    have h5 : ∀ s k s' k', mul (fin s k) (fin s' k') = fin (s != s') (k * k') := fun _ _ _ _ => rfl
    simp only [cdiv, isNaN, h1, h2, h3, h4, h5, if_true, isZero, sub, neg, or_self, if_false, Bool.false_eq_true]
    obtain ⟨p, hp⟩ := hf u a (v != (t != n)) (b * 0) n
    obtain ⟨q, hq⟩ := hf v b (!(u != (t != n))) (a * 0) n
    exact ⟨p, q, by rw [hp, hq]⟩
  · have h1 : ¬ lt (mag (inf n)) (mag (fin t y)) := by
      rw [hw, mag_inf]
      exact fun h => by cases h
    have h2 : div (fin t y) (inf n) = fin (t != n) 0 := rfl
    have h3 : mul (fin (t != n) 0) (fin t y) = fin ((t != n) != t) 0 := by simp [mul]
    have h4 : ∀ s k, add (inf n) (fin s k) = inf n := fun _ _ => rfl
    have h5 : ∀ s k s' k', mul (fin s k) (fin s' k') = fin (s != s') (k * k') := fun _ _ _ _ => rfl
    simp only [cdiv, isNaN, h1, h2, h3, h4, h5, isZero, sub, neg, or_self, if_false, Bool.false_eq_true]
    obtain ⟨p, hp⟩ := hf (u != (t != n)) (a * 0) v b n
    obtain ⟨q, hq⟩ := hf (v != (t != n)) (b * 0) (!u) a n
    exact ⟨p, q, by rw [hp, hq]⟩

/-- Divided by a number with two infinite components it is NaN, whatever is divided. -/
theorem C120_div_inf_false (z : C) (n s : Bool) : cdiv z ⟨inf n, inf s⟩ = cnan := by
  have h1 : ¬ lt (mag (inf s)) (mag (inf n)) := by
    rw [mag_inf, mag_inf]
    exact fun h => by cases h.1
  simp [cdiv, isNaN, h1, isZero, div, mul, add]

/-- A number with one infinite component divided by a finite number other than zero has an infinite component. -/
theorem C120_inf_div_partial (n t u v : Bool) (y a b : ℝ≥0) (h : a ≠ 0 ∨ b ≠ 0) :
    ((cdiv ⟨inf n, fin t y⟩ ⟨fin u a, fin v b⟩).re.isInf = true ∨ (cdiv ⟨inf n, fin t y⟩ ⟨fin u a, fin v b⟩).im.isInf = true) ∧
      ((cdiv ⟨fin t y, inf n⟩ ⟨fin u a, fin v b⟩).re.isInf = true ∨ (cdiv ⟨fin t y, inf n⟩ ⟨fin u a, fin v b⟩).im.isInf = true) := by
  have h5 : ∀ s k s' k', mul (fin s k) (fin s' k') = fin (s != s') (k * k') := fun _ _ _ _ => rfl
  have h6 : ∀ s k s' k', add (fin s k) (fin s' k') = addFin s k s' k' := fun _ _ _ _ => rfl
  have h7 : ∀ n s k, add (inf n) (fin s k) = inf n := fun _ _ _ => rfl
  have h8 : ∀ n s k, add (fin s k) (inf n) = inf n := fun _ _ _ => rfl
  have h9 : ∀ n s k, div (inf n) (fin s k) = inf (n != s) := fun _ _ _ => rfl
  by_cases hlt : b < a
  · have ha : a ≠ 0 := (lt_of_le_of_lt (zero_le : 0 ≤ b) hlt).ne'
    have h1 : lt (mag (fin v b)) (mag (fin u a)) := (lt_mag _ _ _ _).2 hlt
    have h2 : div (fin v b) (fin u a) = fin (v != u) (b / a) := by simp [div, ha]
    have h3 : ((v != u) != v) = u := by cases u <;> cases v <;> rfl
    have h4 : a + b / a * b ≠ 0 := by simp [ha]
    simp only [cdiv, isNaN, h1, h2, h3, h5, h6, addFin_same, if_true, isZero, h4, sub, neg, or_self, if_false, Bool.false_eq_true, h7, h8, h9, isInf,
      true_or, or_true, and_self]
  · have hb : b ≠ 0 := by
      rintro rfl
      exact hlt (lt_of_le_of_ne (zero_le : 0 ≤ a) (h.resolve_right (fun k => k rfl)).symm)
    have h1 : ¬ lt (mag (fin v b)) (mag (fin u a)) := fun k => hlt ((lt_mag _ _ _ _).1 k)
    have h2 : div (fin u a) (fin v b) = fin (u != v) (a / b) := by simp [div, hb]
    have h3 : ((u != v) != u) = v := by cases u <;> cases v <;> rfl
    have h4 : b + a / b * a ≠ 0 := by simp [hb]
    simp only [cdiv, isNaN, h1, h2, h3, h5, h6, addFin_same, isZero, hb, h4, sub, neg, or_self, if_false, Bool.false_eq_true, h7, h8]
    refine ⟨.inr ?_, .inl ?_⟩
    · rfl
    · rfl

/-- A number with two infinite components divided by a real or imaginary number is NaN in both components. -/
theorem C120_inf_div_false (n s u v : Bool) (a : ℝ≥0) : cdiv ⟨inf n, inf s⟩ ⟨fin u a, fin v 0⟩ = cnan ∧ cdiv ⟨inf n, inf s⟩ ⟨fin u 0, fin v a⟩ = cnan := by
  have m0 : ∀ n s, mul (inf n) (fin s 0) = nan := fun n s => (inf_mul_zero n s s).1
  by_cases ha : a = 0
  · subst ha
    exact ⟨C120_div_zero_false _ _ _, C120_div_zero_false _ _ _⟩
  have hp : 0 < a := pos_iff_ne_zero.2 ha
  have e1 : ∀ s t, div (fin s 0) (fin t a) = fin (s != t) 0 := fun s t => by simp [div, ha]
  have e2 : ∀ s t, mul (fin s 0) (fin t 0) = fin (s != t) 0 := fun s t => by simp [mul]
  have e3 : ∀ s, ∃ p q, add (fin s a) (fin s 0) = fin p q ∧ q ≠ 0 := fun s => ⟨s, a + 0, addFin_same s a 0, by simpa using ha⟩
  have e4 : ∀ x : X, add x nan = nan := fun x => by cases x <;> rfl
  have e5 : ∀ x, add nan x = nan := fun _ => rfl
  have e6 : ∀ x, div nan x = nan := fun _ => rfl
  have e7 : ∀ u v : Bool, ((v != u) != v) = u := by decide
  constructor
  · have h1 : lt (mag (fin v 0)) (mag (fin u a)) := (lt_mag _ _ _ _).2 hp
    obtain ⟨p, q, h2, h3⟩ := e3 u
    simp only [cdiv, isNaN, h1, e1, e2, e7, h2, if_true, isZero, h3, or_self, if_false, Bool.false_eq_true, m0, sub, neg, e4, e6, cnan]
  · have h1 : ¬ lt (mag (fin v a)) (mag (fin u 0)) := fun k => absurd ((lt_mag _ _ _ _).1 k) (not_lt.2 (zero_le : 0 ≤ a))
    obtain ⟨p, q, h2, h3⟩ := e3 v
    simp only [cdiv, isNaN, h1, e1, e2, e7, h2, isZero, ha, h3, or_self, if_false, Bool.false_eq_true, m0, sub, e5, e6, cnan]

/-- `r * z` and `z * r` differ where `z` has an infinite component: from the left, the other component becomes NaN. -/
theorem C120_scalar_false (r y : ℝ≥0) (n t s : Bool) (hr : r ≠ 0) :
    rmul (fin s r) ⟨inf n, fin t y⟩ = ⟨inf (s != n), nan⟩ ∧ cmulr ⟨inf n, fin t y⟩ (fin s r) = ⟨inf (n != s), fin (t != s) (y * r)⟩ := by
  constructor
  · simp [rmul, cmul, zero, mul, hr, sub, neg, add]
  · simp [cmulr, mul, hr]

/-- On finite numbers they have the same values. -/
theorem C120_scalar_partial (r x y : ℝ≥0) (n t s : Bool) :
    ∃ p a q b p' a' q' b', rmul (fin s r) ⟨fin n x, fin t y⟩ = ⟨fin p a, fin q b⟩ ∧ cmulr ⟨fin n x, fin t y⟩ (fin s r) = ⟨fin p' a', fin q' b'⟩ ∧
      val p a = val p' a' ∧ val q b = val q' b' := by
  have hz : ∀ s : Bool, val s 0 = 0 := fun s => by cases s <;> simp [val]
  have h1 : (rmul (fin s r) ⟨fin n x, fin t y⟩).re = addFin (s != n) (r * x) (!(false != t)) (0 * y) := rfl
  have h2 : (rmul (fin s r) ⟨fin n x, fin t y⟩).im = addFin (s != t) (r * y) (false != n) (0 * x) := rfl
  obtain ⟨p, a, h3, h4⟩ := addFin_finite (s != n) (r * x) (!(false != t)) (0 * y)
  obtain ⟨q, b, h5, h6⟩ := addFin_finite (s != t) (r * y) (false != n) (0 * x)
  refine ⟨p, a, q, b, n != s, x * r, t != s, y * r, ?_, rfl, ?_, ?_⟩
  · rw [← h3, ← h5, ← h1, ← h2]
  · rw [h4, zero_mul, hz, add_zero, mul_comm r x]; cases n <;> cases s <;> rfl
  · rw [h6, zero_mul, hz, add_zero, mul_comm r y]; cases t <;> cases s <;> rfl

theorem C120_false : ¬ C120Claim := by
  intro h
  have h1 := h.1 ⟨inf false, inf false⟩ ⟨fin false 0, fin false 1⟩ ⟨rfl, rfl, .inl rfl⟩ ⟨rfl, rfl⟩ (fun k => one_ne_zero k.2)
  rw [(C120_mul_false false false false false 1).2] at h1
  simp [cnan, isInf] at h1

/-- The hypotheses on angles hold, for instance, at `y = 1`: both the cosine and the sine are positive. -/
example : 0 < Real.cos (1 : ℝ≥0) ∧ 0 < Real.sin (1 : ℝ≥0) :=
  ⟨by simpa using Real.cos_one_pos, by simpa using Real.sin_pos_of_pos_of_le_one one_pos le_rfl⟩

/-- `log(-∞ + i0)`, `acosh(i∞)` and `1 / (∞ + i∞)`. -/
example (F : Fin) : clog F ⟨inf true, fin false 0⟩ = ⟨inf true, frac false 1⟩ ∧ (cacosh F ⟨fin false 0, inf false⟩).re = nan ∧
    cdiv ⟨one, zero⟩ ⟨inf false, inf false⟩ = cnan :=
  ⟨by
      have h1 := (C119_log_false F true false false 0 0).1
      have h2 := (C119_log_im_partial F false false false 0 0).2.1
      cases hc : clog F ⟨inf true, fin false 0⟩
      simp_all,
    by rw [C119_acosh_false], C120_div_inf_false _ _ _⟩

end

end Verif.CxInf
