import Verif.Model.RandomDist
import Mathlib.Analysis.SpecialFunctions.PolarCoord
import Mathlib.MeasureTheory.Function.JacobianOneDim
import Mathlib.Probability.Distributions.Gaussian.Real

/-! Lemmas about the distributions of random numbers. -/

open MeasureTheory Set Real ProbabilityTheory
open scoped ENNReal

namespace Verif.RandomDist

/-- The radius of the normal pair is a decreasing function of that of the point. -/
noncomputable def phi (R : ℝ) : ℝ := Real.exp (-(R ^ 2) / 4)

theorem phi_deriv (R : ℝ) : HasDerivAt phi (-(R / 2) * Real.exp (-(R ^ 2) / 4)) R := by
  have h1 : HasDerivAt (fun R : ℝ => -(R ^ 2) / 4) (-(R / 2)) R := by
    have := ((hasDerivAt_pow 2 R).neg).div_const 4
    refine this.congr_deriv ?_
    simp; ring
  have h2 := h1.exp
  refine h2.congr_deriv ?_
  ring

theorem phi_inj : InjOn phi (Ioi 0) := by
  intro a ha b hb h
  have h1 : -(a ^ 2) / 4 = -(b ^ 2) / 4 := Real.exp_injective h
  have h2 : a ^ 2 = b ^ 2 := by linarith
  exact (pow_left_inj₀ (le_of_lt ha) (le_of_lt hb) two_ne_zero).1 h2

/-- `r * multiplier (r^2)` undoes `phi`. -/
theorem radius_phi {R : ℝ} (hR : 0 < R) : phi R * multiplier (phi R ^ 2) = R := by
  have hp : 0 < phi R := Real.exp_pos _
  have hl : Real.log (phi R ^ 2) = -(R ^ 2) / 2 := by
    rw [Real.log_pow, phi, Real.log_exp]; push_cast; ring
  have h1 : -2 * Real.log (phi R ^ 2) / phi R ^ 2 = (R / phi R) ^ 2 := by
    rw [hl, div_pow]; congr 1; ring
  rw [multiplier, h1, Real.sqrt_sq (by positivity)]
  field_simp

theorem phi_image : phi '' Ioi 0 = Ioo 0 1 := by
  ext r
  constructor
  · rintro ⟨R, hR, rfl⟩
    refine ⟨Real.exp_pos _, ?_⟩
    rw [phi, Real.exp_lt_one_iff]
    have : 0 < R ^ 2 := pow_pos hR 2
    linarith
  · rintro ⟨h0, h1⟩
    have hl : Real.log r < 0 := Real.log_neg h0 h1
    refine ⟨Real.sqrt (-4 * Real.log r), Real.sqrt_pos.2 (by linarith), ?_⟩
    rw [phi, Real.sq_sqrt (by linarith)]
    rw [show -(-4 * Real.log r) / 4 = Real.log r by ring, Real.exp_log h0]

/-- The radial part. -/
theorem radial (h : ℝ → ℝ≥0∞) :
    ∫⁻ r in Ioi 0, ENNReal.ofReal r * (if r < 1 then h (r * multiplier (r ^ 2)) else 0) =
      ∫⁻ R in Ioi 0, ENNReal.ofReal (R / 2 * Real.exp (-(R ^ 2) / 2)) * h R := by
  have e1 : ∫⁻ r in Ioi 0, ENNReal.ofReal r * (if r < 1 then h (r * multiplier (r ^ 2)) else 0) =
      ∫⁻ r in Ioo 0 1, ENNReal.ofReal r * h (r * multiplier (r ^ 2)) := by
    rw [← lintegral_indicator measurableSet_Ioi, ← lintegral_indicator measurableSet_Ioo]
    congr 1
    funext r
    by_cases h0 : 0 < r <;> by_cases h1 : r < 1 <;> simp [indicator, h0, h1]
  rw [e1, ← phi_image, lintegral_image_eq_lintegral_abs_deriv_mul measurableSet_Ioi
    (fun x _ => (phi_deriv x).hasDerivWithinAt) phi_inj]
  refine setLIntegral_congr_fun measurableSet_Ioi fun R hR => ?_
  have hR' : (0 : ℝ) < R := hR
  rw [radius_phi hR', ← mul_assoc, ← ENNReal.ofReal_mul (abs_nonneg _)]
  congr 2
  rw [abs_mul, abs_neg, abs_of_pos (by linarith : 0 < R / 2), abs_of_pos (Real.exp_pos _), phi, mul_assoc, ← Real.exp_add]
  congr 2
  ring

theorem sq_polar (r t : ℝ) : sq (r * Real.cos t, r * Real.sin t) = r ^ 2 := by
  simp only [sq]
  nlinarith [Real.cos_sq_add_sin_sq t]

theorem measurable_sq : Measurable sq := by unfold sq; fun_prop

theorem measurable_multiplier : Measurable multiplier := by unfold multiplier; fun_prop

theorem measurable_value : Measurable value := by
  unfold value
  have h := measurable_multiplier.comp measurable_sq
  exact (measurable_fst.mul h).prodMk (measurable_snd.mul h)

theorem measurableSet_accepted : MeasurableSet {v | Accepted v} := by
  have h : {v | Accepted v} = (sq ⁻¹' (Ici 1 ∪ {0}))ᶜ := by
    ext v
    simp only [Accepted, mem_setOf_eq, mem_compl_iff, mem_preimage, mem_union, mem_Ici, mem_singleton_iff]
  rw [h]
  exact (measurable_sq (measurableSet_Ici.union (measurableSet_singleton 0))).compl

/-- Integrals in polar coordinates, the angle outside. -/
theorem polar (f : ℝ × ℝ → ℝ≥0∞) (hf : Measurable f) :
    ∫⁻ p, f p = ∫⁻ t in Ioo (-π) π, ∫⁻ r in Ioi 0, ENNReal.ofReal r * f (r * Real.cos t, r * Real.sin t) := by
  rw [← lintegral_comp_polarCoord_symm, polarCoord_target, Measure.volume_eq_prod, ← Measure.prod_restrict]
  have hm : Measurable fun p : ℝ × ℝ => ENNReal.ofReal p.1 • f (polarCoord.symm p) := by
    have : Measurable fun p : ℝ × ℝ => polarCoord.symm p := by
      simp only [polarCoord_symm_apply]
      fun_prop
    simp only [smul_eq_mul]
    fun_prop
  rw [lintegral_prod_symm _ hm.aemeasurable]
  simp only [polarCoord_symm_apply, smul_eq_mul]

open Classical in
/-- The integral over the accepted points. -/
theorem accepted_integral (f : ℝ × ℝ → ℝ≥0∞) (hf : Measurable f) :
    ∫⁻ v, (if Accepted v then f (value v) else 0) =
      ENNReal.ofReal π * ∫⁻ p, f p ∂((gaussianReal 0 1).prod (gaussianReal 0 1)) := by
  have hg : ∫⁻ p, f p ∂((gaussianReal 0 1).prod (gaussianReal 0 1)) =
      ∫⁻ p : ℝ × ℝ, ENNReal.ofReal ((2 * π)⁻¹ * Real.exp (-sq p / 2)) * f p := by
    rw [gaussianReal_of_var_ne_zero 0 one_ne_zero, prod_withDensity (measurable_gaussianPDF 0 1) (measurable_gaussianPDF 0 1),
      lintegral_withDensity_eq_lintegral_mul _ (by fun_prop) hf, ← Measure.volume_eq_prod]
    congr 1
    funext p
    simp only [Pi.mul_apply, gaussianPDF]
    rw [← ENNReal.ofReal_mul (gaussianPDFReal_nonneg 0 1 p.1)]
    congr 2
    simp only [gaussianPDFReal, sq]
    have h2 : Real.sqrt (2 * π * ((1 : NNReal) : ℝ)) ≠ 0 := by
      rw [NNReal.coe_one, mul_one]; positivity
    have h3 : Real.sqrt (2 * π * ((1 : NNReal) : ℝ)) * Real.sqrt (2 * π * ((1 : NNReal) : ℝ)) = 2 * π := by
      rw [NNReal.coe_one, mul_one, Real.mul_self_sqrt (by positivity)]
    rw [mul_mul_mul_comm, ← mul_inv, h3, ← Real.exp_add]
    congr 2
    rw [NNReal.coe_one]
    ring
  have hm1 : Measurable fun v : ℝ × ℝ => if Accepted v then f (value v) else 0 :=
    Measurable.ite measurableSet_accepted (hf.comp measurable_value) measurable_const
  have hm2 : Measurable fun p : ℝ × ℝ => ENNReal.ofReal ((2 * π)⁻¹ * Real.exp (-sq p / 2)) * f p := by
    have := measurable_sq
    fun_prop
  rw [hg, polar _ hm1, polar _ hm2, ← lintegral_const_mul']
  swap
  · exact ENNReal.ofReal_ne_top
  refine lintegral_congr fun t => ?_
  rw [← lintegral_const_mul' _ _ ENNReal.ofReal_ne_top]
  have h1 := radial fun R => f (R * Real.cos t, R * Real.sin t)
  have h2 : ∫⁻ r in Ioi 0, ENNReal.ofReal r * (if Accepted (r * Real.cos t, r * Real.sin t) then
        f (value (r * Real.cos t, r * Real.sin t)) else 0) =
      ∫⁻ r in Ioi 0, ENNReal.ofReal r * (if r < 1 then
        f (r * multiplier (r ^ 2) * Real.cos t, r * multiplier (r ^ 2) * Real.sin t) else 0) := by
    refine setLIntegral_congr_fun measurableSet_Ioi fun r hr => ?_
    have hr' : (0 : ℝ) < r := hr
    have ha : Accepted (r * Real.cos t, r * Real.sin t) ↔ r < 1 := by
      simp only [Accepted, sq_polar]
      constructor
      · intro h
        push Not at h
        nlinarith [h.1]
      · intro h
        push Not
        exact ⟨by nlinarith, by positivity⟩
    simp only [ha]
    split
    · simp only [value, sq_polar]
      rw [mul_right_comm, mul_right_comm r (Real.sin t)]
    · rfl
  rw [h2, h1]
  refine setLIntegral_congr_fun measurableSet_Ioi fun R hR => ?_
  have hR' : (0 : ℝ) < R := hR
  simp only [sq_polar]
  rw [← mul_assoc, ← mul_assoc, ← ENNReal.ofReal_mul Real.pi_pos.le, ← ENNReal.ofReal_mul (by positivity)]
  congr 2
  field_simp

/-- An integral over two draws. -/
theorem draws (g : ℝ × ℝ → ℝ≥0∞) (hg : Measurable g) (h0 : ∀ v, v ∉ Ico (-1 : ℝ) 1 ×ˢ Ico (-1 : ℝ) 1 → g v = 0) :
    ∫⁻ d, g (point d) ∂(uniform.prod uniform) = ENNReal.ofReal (1 / 4) * ∫⁻ v, g v := by
  have h1 : ∀ h : ℝ → ℝ≥0∞, ∫⁻ u in Ico (0 : ℝ) 1, h (randomR (-1) 1 u) = ENNReal.ofReal (1 / 2) * ∫⁻ x in Ico (-1 : ℝ) 1, h x := by
    intro h
    have hi : (fun u => randomR (-1) 1 u) '' Ico (0 : ℝ) 1 = Ico (-1 : ℝ) 1 := by
      ext x
      constructor
      · rintro ⟨u, ⟨a, b⟩, rfl⟩
        constructor <;> simp only [randomR] <;> linarith
      · rintro ⟨a, b⟩
        refine ⟨(x + 1) / 2, ⟨by linarith, by linarith⟩, ?_⟩
        simp only [randomR]; ring
    have hd : ∀ u : ℝ, HasDerivAt (fun u => randomR (-1) 1 u) 2 u := by
      intro u
      have := ((hasDerivAt_id u).const_mul 2).const_add (-1)
      have e : (fun u => randomR (-1) 1 u) = fun x => -1 + 2 * id x := by
        funext x
        simp only [randomR, id]
        ring
      rw [e]
      exact this.congr_deriv (by norm_num)
    have hj : InjOn (fun u => randomR (-1) 1 u) (Ico (0 : ℝ) 1) := by
      intro a _ b _ hab
      simp only [randomR] at hab
      linarith
    rw [← hi, lintegral_image_eq_lintegral_abs_deriv_mul measurableSet_Ico (fun x _ => (hd x).hasDerivWithinAt) hj,
      lintegral_const_mul' _ _ ENNReal.ofReal_ne_top, ← mul_assoc, ← ENNReal.ofReal_mul (by norm_num)]
    norm_num
  have hp : Measurable point := by unfold point randomR; fun_prop
  have e1 : ∫⁻ v, g v = ∫⁻ v in Ico (-1 : ℝ) 1 ×ˢ Ico (-1 : ℝ) 1, g v := by
    rw [← lintegral_indicator (measurableSet_Ico.prod measurableSet_Ico)]
    congr 1
    funext v
    by_cases hv : v ∈ Ico (-1 : ℝ) 1 ×ˢ Ico (-1 : ℝ) 1
    · rw [indicator_of_mem hv]
    · rw [indicator_of_notMem hv, h0 v hv]
  rw [e1, Measure.volume_eq_prod, ← Measure.prod_restrict, lintegral_prod _ hg.aemeasurable, uniform,
    lintegral_prod (fun d => g (point d)) (hg.comp hp).aemeasurable]
  simp only [point]
  rw [h1 fun x => ∫⁻ u in Ico (0 : ℝ) 1, g (x, randomR (-1) 1 u)]
  have h2 : ∀ x, ∫⁻ u in Ico (0 : ℝ) 1, g (x, randomR (-1) 1 u) = ENNReal.ofReal (1 / 2) * ∫⁻ y in Ico (-1 : ℝ) 1, g (x, y) :=
    fun x => h1 fun y => g (x, y)
  simp only [h2]
  rw [lintegral_const_mul' _ _ ENNReal.ofReal_ne_top, ← mul_assoc, ← ENNReal.ofReal_mul (by norm_num)]
  norm_num

instance : IsProbabilityMeasure uniform := ⟨by simp [uniform]⟩

theorem pi_quarter : π / 4 ≤ 1 := by linarith [Real.pi_le_four]

open Classical in
theorem accepted_draws (f : ℝ × ℝ → ℝ≥0∞) (hf : Measurable f) :
    ∫⁻ d, (if Accepted (point d) then f (value (point d)) else 0) ∂(uniform.prod uniform) =
      ENNReal.ofReal (π / 4) * ∫⁻ p, f p ∂((gaussianReal 0 1).prod (gaussianReal 0 1)) := by
  have hm : Measurable fun v : ℝ × ℝ => if Accepted v then f (value v) else 0 :=
    Measurable.ite measurableSet_accepted (hf.comp measurable_value) measurable_const
  rw [draws (fun v => if Accepted v then f (value v) else 0) hm, accepted_integral f hf, ← mul_assoc,
    ← ENNReal.ofReal_mul (by norm_num)]
  · congr 2
    ring
  · intro v hv
    rw [if_neg]
    intro ha
    simp only [Accepted, sq] at ha
    push Not at ha
    apply hv
    refine ⟨⟨?_, ?_⟩, ⟨?_, ?_⟩⟩ <;> nlinarith [mul_self_nonneg v.1, mul_self_nonneg v.2]

theorem measurable_point : Measurable point := by unfold point randomR; fun_prop

theorem rejected : (uniform.prod uniform) {d | ¬ Accepted (point d)} = ENNReal.ofReal (1 - π / 4) := by
  classical
  have hs : MeasurableSet {d | Accepted (point d)} := measurable_point measurableSet_accepted
  have h1 : (uniform.prod uniform) {d | Accepted (point d)} = ENNReal.ofReal (π / 4) := by
    have := accepted_draws (fun _ => 1) measurable_const
    rw [lintegral_one, measure_univ, mul_one] at this
    rw [← this, ← lintegral_indicator_one hs]
    rfl
  have h2 : {d | ¬ Accepted (point d)} = {d | Accepted (point d)}ᶜ := rfl
  rw [h2, measure_compl hs (measure_ne_top _ _), h1, measure_univ, ENNReal.ofReal_sub _ (by positivity), ENNReal.ofReal_one]

/-- The law of the loop with at most `n` passes. -/
theorem pair_law (n : ℕ) :
    pair n = ENNReal.ofReal (1 - (1 - π / 4) ^ n) • (gaussianReal 0 1).prod (gaussianReal 0 1) := by
  classical
  induction n with
  | zero => simp [pair]
  | succ n ih =>
    ext B hB
    have hs : MeasurableSet {d | Accepted (point d)} := measurable_point measurableSet_accepted
    have hm : Measurable fun d : ℝ × ℝ => if Accepted (point d) then Measure.dirac (value (point d)) else pair n :=
      Measurable.ite hs (Measure.measurable_dirac.comp (measurable_value.comp measurable_point)) measurable_const
    have hsc : MeasurableSet {d | ¬ Accepted (point d)} := hs.compl
    have hq := pi_quarter
    have hpow : (1 - π / 4) ^ n ≤ 1 := pow_le_one₀ (by linarith) (by linarith [Real.pi_pos])
    have e0 : pair (n + 1) = (uniform.prod uniform).bind fun d =>
        if Accepted (point d) then Measure.dirac (value (point d)) else pair n := by
      rw [pair]
    rw [e0, Measure.bind_apply hB hm.aemeasurable]
    have e1 : ∀ d, (if Accepted (point d) then Measure.dirac (value (point d)) else pair n) B =
        (if Accepted (point d) then B.indicator 1 (value (point d)) else 0) +
          {d | ¬ Accepted (point d)}.indicator (fun _ => pair n B) d := by
      intro d
      by_cases ha : Accepted (point d)
      · simp [ha, Measure.dirac_apply' _ hB]
      · simp [ha]
    simp only [e1]
    have hmi : Measurable fun d : ℝ × ℝ => if Accepted (point d) then B.indicator (1 : ℝ × ℝ → ℝ≥0∞) (value (point d)) else 0 :=
      Measurable.ite hs ((measurable_one.indicator hB).comp (measurable_value.comp measurable_point)) measurable_const
    rw [lintegral_add_left hmi, accepted_draws _ (measurable_one.indicator hB), lintegral_indicator_one hB,
      lintegral_indicator_const hsc, rejected, ih]
    simp only [Measure.smul_apply, smul_eq_mul]
    rw [mul_right_comm, ← add_mul, ← ENNReal.ofReal_mul (by linarith), ← ENNReal.ofReal_add (by positivity)]
    · congr 2
      ring
    · exact mul_nonneg (by linarith) (by linarith)

/-! ### Integers -/

/-- The probability of a result between two limits, whether or not the limits themselves are included. -/
theorem between {L H a b : ℝ} (hLH : L < H) (ha : L ≤ a) (hab : a ≤ b) (hb : b ≤ H) (P : ℝ → Prop)
    (h1 : ∀ x, L ≤ x → x < H → a < x → x < b → P x) (h2 : ∀ x, L ≤ x → x < H → P x → a ≤ x ∧ x ≤ b) :
    uniform {u | P (randomR L H u)} = ENNReal.ofReal ((b - a) / (H - L)) := by
  have hd : 0 < H - L := by linarith
  rw [uniform, Measure.restrict_apply' measurableSet_Ico]
  have hin : ∀ u ∈ Ico (0 : ℝ) 1, L ≤ randomR L H u ∧ randomR L H u < H := by
    rintro u ⟨u0, u1⟩
    simp only [randomR]
    constructor <;> nlinarith
  have hvol : (b - L) / (H - L) - (a - L) / (H - L) = (b - a) / (H - L) := by
    rw [← sub_div]; congr 1; ring
  apply le_antisymm
  · have hsub : {u | P (randomR L H u)} ∩ Ico 0 1 ⊆ Icc ((a - L) / (H - L)) ((b - L) / (H - L)) := by
      rintro u ⟨hu, hI⟩
      obtain ⟨c1, c2⟩ := hin u hI
      obtain ⟨c3, c4⟩ := h2 _ c1 c2 hu
      simp only [randomR] at c3 c4
      constructor
      · rw [div_le_iff₀ hd]; nlinarith
      · rw [le_div_iff₀ hd]; nlinarith
    refine (measure_mono hsub).trans ?_
    rw [Real.volume_Icc, hvol]
  · have hsub : Ioo ((a - L) / (H - L)) ((b - L) / (H - L)) ⊆ {u | P (randomR L H u)} ∩ Ico 0 1 := by
      rintro u ⟨hu1, hu2⟩
      rw [div_lt_iff₀ hd] at hu1
      rw [lt_div_iff₀ hd] at hu2
      have hI : u ∈ Ico (0 : ℝ) 1 := by
        constructor
        · by_contra hc
          push Not at hc
          nlinarith
        · by_contra hc
          push Not at hc
          nlinarith
      obtain ⟨c1, c2⟩ := hin u hI
      refine ⟨h1 _ c1 c2 ?_ ?_, hI⟩ <;> simp only [randomR] <;> nlinarith
    refine le_trans ?_ (measure_mono hsub)
    rw [Real.volume_Ioo, hvol]

theorem trunc_pos {x : ℝ} {z : ℤ} (hz : 0 < z) : truncR x = z ↔ (z : ℝ) ≤ x ∧ x < z + 1 := by
  have hz' : (1 : ℝ) ≤ z := by exact_mod_cast hz
  unfold truncR
  split
  · rw [Int.floor_eq_iff]
  · next h =>
    constructor
    · intro e
      rw [Int.ceil_eq_iff] at e
      exfalso
      linarith [e.1]
    · intro e
      exfalso
      linarith [e.1]

theorem trunc_neg {x : ℝ} {z : ℤ} (hz : z < 0) : truncR x = z ↔ (z : ℝ) - 1 < x ∧ x ≤ z := by
  have hz' : (z : ℝ) ≤ -1 := by exact_mod_cast Int.le_sub_one_of_lt hz
  unfold truncR
  split
  · next h =>
    constructor
    · intro e
      rw [Int.floor_eq_iff] at e
      exfalso
      linarith [e.2]
    · intro e
      exfalso
      linarith [e.2]
  · rw [Int.ceil_eq_iff]

theorem trunc_zero {x : ℝ} : truncR x = 0 ↔ -1 < x ∧ x < 1 := by
  unfold truncR
  split
  · next h =>
    rw [Int.floor_eq_iff]
    push_cast
    constructor
    · intro e; constructor <;> linarith [e.2]
    · intro e; constructor <;> linarith [e.2]
  · next h =>
    rw [Int.ceil_eq_iff]
    push_cast
    constructor
    · intro e; constructor <;> linarith [e.1]
    · intro e; constructor <;> linarith [e.1]

/-! ### Two calls -/

/-- Two calls of `randomGaussian`, when no value is left of an earlier one, return the two values of the pair. -/
theorem two_calls (n : ℕ) (y : ℝ) : twoCalls n (false, y) = pair n := by
  have hm : Measurable fun p : ℝ × ℝ => (p.1, (true, p.2)) := by fun_prop
  have hc : Measurable fun r : ℝ × (Bool × ℝ) => (call n r.2).map fun r' => (r.1, r'.1) := by
    have e : (fun r : ℝ × (Bool × ℝ) => (call n r.2).map fun r' => (r.1, r'.1)) =
        fun r => if r.2.1 = true then Measure.dirac (r.1, r.2.2) else (pair n).map fun p => (r.1, p.1) := by
      funext r
      unfold call
      split
      · have hh : Measurable fun r' : ℝ × (Bool × ℝ) => (r.1, r'.1) := by fun_prop
        rw [Measure.map_dirac' hh]
      · rw [Measure.map_map (by fun_prop) hm]
        rfl
    rw [e]
    refine Measurable.ite (measurableSet_eq_fun (by fun_prop) measurable_const) ?_ ?_
    · exact Measure.measurable_dirac.comp (by fun_prop)
    · refine Measure.measurable_of_measurable_coe _ fun s hs => ?_
      have e2 : ∀ r : ℝ × (Bool × ℝ), ((pair n).map fun p => (r.1, p.1)) s = (pair n) (Prod.mk r.1 ⁻¹' ((fun q : ℝ × (ℝ × ℝ) => (q.1, q.2.1)) ⁻¹' s)) := by
        intro r
        rw [Measure.map_apply (by fun_prop) hs]
        rfl
      simp only [e2]
      have hfin : IsFiniteMeasure (pair n) := by
        rw [pair_law]
        exact ⟨by simp [ENNReal.mul_lt_top]⟩
      have := measurable_measure_prodMk_left (ν := pair n) (s := (fun q : ℝ × (ℝ × ℝ) => (q.1, q.2.1)) ⁻¹' s)
        ((by fun_prop : Measurable fun q : ℝ × (ℝ × ℝ) => (q.1, q.2.1)) hs)
      exact this.comp measurable_fst
  unfold twoCalls
  ext B hB
  rw [Measure.bind_apply hB hc.aemeasurable]
  have e : call n (false, y) = (pair n).map fun p => (p.1, (true, p.2)) := by simp [call]
  have hcB : Measurable fun r : ℝ × (Bool × ℝ) => ((call n r.2).map fun r' => (r.1, r'.1)) B := (Measure.measurable_coe hB).comp hc
  rw [e, lintegral_map hcB hm]
  have e3 : ∀ p : ℝ × ℝ, ((call n (true, p.2)).map fun r' => (p.1, r'.1)) B = B.indicator 1 p := by
    intro p
    simp only [call, if_true]
    have hh : Measurable fun r' : ℝ × (Bool × ℝ) => (p.1, r'.1) := by fun_prop
    rw [Measure.map_dirac' hh, Measure.dirac_apply' _ hB]
  simp only [e3]
  rw [lintegral_indicator_one hB]

end Verif.RandomDist
