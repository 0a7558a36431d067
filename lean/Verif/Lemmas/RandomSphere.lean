import Verif.Lemmas.RandomDist
import Mathlib.Analysis.SpecialFunctions.Trigonometric.Inverse
import Mathlib.Analysis.SpecialFunctions.Pow.Real

/-!
# Integrals in spherical coordinates

The integral over the unit ball, as one over three numbers of the unit interval: those that `randomPointInSphere` draws.
-/

open MeasureTheory Set Real
open scoped ENNReal

namespace Verif.RandomDist

/-- The angle around the axis. -/
theorem subst_theta (h : ℝ → ℝ≥0∞) :
    ∫⁻ t in Ioo (-π) π, h t = ENNReal.ofReal (2 * π) * ∫⁻ u in Ioo (0 : ℝ) 1, h (u * 2 * π - π) := by
  have hi : (fun u : ℝ => u * 2 * π - π) '' Ioo (0 : ℝ) 1 = Ioo (-π) π := by
    ext x
    simp only [mem_image, mem_Ioo]
    constructor
    · rintro ⟨u, ⟨h0, h1⟩, rfl⟩
      constructor <;> nlinarith [Real.pi_pos]
    · rintro ⟨h0, h1⟩
      refine ⟨(x + π) / (2 * π), ⟨by have := Real.pi_pos; exact div_pos (by linarith) (by linarith), ?_⟩, ?_⟩
      · rw [div_lt_one (by linarith [Real.pi_pos])]; linarith
      · have := Real.pi_ne_zero
        field_simp
        ring
  have hd : ∀ u ∈ Ioo (0 : ℝ) 1, HasDerivWithinAt (fun u : ℝ => u * 2 * π - π) (2 * π) (Ioo 0 1) u := by
    intro u _
    have := (((hasDerivAt_id u).mul_const 2).mul_const π).sub_const π
    simpa using this.hasDerivWithinAt
  have hj : InjOn (fun u : ℝ => u * 2 * π - π) (Ioo 0 1) := by
    intro a _ b _ hab
    have := Real.pi_pos
    simp only at hab
    have : a * (2 * π) = b * (2 * π) := by linarith
    exact mul_right_cancel₀ (by positivity) this
  rw [← hi, lintegral_image_eq_lintegral_abs_deriv_mul measurableSet_Ioo hd hj, lintegral_const_mul' _ _ ENNReal.ofReal_ne_top,
    abs_of_pos (by positivity)]

/-- The angle from the axis. -/
theorem subst_phi (h : ℝ → ℝ≥0∞) :
    ∫⁻ p in Ioo 0 π, ENNReal.ofReal (Real.sin p) * h p =
      ENNReal.ofReal 2 * ∫⁻ v in Ioo (0 : ℝ) 1, h (Real.arccos (2 * v - 1)) := by
  have hi : (fun p : ℝ => (1 + Real.cos p) / 2) '' Ioo 0 π = Ioo (0 : ℝ) 1 := by
    ext x
    simp only [mem_image, mem_Ioo]
    constructor
    · rintro ⟨p, ⟨h0, h1⟩, rfl⟩
      have a := Real.cos_lt_cos_of_nonneg_of_le_pi le_rfl h1.le h0
      have b := Real.cos_lt_cos_of_nonneg_of_le_pi h0.le le_rfl h1
      rw [Real.cos_zero] at a
      rw [Real.cos_pi] at b
      constructor <;> linarith
    · rintro ⟨h0, h1⟩
      refine ⟨Real.arccos (2 * x - 1), ⟨Real.arccos_pos.2 (by linarith), ?_⟩, ?_⟩
      · refine lt_of_le_of_ne (Real.arccos_le_pi _) fun hh => ?_
        rw [Real.arccos_eq_pi] at hh
        linarith
      · rw [Real.cos_arccos (by linarith) (by linarith)]
        ring
  have hd : ∀ p ∈ Ioo 0 π, HasDerivWithinAt (fun p : ℝ => (1 + Real.cos p) / 2) (-Real.sin p / 2) (Ioo 0 π) p := by
    intro p _
    exact (((Real.hasDerivAt_cos p).const_add 1).div_const 2).hasDerivWithinAt
  have hj : InjOn (fun p : ℝ => (1 + Real.cos p) / 2) (Ioo 0 π) := by
    intro a ha b hb hab
    simp only at hab
    exact Real.injOn_cos ⟨ha.1.le, ha.2.le⟩ ⟨hb.1.le, hb.2.le⟩ (by linarith)
  rw [← hi, lintegral_image_eq_lintegral_abs_deriv_mul measurableSet_Ioo hd hj, ← lintegral_const_mul' _ _ ENNReal.ofReal_ne_top]
  refine setLIntegral_congr_fun measurableSet_Ioo fun p hp => ?_
  have hs : 0 < Real.sin p := Real.sin_pos_of_pos_of_lt_pi hp.1 hp.2
  rw [← mul_assoc, ← ENNReal.ofReal_mul (by norm_num), show 2 * ((1 + Real.cos p) / 2) - 1 = Real.cos p by ring,
    Real.arccos_cos hp.1.le hp.2.le, neg_div, abs_neg, abs_of_pos (by positivity)]
  congr 2
  ring

/-- The radius. -/
theorem subst_radius (h : ℝ → ℝ≥0∞) (cbrt : ℝ → ℝ) (hc : ∀ x, 0 ≤ x → cbrt x ^ 3 = x) :
    ∫⁻ r in Ioo (0 : ℝ) 1, ENNReal.ofReal (r ^ 2) * h r = ENNReal.ofReal (1 / 3) * ∫⁻ t in Ioo (0 : ℝ) 1, h (cbrt t) := by
  have hcube : ∀ a b : ℝ, a ^ 3 = b ^ 3 → a = b := fun a b hab => (Odd.strictMono_pow (R := ℝ) (by decide : Odd 3)).injective hab
  have hi : (fun r : ℝ => r ^ 3) '' Ioo (0 : ℝ) 1 = Ioo (0 : ℝ) 1 := by
    ext x
    simp only [mem_image, mem_Ioo]
    constructor
    · rintro ⟨r, ⟨h0, h1⟩, rfl⟩
      exact ⟨by positivity, pow_lt_one₀ h0.le h1 (by norm_num)⟩
    · rintro ⟨h0, h1⟩
      have e := hc x h0.le
      refine ⟨cbrt x, ⟨?_, ?_⟩, e⟩
      · by_contra hn
        have : cbrt x ^ 3 ≤ 0 := Odd.pow_nonpos (by decide) (not_lt.1 hn)
        linarith
      · by_contra hn
        have : (1 : ℝ) ≤ cbrt x ^ 3 := one_le_pow₀ (not_lt.1 hn)
        linarith
  have hd : ∀ r ∈ Ioo (0 : ℝ) 1, HasDerivWithinAt (fun r : ℝ => r ^ 3) (3 * r ^ 2) (Ioo 0 1) r := by
    intro r _
    simpa using (hasDerivAt_pow 3 r).hasDerivWithinAt
  have hj : InjOn (fun r : ℝ => r ^ 3) (Ioo 0 1) := fun a _ b _ hab => hcube a b hab
  conv_rhs => rw [← hi]
  rw [lintegral_image_eq_lintegral_abs_deriv_mul measurableSet_Ioo hd hj, ← lintegral_const_mul' _ _ ENNReal.ofReal_ne_top]
  refine setLIntegral_congr_fun measurableSet_Ioo fun r hr => ?_
  have h0 : 0 < r := hr.1
  rw [← mul_assoc, ← ENNReal.ofReal_mul (by norm_num), abs_of_pos (by positivity), hcube _ _ (hc (r ^ 3) (by positivity))]
  congr 2
  ring

/-- An integral over the half plane above the axis, in polar coordinates. -/
theorem half_plane (k : ℝ → ℝ → ℝ≥0∞) (hk : Measurable fun p : ℝ × ℝ => k p.1 p.2) :
    ∫⁻ z, ∫⁻ s in Ioi (0 : ℝ), k z s =
      ∫⁻ p in Ioo 0 π, ∫⁻ r in Ioi (0 : ℝ), ENNReal.ofReal r * k (r * Real.cos p) (r * Real.sin p) := by
  have hm : Measurable fun p : ℝ × ℝ => (Ioi (0 : ℝ)).indicator (k p.1) p.2 := by
    have : (fun p : ℝ × ℝ => (Ioi (0 : ℝ)).indicator (k p.1) p.2) =
        {p : ℝ × ℝ | 0 < p.2}.indicator fun p => k p.1 p.2 := by
      funext p
      simp only [indicator, mem_Ioi, mem_setOf_eq]
    rw [this]
    exact hk.indicator (measurableSet_lt measurable_const measurable_snd)
  have h1 : ∫⁻ z, ∫⁻ s in Ioi (0 : ℝ), k z s = ∫⁻ p : ℝ × ℝ, (Ioi (0 : ℝ)).indicator (k p.1) p.2 := by
    rw [Measure.volume_eq_prod, lintegral_prod _ hm.aemeasurable]
    refine lintegral_congr fun z => ?_
    exact (lintegral_indicator measurableSet_Ioi (k z)).symm
  rw [h1, polar _ hm]
  have h2 : ∀ t ∈ Ioo (-π) π, (∫⁻ r in Ioi (0 : ℝ), ENNReal.ofReal r * (Ioi (0 : ℝ)).indicator (k (r * Real.cos t)) (r * Real.sin t)) =
      (Ioo 0 π).indicator (fun p => ∫⁻ r in Ioi (0 : ℝ), ENNReal.ofReal r * k (r * Real.cos p) (r * Real.sin p)) t := by
    intro t ht
    by_cases h0 : 0 < t
    · rw [indicator_of_mem (show t ∈ Ioo 0 π from ⟨h0, ht.2⟩)]
      refine setLIntegral_congr_fun measurableSet_Ioi fun r hr => ?_
      rw [indicator_of_mem (show r * Real.sin t ∈ Ioi (0 : ℝ) from mul_pos hr (Real.sin_pos_of_pos_of_lt_pi h0 ht.2))]
    · rw [indicator_of_notMem (show t ∉ Ioo 0 π from fun h => h0 h.1)]
      rw [setLIntegral_congr_fun (g := fun _ => 0) measurableSet_Ioi, lintegral_zero]
      intro r hr
      simp only
      rw [indicator_of_notMem, mul_zero]
      have := Real.sin_nonpos_of_nonpos_of_neg_pi_le (not_lt.1 h0) ht.1.le
      simp only [mem_Ioi, not_lt]
      exact mul_nonpos_of_nonneg_of_nonpos (le_of_lt hr) this
  rw [setLIntegral_congr_fun measurableSet_Ioo h2, lintegral_indicator measurableSet_Ioo, Measure.restrict_restrict measurableSet_Ioo]
  congr 2
  ext x
  simp only [mem_inter_iff, mem_Ioo]
  have := Real.pi_pos
  constructor
  · exact fun h => h.1
  · exact fun h => ⟨h, by linarith [h.1], h.2⟩

/-- The point of three numbers: the angle around the axis, that from it, and the radius. -/
noncomputable def ballPoint (cbrt : ℝ → ℝ) (u v t : ℝ) : ℝ × ℝ × ℝ :=
  (cbrt t * Real.sin (Real.arccos (2 * v - 1)) * Real.cos (u * 2 * π), cbrt t * Real.sin (Real.arccos (2 * v - 1)) * Real.sin (u * 2 * π),
    cbrt t * Real.cos (Real.arccos (2 * v - 1)))

/-- The open unit ball. -/
def ball : Set (ℝ × ℝ × ℝ) := {p | p.1 ^ 2 + p.2.1 ^ 2 + p.2.2 ^ 2 < 1}

theorem measurableSet_ball : MeasurableSet ball := by
  unfold ball
  exact measurableSet_lt (by fun_prop) measurable_const

/-- The axis outside. -/
theorem axis_outside (f : ℝ × ℝ × ℝ → ℝ≥0∞) (hf : Measurable f) :
    ∫⁻ p, f p = ∫⁻ z : ℝ, ∫⁻ q : ℝ × ℝ, f (q.1, q.2, z) := by
  rw [Measure.volume_eq_prod, lintegral_prod _ hf.aemeasurable]
  have h1 : ∀ x : ℝ, ∫⁻ q : ℝ × ℝ, f (x, q) = ∫⁻ y : ℝ, ∫⁻ z : ℝ, f (x, y, z) := by
    intro x
    rw [Measure.volume_eq_prod, lintegral_prod _ (by fun_prop)]
  simp only [h1]
  have hm : Measurable fun q : ℝ × ℝ => ∫⁻ z : ℝ, f (q.1, q.2, z) := by
    apply Measurable.lintegral_prod_right' (f := fun r : (ℝ × ℝ) × ℝ => f (r.1.1, r.1.2, r.2))
    fun_prop
  have h2 := lintegral_prod (μ := (volume : Measure ℝ)) (ν := (volume : Measure ℝ)) (fun q : ℝ × ℝ => ∫⁻ z : ℝ, f (q.1, q.2, z)) hm.aemeasurable
  rw [← h2, ← Measure.volume_eq_prod]
  exact lintegral_lintegral_swap (by fun_prop)

/-- The integral over the unit ball. -/
theorem ball_integral (cbrt : ℝ → ℝ) (hc : ∀ x, 0 ≤ x → cbrt x ^ 3 = x) (f : ℝ × ℝ × ℝ → ℝ≥0∞) (hf : Measurable f) :
    ∫⁻ p in ball, f p =
      ENNReal.ofReal (4 * π / 3) * ∫⁻ u in Ioo (0 : ℝ) 1, ∫⁻ v in Ioo (0 : ℝ) 1, ∫⁻ t in Ioo (0 : ℝ) 1, f (ballPoint cbrt u v t) := by
  set g := ball.indicator f with hg
  have hgm : Measurable g := hf.indicator measurableSet_ball
  rw [← lintegral_indicator measurableSet_ball, ← hg, axis_outside g hgm]
  have h1 : ∀ z : ℝ, ∫⁻ q : ℝ × ℝ, g (q.1, q.2, z) =
      ∫⁻ t in Ioo (-π) π, ∫⁻ s in Ioi (0 : ℝ), ENNReal.ofReal s * g (-(s * Real.cos t), -(s * Real.sin t), z) := by
    intro z
    rw [← lintegral_neg_eq_self (fun q : ℝ × ℝ => g (q.1, q.2, z)), polar _ (by fun_prop)]
    rfl
  simp only [h1]
  rw [lintegral_lintegral_swap]
  swap
  · apply Measurable.aemeasurable
    apply Measurable.lintegral_prod_right' (f := fun r : (ℝ × ℝ) × ℝ =>
      ENNReal.ofReal r.2 * g (-(r.2 * Real.cos r.1.2), -(r.2 * Real.sin r.1.2), r.1.1))
    fun_prop
  have h2 : ∀ t : ℝ, ∫⁻ z : ℝ, ∫⁻ s in Ioi (0 : ℝ), ENNReal.ofReal s * g (-(s * Real.cos t), -(s * Real.sin t), z) =
      ENNReal.ofReal (2 / 3) * ∫⁻ v in Ioo (0 : ℝ) 1, ∫⁻ τ in Ioo (0 : ℝ) 1,
        f (-(cbrt τ * Real.sin (Real.arccos (2 * v - 1)) * Real.cos t), -(cbrt τ * Real.sin (Real.arccos (2 * v - 1)) * Real.sin t),
          cbrt τ * Real.cos (Real.arccos (2 * v - 1))) := by
    intro t
    rw [half_plane (fun z s => ENNReal.ofReal s * g (-(s * Real.cos t), -(s * Real.sin t), z)) (by fun_prop)]
    have h3 : ∀ p ∈ Ioo 0 π, (∫⁻ r in Ioi (0 : ℝ), ENNReal.ofReal r * (ENNReal.ofReal (r * Real.sin p) *
          g (-(r * Real.sin p * Real.cos t), -(r * Real.sin p * Real.sin t), r * Real.cos p))) =
        ENNReal.ofReal (Real.sin p) * (ENNReal.ofReal (1 / 3) * ∫⁻ τ in Ioo (0 : ℝ) 1,
          f (-(cbrt τ * Real.sin p * Real.cos t), -(cbrt τ * Real.sin p * Real.sin t), cbrt τ * Real.cos p)) := by
      intro p hp
      have hs : 0 < Real.sin p := Real.sin_pos_of_pos_of_lt_pi hp.1 hp.2
      rw [← subst_radius (fun r => f (-(r * Real.sin p * Real.cos t), -(r * Real.sin p * Real.sin t), r * Real.cos p)) cbrt hc,
        ← lintegral_const_mul' _ _ ENNReal.ofReal_ne_top]
      have h4 : ∀ r ∈ Ioi (0 : ℝ), ENNReal.ofReal r * (ENNReal.ofReal (r * Real.sin p) *
          g (-(r * Real.sin p * Real.cos t), -(r * Real.sin p * Real.sin t), r * Real.cos p)) =
          (Ioo (0 : ℝ) 1).indicator (fun r => ENNReal.ofReal (Real.sin p) * (ENNReal.ofReal (r ^ 2) *
            f (-(r * Real.sin p * Real.cos t), -(r * Real.sin p * Real.sin t), r * Real.cos p))) r := by
        intro r hr
        have hr' : 0 < r := hr
        have hb : (-(r * Real.sin p * Real.cos t), -(r * Real.sin p * Real.sin t), r * Real.cos p) ∈ ball ↔ r < 1 := by
          have e : (-(r * Real.sin p * Real.cos t)) ^ 2 + (-(r * Real.sin p * Real.sin t)) ^ 2 + (r * Real.cos p) ^ 2 = r ^ 2 := by
            linear_combination r ^ 2 * Real.sin p ^ 2 * Real.sin_sq_add_cos_sq t + r ^ 2 * Real.sin_sq_add_cos_sq p
          simp only [ball, mem_setOf_eq, e]
          constructor
          · intro h; nlinarith
          · intro h; nlinarith
        by_cases h : r < 1
        · rw [hg, indicator_of_mem (hb.2 h), indicator_of_mem (show r ∈ Ioo (0 : ℝ) 1 from ⟨hr', h⟩), ← mul_assoc, ← mul_assoc,
            ← ENNReal.ofReal_mul hr'.le, ← ENNReal.ofReal_mul hs.le]
          congr 2
          ring
        · rw [hg, indicator_of_notMem (fun hh => h (hb.1 hh)), indicator_of_notMem (fun hh => h hh.2), mul_zero, mul_zero]
      rw [setLIntegral_congr_fun measurableSet_Ioi h4, lintegral_indicator measurableSet_Ioo, Measure.restrict_restrict measurableSet_Ioo]
      congr 2
      ext x
      simp only [mem_inter_iff, mem_Ioo, mem_Ioi]
      exact ⟨fun h => h.1, fun h => ⟨h, h.1⟩⟩
    rw [setLIntegral_congr_fun measurableSet_Ioo h3,
      subst_phi fun p => ENNReal.ofReal (1 / 3) * ∫⁻ τ in Ioo (0 : ℝ) 1,
          f (-(cbrt τ * Real.sin p * Real.cos t), -(cbrt τ * Real.sin p * Real.sin t), cbrt τ * Real.cos p),
      lintegral_const_mul' _ _ ENNReal.ofReal_ne_top, ← mul_assoc, ← ENNReal.ofReal_mul (by norm_num)]
    norm_num
  simp only [h2]
  rw [lintegral_const_mul' _ _ ENNReal.ofReal_ne_top, subst_theta, ← mul_assoc, ← ENNReal.ofReal_mul (by norm_num)]
  congr 2
  · ring
  · funext u
    simp only [Real.cos_sub_pi, Real.sin_sub_pi, mul_neg, neg_neg]
    rfl

end Verif.RandomDist
