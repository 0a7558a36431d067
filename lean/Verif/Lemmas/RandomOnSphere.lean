import Mathlib.MeasureTheory.Constructions.HaarToSphere
import Mathlib.MeasureTheory.Measure.Haar.InnerProductSpace
import Mathlib.MeasureTheory.Integral.Pi
import Mathlib.Probability.Distributions.Gaussian.Real

/-!
# The direction of a vector of independent normal numbers

The density of such a vector depends on its length only; so its direction falls into a set with the probability that is the share of the
cone over the set in the volume of the unit ball.
-/

open MeasureTheory Set Real ProbabilityTheory WithLp
open scoped ENNReal

namespace Verif.RandomDist

/-- Independent normal numbers have the product of the densities as a density. -/
theorem gauss_density (n : ℕ) :
    Measure.pi (fun _ : Fin n => gaussianReal 0 1) =
      volume.withDensity fun x : Fin n → ℝ => ENNReal.ofReal (∏ i, gaussianPDFReal 0 1 (x i)) := by
  refine Measure.pi_eq fun s hs => ?_
  have hnn : ∀ x : Fin n → ℝ, 0 ≤ ∏ i, gaussianPDFReal 0 1 (x i) := fun x => Finset.prod_nonneg fun i _ => gaussianPDFReal_nonneg 0 1 _
  rw [withDensity_apply _ (MeasurableSet.univ_pi hs), volume_pi, Measure.restrict_pi_pi,
    ← ofReal_integral_eq_lintegral_ofReal _ (Filter.Eventually.of_forall hnn)]
  · rw [integral_fintype_prod_eq_prod (fun _ : Fin n => gaussianPDFReal 0 1), ENNReal.ofReal_prod_of_nonneg]
    · exact Finset.prod_congr rfl fun i _ => (gaussianReal_apply_eq_integral 0 one_ne_zero (s i)).symm
    · exact fun i _ => integral_nonneg fun x => gaussianPDFReal_nonneg 0 1 x
  · exact Integrable.fintype_prod_dep (f := fun _ : Fin n => gaussianPDFReal 0 1)
      fun i => (integrable_gaussianPDFReal 0 1).restrict

/-- The density as a function of the length. -/
noncomputable def radialDensity (n : ℕ) (r : ℝ) : ℝ≥0∞ := ENNReal.ofReal ((√(2 * π))⁻¹ ^ n * Real.exp (-(r ^ 2) / 2))

theorem density_radial (n : ℕ) (x : EuclideanSpace ℝ (Fin n)) :
    ENNReal.ofReal (∏ i, gaussianPDFReal 0 1 (ofLp x i)) = radialDensity n ‖x‖ := by
  unfold radialDensity
  congr 1
  simp only [gaussianPDFReal, NNReal.coe_one, mul_one, sub_zero]
  rw [Finset.prod_mul_distrib, Finset.prod_const, Finset.card_univ, Fintype.card_fin, ← Real.exp_sum, ← Finset.sum_div,
    Finset.sum_neg_distrib, EuclideanSpace.real_norm_sq_eq]

/-- Integrals of a vector of normal numbers. -/
theorem gauss_integral (n : ℕ) (f : EuclideanSpace ℝ (Fin n) → ℝ≥0∞) (hf : Measurable f) :
    ∫⁻ g, f (toLp 2 g) ∂(Measure.pi fun _ : Fin n => gaussianReal 0 1) = ∫⁻ x, radialDensity n ‖x‖ * f x := by
  have hr : Measurable fun x : EuclideanSpace ℝ (Fin n) => radialDensity n ‖x‖ := by unfold radialDensity; fun_prop
  have hp : Measurable fun x : Fin n → ℝ => ENNReal.ofReal (∏ i, gaussianPDFReal 0 1 (x i)) := by fun_prop
  have h1 := (PiLp.volume_preserving_toLp (Fin n)).lintegral_comp (hr.mul hf)
  simp only [Pi.mul_apply] at h1
  rw [gauss_density, lintegral_withDensity_eq_lintegral_mul _ hp (by fun_prop), ← h1]
  refine lintegral_congr fun g => ?_
  simp only [Pi.mul_apply]
  rw [← density_radial]

/-- Integrals of functions of the direction times functions of the length. -/
theorem radial_direction (n : ℕ) (hn : 1 ≤ n) (h : ℝ → ℝ≥0∞) (hh : Measurable h) (S : Set (EuclideanSpace ℝ (Fin n))) (hS : MeasurableSet S) :
    ∫⁻ x : EuclideanSpace ℝ (Fin n), h ‖x‖ * S.indicator 1 (‖x‖⁻¹ • x) =
      (volume : Measure (EuclideanSpace ℝ (Fin n))).toSphere {s | (s : EuclideanSpace ℝ (Fin n)) ∈ S} *
        ∫⁻ r : Ioi (0 : ℝ), h r ∂(Measure.volumeIoiPow (n - 1)) := by
  haveI : Nonempty (Fin n) := ⟨⟨0, hn⟩⟩
  have hd : Module.finrank ℝ (EuclideanSpace ℝ (Fin n)) = n := finrank_euclideanSpace_fin
  have hm0 : Measurable fun x : EuclideanSpace ℝ (Fin n) => h ‖x‖ * S.indicator (1 : EuclideanSpace ℝ (Fin n) → ℝ≥0∞) (‖x‖⁻¹ • x) := by
    have : Measurable (S.indicator (1 : EuclideanSpace ℝ (Fin n) → ℝ≥0∞)) := measurable_one.indicator hS
    fun_prop
  have h1 : ∫⁻ x : EuclideanSpace ℝ (Fin n), h ‖x‖ * S.indicator 1 (‖x‖⁻¹ • x) =
      ∫⁻ x : ({0}ᶜ : Set (EuclideanSpace ℝ (Fin n))), h ‖(x : EuclideanSpace ℝ (Fin n))‖ *
        S.indicator 1 (‖(x : EuclideanSpace ℝ (Fin n))‖⁻¹ • (x : EuclideanSpace ℝ (Fin n))) ∂(volume.comap Subtype.val) := by
    rw [lintegral_subtype_comap (measurableSet_singleton _).compl
      fun x : EuclideanSpace ℝ (Fin n) => h ‖x‖ * S.indicator 1 (‖x‖⁻¹ • x), restrict_compl_singleton]
  have hmp := (volume : Measure (EuclideanSpace ℝ (Fin n))).measurePreserving_homeomorphUnitSphereProd
  rw [hd] at hmp
  have hm : Measurable fun p : Metric.sphere (0 : EuclideanSpace ℝ (Fin n)) 1 × Ioi (0 : ℝ) =>
      S.indicator (1 : EuclideanSpace ℝ (Fin n) → ℝ≥0∞) p.1 * h p.2 := by
    have : Measurable (S.indicator (1 : EuclideanSpace ℝ (Fin n) → ℝ≥0∞)) := measurable_one.indicator hS
    exact (this.comp (measurable_subtype_coe.comp measurable_fst)).mul (hh.comp (measurable_subtype_coe.comp measurable_snd))
  have h2 := hmp.lintegral_comp hm
  have h3 : ∀ x : ({0}ᶜ : Set (EuclideanSpace ℝ (Fin n))), h ‖(x : EuclideanSpace ℝ (Fin n))‖ *
        S.indicator 1 (‖(x : EuclideanSpace ℝ (Fin n))‖⁻¹ • (x : EuclideanSpace ℝ (Fin n))) =
      S.indicator (1 : EuclideanSpace ℝ (Fin n) → ℝ≥0∞) (homeomorphUnitSphereProd (EuclideanSpace ℝ (Fin n)) x).1 *
        h (homeomorphUnitSphereProd (EuclideanSpace ℝ (Fin n)) x).2 := by
    intro x
    rw [mul_comm, homeomorphUnitSphereProd_apply_fst_coe, homeomorphUnitSphereProd_apply_snd_coe]
  rw [h1, lintegral_congr h3, h2, lintegral_prod_mul (f := fun s : Metric.sphere (0 : EuclideanSpace ℝ (Fin n)) 1 =>
    S.indicator (1 : EuclideanSpace ℝ (Fin n) → ℝ≥0∞) s) (g := fun r : Ioi (0 : ℝ) => h r)]
  · congr 1
    have : (fun s : Metric.sphere (0 : EuclideanSpace ℝ (Fin n)) 1 => S.indicator (1 : EuclideanSpace ℝ (Fin n) → ℝ≥0∞) s) =
        ({s : Metric.sphere (0 : EuclideanSpace ℝ (Fin n)) 1 | (s : EuclideanSpace ℝ (Fin n)) ∈ S}).indicator 1 := by
      funext s
      simp only [indicator, mem_setOf_eq]
      rfl
    rw [this, lintegral_indicator_one]
    exact measurable_subtype_coe hS
  · exact ((measurable_one.indicator hS).comp measurable_subtype_coe).aemeasurable
  · exact (hh.comp measurable_subtype_coe).aemeasurable

/-- The vector divided by its length. -/
noncomputable def unitOf {n : ℕ} (x : Fin n → ℝ) : Fin n → ℝ := fun i => x i / √(∑ j, x j * x j)

theorem unitOf_eq {n : ℕ} (x : Fin n → ℝ) : unitOf x = ofLp (‖toLp 2 x‖⁻¹ • toLp 2 x) := by
  funext i
  rw [EuclideanSpace.norm_eq]
  simp only [unitOf, PiLp.smul_apply, smul_eq_mul, Real.norm_eq_abs, sq_abs]
  rw [div_eq_inv_mul]
  simp only [pow_two]

theorem measurable_unitOf {n : ℕ} : Measurable (unitOf (n := n)) := by
  unfold unitOf
  fun_prop

theorem norm_lt_one {n : ℕ} (x : Fin n → ℝ) : ‖toLp 2 x‖ < 1 ↔ ∑ j, x j * x j < 1 := by
  rw [EuclideanSpace.norm_eq, Real.sqrt_lt' one_pos]
  simp only [Real.norm_eq_abs, sq_abs, one_pow]
  simp only [pow_two]

/-- The direction of independent normal numbers. -/
theorem direction (n : ℕ) (hn : 1 ≤ n) (S : Set (Fin n → ℝ)) (hS : MeasurableSet S) :
    (Measure.pi fun _ : Fin n => gaussianReal 0 1) {g | unitOf g ∈ S} =
      volume {x : Fin n → ℝ | ∑ j, x j * x j < 1 ∧ unitOf x ∈ S} / volume {x : Fin n → ℝ | ∑ j, x j * x j < 1} := by
  set S' : Set (EuclideanSpace ℝ (Fin n)) := ofLp ⁻¹' S with hS'
  have hm' : MeasurableSet S' := (PiLp.volume_preserving_ofLp (Fin n)).measurable hS
  haveI : Nonempty (Fin n) := ⟨⟨0, hn⟩⟩
  set T := (volume : Measure (EuclideanSpace ℝ (Fin n))).toSphere with hT
  have hind : ∀ {A : Set (EuclideanSpace ℝ (Fin n))}, MeasurableSet A → Measurable (A.indicator (1 : EuclideanSpace ℝ (Fin n) → ℝ≥0∞)) :=
    fun hA => measurable_one.indicator hA
  -- normal numbers
  have hG : ∀ A : Set (EuclideanSpace ℝ (Fin n)), MeasurableSet A →
      (Measure.pi fun _ : Fin n => gaussianReal 0 1) {g | ‖toLp 2 g‖⁻¹ • toLp 2 g ∈ A} =
        T {s | (s : EuclideanSpace ℝ (Fin n)) ∈ A} * ∫⁻ r : Ioi (0 : ℝ), radialDensity n r ∂(Measure.volumeIoiPow (n - 1)) := by
    intro A hA
    have hi := hind hA
    rw [← radial_direction n hn (radialDensity n) (by unfold radialDensity; fun_prop) A hA,
      ← gauss_integral n (fun x => A.indicator 1 (‖x‖⁻¹ • x)) (by fun_prop), ← lintegral_indicator_one]
    · refine lintegral_congr fun g => ?_
      simp only [indicator, mem_setOf_eq]
      rfl
    · have : Measurable fun g : Fin n → ℝ => ‖toLp 2 g‖⁻¹ • toLp 2 g := by fun_prop
      exact this hA
  -- the ball
  have hB : ∀ A : Set (EuclideanSpace ℝ (Fin n)), MeasurableSet A →
      volume {x : Fin n → ℝ | ∑ j, x j * x j < 1 ∧ ‖toLp 2 x‖⁻¹ • toLp 2 x ∈ A} =
        T {s | (s : EuclideanSpace ℝ (Fin n)) ∈ A} * ∫⁻ r : Ioi (0 : ℝ), (Iio (1 : ℝ)).indicator 1 (r : ℝ) ∂(Measure.volumeIoiPow (n - 1)) := by
    intro A hA
    have hi := hind hA
    have hj : Measurable ((Iio (1 : ℝ)).indicator (1 : ℝ → ℝ≥0∞)) := measurable_one.indicator measurableSet_Iio
    have hmm : Measurable fun x : EuclideanSpace ℝ (Fin n) => (Iio (1 : ℝ)).indicator (1 : ℝ → ℝ≥0∞) ‖x‖ * A.indicator 1 (‖x‖⁻¹ • x) := by
      fun_prop
    rw [← radial_direction n hn ((Iio (1 : ℝ)).indicator 1) hj A hA, ← (PiLp.volume_preserving_toLp (Fin n)).lintegral_comp hmm,
      ← lintegral_indicator_one]
    · refine lintegral_congr fun x => ?_
      set C := {x : Fin n → ℝ | ∑ j, x j * x j < 1 ∧ ‖toLp 2 x‖⁻¹ • toLp 2 x ∈ A} with hC
      by_cases h1 : ∑ j, x j * x j < 1
      · by_cases h2 : ‖toLp 2 x‖⁻¹ • toLp 2 x ∈ A
        · rw [indicator_of_mem (show x ∈ C from ⟨h1, h2⟩), indicator_of_mem (show ‖toLp 2 x‖ ∈ Iio (1 : ℝ) from (norm_lt_one x).2 h1),
            indicator_of_mem h2]
          simp
        · rw [indicator_of_notMem (show x ∉ C from fun h => h2 h.2), indicator_of_notMem h2, mul_zero]
      · rw [indicator_of_notMem (show x ∉ C from fun h => h1 h.1),
          indicator_of_notMem (show ‖toLp 2 x‖ ∉ Iio (1 : ℝ) from fun h => h1 ((norm_lt_one x).1 h)), zero_mul]
    · have h1 : Measurable fun g : Fin n → ℝ => ‖toLp 2 g‖⁻¹ • toLp 2 g := by fun_prop
      have h2 : MeasurableSet {x : Fin n → ℝ | ∑ j, x j * x j < 1} := measurableSet_lt (by fun_prop) measurable_const
      exact h2.inter (h1 hA)
  have e1 : {g : Fin n → ℝ | unitOf g ∈ S} = {g | ‖toLp 2 g‖⁻¹ • toLp 2 g ∈ S'} := by
    ext g
    simp only [mem_setOf_eq, unitOf_eq, hS', mem_preimage]
  have e2 : {x : Fin n → ℝ | ∑ j, x j * x j < 1 ∧ unitOf x ∈ S} = {x | ∑ j, x j * x j < 1 ∧ ‖toLp 2 x‖⁻¹ • toLp 2 x ∈ S'} := by
    ext g
    simp only [mem_setOf_eq, unitOf_eq, hS', mem_preimage]
  have e3 : {x : Fin n → ℝ | ∑ j, x j * x j < 1} = {x | ∑ j, x j * x j < 1 ∧ ‖toLp 2 x‖⁻¹ • toLp 2 x ∈ (univ : Set (EuclideanSpace ℝ (Fin n)))} := by
    ext g
    simp only [mem_setOf_eq, mem_univ, and_true]
  have hv : volume {x : Fin n → ℝ | ∑ j, x j * x j < 1} = volume (Metric.ball (0 : EuclideanSpace ℝ (Fin n)) 1) := by
    rw [← (PiLp.volume_preserving_toLp (Fin n)).measure_preimage Metric.isOpen_ball.measurableSet.nullMeasurableSet]
    congr 1
    ext x
    simp only [mem_setOf_eq, mem_preimage, mem_ball_zero_iff, norm_lt_one]
  have hv0 : volume {x : Fin n → ℝ | ∑ j, x j * x j < 1} ≠ 0 := by
    rw [hv]; exact (Metric.measure_ball_pos _ _ one_pos).ne'
  have hv1 : volume {x : Fin n → ℝ | ∑ j, x j * x j < 1} ≠ ⊤ := by
    rw [hv]; exact measure_ball_lt_top.ne
  have g1 := hG univ MeasurableSet.univ
  have b1 := hB univ MeasurableSet.univ
  rw [← e3] at b1
  simp only [mem_univ, setOf_true, measure_univ] at g1 b1
  rw [e1, e2, hG S' hm', hB S' hm', b1]
  rw [b1] at hv0 hv1
  generalize (∫⁻ r : Ioi (0 : ℝ), radialDensity n r ∂(Measure.volumeIoiPow (n - 1))) = C at g1 ⊢
  generalize (∫⁻ r : Ioi (0 : ℝ), (Iio (1 : ℝ)).indicator 1 (r : ℝ) ∂(Measure.volumeIoiPow (n - 1))) = B at hv0 hv1 ⊢
  have t0 : T univ ≠ 0 := left_ne_zero_of_mul hv0
  have t1 : T univ ≠ ⊤ := measure_ne_top _ _
  have b0 : B ≠ 0 := right_ne_zero_of_mul hv0
  have b2 : B ≠ ⊤ := fun h => hv1 (by rw [h, ENNReal.mul_top t0])
  rw [ENNReal.mul_div_mul_right _ _ b0 b2, ENNReal.div_eq_inv_mul, mul_comm]
  congr 1
  exact ENNReal.eq_inv_of_mul_eq_one_left (by rw [mul_comm]; exact g1.symm)

end Verif.RandomDist
