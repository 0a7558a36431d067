import Verif.Lemmas.RandomDist
import Verif.Model.RandomSphere

/-!
# Filling a vector with normal numbers

The calls of `randomGaussian` in a loop return independent normal numbers.
-/

open MeasureTheory Set Real ProbabilityTheory
open scoped ENNReal

namespace Verif.RandomDist

theorem measurable_snoc (k : ℕ) : Measurable fun p : (Fin k → ℝ) × ℝ => (Fin.snoc p.1 p.2 : Fin (k + 1) → ℝ) := by
  refine measurable_pi_iff.2 fun i => ?_
  refine Fin.lastCases ?_ (fun j => ?_) i
  · simp only [Fin.snoc_last]
    exact measurable_snd
  · simp only [Fin.snoc_castSucc]
    fun_prop

/-- One more independent number. -/
theorem pi_snoc (k : ℕ) (μ : Measure ℝ) [IsProbabilityMeasure μ] (F : (Fin (k + 1) → ℝ) → ℝ≥0∞) (hF : Measurable F) :
    ∫⁻ h, F h ∂(Measure.pi fun _ : Fin (k + 1) => μ) = ∫⁻ g, ∫⁻ x, F (Fin.snoc g x) ∂μ ∂(Measure.pi fun _ : Fin k => μ) := by
  have hmp := (measurePreserving_piFinSuccAbove (fun _ : Fin (k + 1) => μ) (Fin.last k)).symm
  have hm : Measurable fun a : ℝ × (Fin k → ℝ) => F ((MeasurableEquiv.piFinSuccAbove (fun _ : Fin (k + 1) => ℝ) (Fin.last k)).symm a) :=
    hF.comp (MeasurableEquiv.measurable _)
  rw [← hmp.lintegral_comp hF, lintegral_prod_symm _ hm.aemeasurable]
  refine lintegral_congr fun g => lintegral_congr fun x => ?_
  congr 1
  exact Fin.insertNth_last (α := fun _ => ℝ) x g

/-- The probability of a return within `n` passes. -/
noncomputable def within (n : ℕ) : ℝ≥0∞ := ENNReal.ofReal (1 - (1 - π / 4) ^ n)

theorem pair_within (n : ℕ) : pair n = within n • (gaussianReal 0 1).prod (gaussianReal 0 1) := pair_law n

instance (n : ℕ) : IsFiniteMeasure (pair n) := by
  rw [pair_within]
  exact ⟨by
    rw [Measure.smul_apply, measure_univ, smul_eq_mul, mul_one]
    exact ENNReal.ofReal_lt_top⟩

/-- A pass of the loop. -/
noncomputable def fillStep (n k : ℕ) (r : (Fin k → ℝ) × (Bool × ℝ)) : Measure ((Fin (k + 1) → ℝ) × (Bool × ℝ)) :=
  (call n r.2).map fun q => (Fin.snoc r.1 q.1, q.2)

theorem measurable_store (k : ℕ) (g : Fin k → ℝ) :
    Measurable fun q : ℝ × (Bool × ℝ) => ((Fin.snoc g q.1 : Fin (k + 1) → ℝ), q.2) :=
  ((measurable_snoc k).comp (measurable_const.prodMk measurable_fst)).prodMk measurable_snd

theorem fillStep_true (n k : ℕ) (g : Fin k → ℝ) (y : ℝ) : fillStep n k (g, (true, y)) = Measure.dirac (Fin.snoc g y, (false, y)) := by
  unfold fillStep call
  simp only [if_true]
  rw [Measure.map_dirac' (measurable_store k g)]

theorem fillStep_false (n k : ℕ) (g : Fin k → ℝ) (y : ℝ) :
    fillStep n k (g, (false, y)) = (pair n).map fun p => ((Fin.snoc g p.1 : Fin (k + 1) → ℝ), (true, p.2)) := by
  unfold fillStep call
  simp only [Bool.false_eq_true, if_false]
  rw [Measure.map_map (measurable_store k g) (by fun_prop)]
  rfl

theorem measurable_fillStep (n k : ℕ) : Measurable (fillStep n k) := by
  have h : fillStep n k = fun r => if r.2.1 = true then Measure.dirac ((Fin.snoc r.1 r.2.2 : Fin (k + 1) → ℝ), (false, r.2.2)) else
      ((pair n).map (Prod.mk r)).map fun s : ((Fin k → ℝ) × (Bool × ℝ)) × (ℝ × ℝ) =>
        ((Fin.snoc s.1.1 s.2.1 : Fin (k + 1) → ℝ), (true, s.2.2)) := by
    funext r
    obtain ⟨g, b, y⟩ := r
    cases b
    · rw [fillStep_false]
      simp only [Bool.false_eq_true, if_false]
      rw [Measure.map_map _ (by fun_prop)]
      · rfl
      · exact ((measurable_snoc k).comp (f := fun s : ((Fin k → ℝ) × (Bool × ℝ)) × (ℝ × ℝ) => (s.1.1, s.2.1)) (by fun_prop)).prodMk (by fun_prop)
    · rw [fillStep_true]
      simp only [if_true]
  rw [h]
  refine Measurable.ite ?_ ?_ ?_
  · have : Measurable fun r : (Fin k → ℝ) × (Bool × ℝ) => r.2.1 := by fun_prop
    exact this (measurableSet_singleton true)
  · refine Measure.measurable_dirac.comp ?_
    exact ((measurable_snoc k).comp (f := fun r : (Fin k → ℝ) × (Bool × ℝ) => (r.1, r.2.2)) (by fun_prop)).prodMk (by fun_prop)
  · refine (Measure.measurable_map _ ?_).comp Measurable.map_prodMk_left
    exact ((measurable_snoc k).comp (f := fun s : ((Fin k → ℝ) × (Bool × ℝ)) × (ℝ × ℝ) => (s.1.1, s.2.1)) (by fun_prop)).prodMk (by fun_prop)

theorem fillLoop_succ (n k : ℕ) (st : Bool × ℝ) (f : (Fin (k + 1) → ℝ) × (Bool × ℝ) → ℝ≥0∞) (hf : Measurable f) :
    ∫⁻ r, f r ∂(fillLoop n st (k + 1)) = ∫⁻ r, ∫⁻ q, f q ∂(fillStep n k r) ∂(fillLoop n st k) := by
  change ∫⁻ r, f r ∂((fillLoop n st k).bind (fillStep n k)) = _
  exact Measure.lintegral_bind (measurable_fillStep n k).aemeasurable hf.aemeasurable

theorem step_false (n k : ℕ) (g : Fin k → ℝ) (y : ℝ) (f : (Fin (k + 1) → ℝ) × (Bool × ℝ) → ℝ≥0∞) (hf : Measurable f) :
    ∫⁻ q, f q ∂(fillStep n k (g, (false, y))) =
      within n * ∫⁻ x, ∫⁻ z, f (Fin.snoc g x, (true, z)) ∂(gaussianReal 0 1) ∂(gaussianReal 0 1) := by
  have hm : Measurable fun p : ℝ × ℝ => ((Fin.snoc g p.1 : Fin (k + 1) → ℝ), (true, p.2)) :=
    ((measurable_snoc k).comp (f := fun p : ℝ × ℝ => (g, p.1)) (by fun_prop)).prodMk (by fun_prop)
  have hm' : Measurable fun p : ℝ × ℝ => f (Fin.snoc g p.1, (true, p.2)) := hf.comp hm
  rw [fillStep_false, lintegral_map hf hm, pair_within, lintegral_smul_measure, smul_eq_mul, lintegral_prod _ hm'.aemeasurable]

/-- After an even number of calls. -/
theorem fill_even (n : ℕ) (y : ℝ) (m : ℕ) : ∃ Y : (Fin (2 * m) → ℝ) → ℝ, Measurable Y ∧
    ∀ f : (Fin (2 * m) → ℝ) × (Bool × ℝ) → ℝ≥0∞, Measurable f →
      ∫⁻ r, f r ∂(fillLoop n (false, y) (2 * m)) = within n ^ m * ∫⁻ g, f (g, (false, Y g)) ∂(Measure.pi fun _ : Fin (2 * m) => gaussianReal 0 1) := by
  induction m with
  | zero =>
    refine ⟨fun _ => y, measurable_const, fun f hf => ?_⟩
    change ∫⁻ r, f r ∂(Measure.dirac (Fin.elim0, (false, y))) = _
    rw [lintegral_dirac' _ hf, pow_zero, one_mul]
    have : ∀ g : Fin (2 * 0) → ℝ, f (g, (false, y)) = f (Fin.elim0, (false, y)) := fun g => by
      congr 2
      funext i
      exact i.elim0
    rw [lintegral_congr this, lintegral_const, measure_univ, mul_one]
  | succ m ih =>
    obtain ⟨Y, hY, h⟩ := ih
    refine ⟨fun g => g (Fin.last (2 * m + 1)), by fun_prop, fun (f : (Fin (2 * m + 1 + 1) → ℝ) × (Bool × ℝ) → ℝ≥0∞) (hf : Measurable f) => ?_⟩
    change ∫⁻ r, f r ∂(fillLoop n (false, y) (2 * m + 1 + 1)) =
      within n ^ (m + 1) * ∫⁻ g, f (g, (false, g (Fin.last (2 * m + 1)))) ∂(Measure.pi fun _ : Fin (2 * m + 1 + 1) => gaussianReal 0 1)
    have hK : Measurable fun r => ∫⁻ q, f q ∂(fillStep n (2 * m + 1) r) :=
      (Measure.measurable_lintegral hf).comp (measurable_fillStep n (2 * m + 1))
    have hK0 : Measurable fun r => ∫⁻ q, (∫⁻ q', f q' ∂(fillStep n (2 * m + 1) q)) ∂(fillStep n (2 * m) r) :=
      (Measure.measurable_lintegral hK).comp (measurable_fillStep n (2 * m))
    have hF : Measurable fun g : Fin (2 * m + 1 + 1) → ℝ => f (g, (false, g (Fin.last (2 * m + 1)))) := by fun_prop
    have hs : Measurable fun p : (Fin (2 * m + 1) → ℝ) × ℝ => f (Fin.snoc p.1 p.2, (false, p.2)) :=
      hf.comp ((measurable_snoc (2 * m + 1)).prodMk (by fun_prop))
    rw [fillLoop_succ _ _ _ _ hf, fillLoop_succ _ _ _ _ hK, h _ hK0, pi_snoc _ _ _ hF, pi_snoc (2 * m)]
    · rw [pow_succ, mul_assoc]
      congr 1
      rw [← lintegral_const_mul' _ _ (show within n ≠ ⊤ from ENNReal.ofReal_ne_top)]
      refine lintegral_congr fun g => ?_
      rw [step_false _ _ _ _ _ hK]
      congr 1
      refine lintegral_congr fun x => lintegral_congr fun z => ?_
      rw [fillStep_true, lintegral_dirac' _ hf]
      congr 3
      exact (Fin.snoc_last (α := fun _ => ℝ) z _).symm
    · simp only [Fin.snoc_last]
      exact hs.lintegral_prod_right'

/-- The numbers returned by `k` calls. -/
theorem fill_law (n : ℕ) (y : ℝ) (k : ℕ) (F : (Fin k → ℝ) → ℝ≥0∞) (hF : Measurable F) :
    ∫⁻ r, F r.1 ∂(fillLoop n (false, y) k) = within n ^ ((k + 1) / 2) * ∫⁻ g, F g ∂(Measure.pi fun _ : Fin k => gaussianReal 0 1) := by
  rcases Nat.even_or_odd' k with ⟨m, rfl | rfl⟩
  · obtain ⟨Y, -, h⟩ := fill_even n y m
    rw [h (fun r => F r.1) (hF.comp measurable_fst), show (2 * m + 1) / 2 = m by omega]
  · obtain ⟨Y, -, h⟩ := fill_even n y m
    have hf : Measurable fun r : (Fin (2 * m + 1) → ℝ) × (Bool × ℝ) => F r.1 := hF.comp measurable_fst
    have hK : Measurable fun r => ∫⁻ q, F q.1 ∂(fillStep n (2 * m) r) :=
      (Measure.measurable_lintegral hf).comp (measurable_fillStep n (2 * m))
    rw [fillLoop_succ _ _ _ _ hf, h _ hK, show (2 * m + 1 + 1) / 2 = m + 1 by omega, pi_snoc _ _ _ hF, pow_succ, mul_assoc]
    congr 1
    rw [← lintegral_const_mul' _ _ (show within n ≠ ⊤ from ENNReal.ofReal_ne_top)]
    refine lintegral_congr fun g => ?_
    rw [step_false _ _ _ _ _ hf]
    congr 1
    refine lintegral_congr fun x => ?_
    simp only
    rw [lintegral_const, measure_univ, mul_one]

end Verif.RandomDist
