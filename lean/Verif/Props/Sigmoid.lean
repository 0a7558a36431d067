import Verif.Model.Sigmoid
import Verif.Lemmas.Ieee
import Mathlib.Analysis.SpecialFunctions.Sigmoid
import Mathlib.Analysis.Complex.ExponentialBounds

/-!
# C59: the sigmoid activation
-/

namespace Verif.Sigmoid

open Ieee

theorem forward_eq : forward = Real.sigmoid := by
  funext x
  unfold forward
  rw [Real.sigmoid_def, one_div]

/-- **C59 (exact arithmetic).** The values lie strictly between 0 and 1, increase strictly, and `backward` of them is the derivative. -/
theorem C59_exact_partial :
    (∀ x, 0 < forward x ∧ forward x < 1) ∧ (∀ x y, x < y → forward x < forward y) ∧
    (∀ x, HasDerivAt forward (backward (forward x)) x) ∧
    (∀ xs : List ℝ, backwardArr (forwardArr xs) = xs.map (deriv forward)) := by
  have hd : ∀ x, HasDerivAt forward (backward (forward x)) x := by
    intro x
    rw [forward_eq]
    exact Real.hasDerivAt_sigmoid x
  refine ⟨fun x => ?_, fun x y h => ?_, hd, fun xs => ?_⟩
  · rw [forward_eq]; exact ⟨Real.sigmoid_pos x, Real.sigmoid_lt_one x⟩
  · rw [forward_eq]; exact Real.sigmoid_strictMono h
  · unfold backwardArr forwardArr
    rw [List.map_map]
    exact List.map_congr_left fun x _ => ((hd x).deriv).symm

/-- The property in `double` arithmetic, as far as the values are concerned. -/
def C59Claim (mexp : ℚ → ℚ) : Prop :=
  ∀ x, 0 < forwardFl (rnd binary64) mexp x ∧ forwardFl (rnd binary64) mexp x < 1

/-- An exponential that is right to within `2^-60`; those of the C libraries are for arguments as small as here. -/
def GoodExp (mexp : ℚ → ℚ) : Prop := ∀ q : ℚ, q ≤ -30 → 0 ≤ mexp q ∧ ((mexp q : ℚ) : ℝ) ≤ Real.exp q + 2 ^ (-60 : Int)

theorem exp_neg_40 : Real.exp (-40) ≤ 1 / 2 ^ 57 := by
  have h1 : Real.exp (-40) = (Real.exp 1 ^ 40)⁻¹ := by
    rw [← Real.exp_nat_mul, ← Real.exp_neg]; norm_num
  rw [h1, one_div]
  apply inv_anti₀ (by positivity)
  have h2 : (2.7182818283 : ℝ) < Real.exp 1 := Real.exp_one_gt_d9
  calc (2 : ℝ) ^ 57 ≤ 2.7182818283 ^ 40 := by norm_num
    _ ≤ _ := pow_le_pow_left₀ (by norm_num) h2.le 40

theorem rnd_one_add {e : ℚ} (h0 : 0 ≤ e) (h1 : e ≤ 1 / 2 ^ 54) : rnd binary64 (1 + e) = 1 := by
  apply le_antisymm
  · have : rnd binary64 (1 + 1 / 2 ^ 54) = 1 := by decide +kernel
    rw [← this]
    exact rnd_mono (by linarith)
  · have h : Repr binary64 1 := by
      have := repr_int (f := binary64) (n := 1) (by decide) (by decide)
      simpa using this
    exact le_rnd_of_repr h (by linarith)

/-- **C59 (disproved for `double`).** With any such exponential, `forward(40)` is 1, and `backward` of it is 0 while the derivative is
positive. -/
theorem C59_false (mexp : ℚ → ℚ) (h : GoodExp mexp) :
    ¬ C59Claim mexp ∧ forwardFl (rnd binary64) mexp 40 = 1 ∧
    backwardFl (rnd binary64) (forwardFl (rnd binary64) mexp 40) = 0 ∧ 0 < deriv forward 40 := by
  have hf : forwardFl (rnd binary64) mexp 40 = 1 := by
    obtain ⟨a, b⟩ := h (-40) (by norm_num)
    have hb : mexp (-40) ≤ 1 / 2 ^ 54 := by
      have h2 := exp_neg_40
      have h3 : ((mexp (-40) : ℚ) : ℝ) ≤ ((1 / 2 ^ 54 : ℚ) : ℝ) := by
        refine le_trans b ?_
        push_cast
        have : ((2 : ℝ) ^ (-60 : Int)) ≤ 1 / 2 ^ 57 := by norm_num
        have h4 : (1 : ℝ) / 2 ^ 57 + 1 / 2 ^ 57 ≤ 1 / 2 ^ 54 := by norm_num
        linarith
      exact_mod_cast h3
    unfold forwardFl
    rw [rnd_one_add a hb]
    decide +kernel
  refine ⟨fun hc => ?_, hf, ?_, ?_⟩
  · have := (hc 40).2
    rw [hf] at this
    exact absurd this (by norm_num)
  · rw [hf]
    decide +kernel
  · rw [((C59_exact_partial.2.2.1) 40).deriv]
    have := C59_exact_partial.1 40
    exact mul_pos this.1 (by linarith [this.2])

theorem repr_one (f : Fmt) (h : f.emin ≤ 0) : Repr f 1 := by
  have h1 : |(1 : Int)| ≤ 2 ^ f.p := by
    rw [abs_one]
    exact_mod_cast Nat.one_le_two_pow
  have := repr_int (f := f) (n := 1) h h1
  simpa using this

/-- **C59 (partial, floating point).** For every format and every exponential that is non-negative and increasing, the computed values
lie between 0 and 1 (included) and do not decrease; `backward` of them lies between 0 and 1.
Missing: the strict inequalities, which fail (`C59_false`). -/
theorem C59_rounded_partial (f : Fmt) (hf : f.emin ≤ 0) (mexp : ℚ → ℚ) (h0 : ∀ x, 0 ≤ mexp x) (hm : ∀ x y, x ≤ y → mexp x ≤ mexp y) :
    (∀ x, 0 ≤ forwardFl (rnd f) mexp x ∧ forwardFl (rnd f) mexp x ≤ 1) ∧
    (∀ x y, x ≤ y → forwardFl (rnd f) mexp x ≤ forwardFl (rnd f) mexp y) ∧
    (∀ x, let b := backwardFl (rnd f) (forwardFl (rnd f) mexp x); 0 ≤ b ∧ b ≤ 1) := by
  have one : ∀ x, 1 ≤ rnd f (1 + mexp (-x)) := fun x => le_rnd_of_repr (repr_one f hf) (by linarith [h0 (-x)])
  have rng : ∀ x, 0 ≤ forwardFl (rnd f) mexp x ∧ forwardFl (rnd f) mexp x ≤ 1 := by
    intro x
    have h1 := one x
    unfold forwardFl
    refine ⟨rnd_nonneg (by positivity), rnd_le_of_repr (repr_one f hf) ?_⟩
    rw [div_le_one (by linarith)]
    exact h1
  refine ⟨rng, fun x y h => ?_, fun x => ?_⟩
  · unfold forwardFl
    apply rnd_mono
    have h1 := one x
    have h2 := one y
    have h3 : rnd f (1 + mexp (-y)) ≤ rnd f (1 + mexp (-x)) := rnd_mono (by linarith [hm (-y) (-x) (by linarith)])
    exact one_div_le_one_div_of_le (by linarith) h3
  · obtain ⟨a, b⟩ := rng x
    generalize forwardFl (rnd f) mexp x = y at a b
    have h1 : 0 ≤ rnd f (1 - y) := rnd_nonneg (by linarith)
    have h2 : rnd f (1 - y) ≤ 1 := rnd_le_of_repr (repr_one f hf) (by linarith)
    exact ⟨rnd_nonneg (by positivity), rnd_le_of_repr (repr_one f hf) (by nlinarith)⟩

/-- Such exponentials exist: one that meets the requirement of `C59_false`, and one that of `C59_rounded_partial`. -/
example : GoodExp (fun _ => 0) := fun q _ => ⟨le_refl _, by
  have := Real.exp_pos (q : ℝ)
  simp only [Rat.cast_zero]
  positivity⟩

example : ∃ mexp : ℚ → ℚ, (∀ x, 0 ≤ mexp x) ∧ (∀ x y, x ≤ y → mexp x ≤ mexp y) ∧ mexp 0 = 1 :=
  ⟨fun x => max 0 (1 + x), fun x => le_max_left _ _, fun x y h => max_le_max (le_refl _) (by linarith), by norm_num⟩

end Verif.Sigmoid
