import Verif.Lemmas.Constants
import Mathlib.Analysis.SpecialFunctions.ArithmeticGeometricMean
import Mathlib.NumberTheory.Harmonic.EulerMascheroni
import Mathlib.Analysis.PSeries
import Mathlib.Analysis.SpecialFunctions.Trigonometric.Basic

/-! Rational bounds of cosines, of the arithmetic-geometric mean and of the limits ζ(3) and γ. -/

namespace Verif.Constants

variable {a b c d : ℚ} {x y : ℝ}

/-! ### Cosine -/

/-- Real and imaginary part of `I ^ n`. -/
def powI : ℕ → ℤ × ℤ
  | 0 => (1, 0)
  | n + 1 => (-(powI n).2, (powI n).1)

theorem powI_eq (n : ℕ) : Complex.I ^ n = ((powI n).1 : ℂ) + ((powI n).2 : ℂ) * Complex.I := by
  induction n with
  | zero => simp [powI]
  | succ n ih =>
    rw [pow_succ, ih]
    simp only [powI]
    push_cast
    linear_combination ((powI n).2 : ℂ) * Complex.I_mul_I

/-- Partial sums of the cosine series. -/
def cosSum (q : ℚ) : ℕ → ℚ
  | 0 => 0
  | n + 1 => cosSum q n + (powI n).1 * q ^ n / n.factorial

theorem cosSum_cast (q : ℚ) (n : ℕ) :
    ((cosSum q n : ℚ) : ℝ) = (∑ m ∈ Finset.range n, ((q : ℝ) * Complex.I) ^ m / (m.factorial : ℂ)).re := by
  induction n with
  | zero => simp [cosSum]
  | succ n ih =>
    rw [Finset.sum_range_succ, Complex.add_re, ← ih, cosSum, mul_pow, powI_eq]
    have e : ((q : ℝ) : ℂ) ^ n * (((powI n).1 : ℂ) + ((powI n).2 : ℂ) * Complex.I) / (n.factorial : ℂ) =
        (((q : ℝ) ^ n * (powI n).1 / n.factorial : ℝ) : ℂ) + (((q : ℝ) ^ n * (powI n).2 / n.factorial : ℝ) : ℂ) * Complex.I := by
      push_cast; ring
    rw [e]
    simp only [Complex.add_re, Complex.ofReal_re, Complex.mul_re, Complex.I_re, Complex.I_im, Complex.ofReal_im]
    push_cast
    ring

theorem btw_cos (q : ℚ) (h0 : 0 ≤ q) (h1 : q ≤ 1) (n : ℕ) (hn : 0 < n) :
    Btw (cosSum q n - q ^ n * (n + 1) / (n.factorial * n)) (cosSum q n + q ^ n * (n + 1) / (n.factorial * n)) (Real.cos q) := by
  have h0' : (0 : ℝ) ≤ q := by exact_mod_cast h0
  have h1' : (q : ℝ) ≤ 1 := by exact_mod_cast h1
  have hnorm : ‖((q : ℝ) : ℂ) * Complex.I‖ = q := by
    rw [norm_mul, Complex.norm_I, mul_one, Complex.norm_real, Real.norm_of_nonneg h0']
  have hb := Complex.exp_bound (x := ((q : ℝ) : ℂ) * Complex.I) (by rw [hnorm]; exact h1') hn
  rw [hnorm] at hb
  have hr := (Complex.abs_re_le_norm _).trans hb
  rw [Complex.sub_re, Complex.exp_ofReal_mul_I_re, ← cosSum_cast] at hr
  have e : (q : ℝ) ^ n * ((n.succ : ℝ) * ((n.factorial : ℝ) * n)⁻¹) = q ^ n * (n + 1) / (n.factorial * n) := by
    push_cast; ring
  rw [e, abs_le] at hr
  constructor
  · push_cast; linarith [hr.1]
  · push_cast; linarith [hr.2]

/-! ### The arithmetic-geometric mean -/

/-- Bounds of the two sequences of means. -/
structure Means (a b c d : ℚ) (p : NNReal × NNReal) : Prop where
  gm : Btw a b p.1
  am : Btw c d p.2

theorem Means.next {p : NNReal × NNReal} (h : Means a b c d p) (ha : 0 ≤ a) (hc : 0 ≤ c) {a' b' c' d' : ℚ} (ha' : 0 ≤ a') (hb' : 0 ≤ b')
    (h1 : a' ^ 2 ≤ a * c) (h2 : b * d ≤ b' ^ 2) (h3 : c' ≤ (a + c) / 2) (h4 : (b + d) / 2 ≤ d') :
    Means a' b' c' d' (NNReal.sqrt (p.1 * p.2), (p.1 + p.2) / 2) := by
  refine ⟨?_, ?_⟩
  · have := (h.gm.mul h.am ha hc).sqrt ha' hb' h1 h2
    simpa [NNReal.coe_mul, Real.coe_sqrt] using this
  · have := h.gm.add h.am
    refine ⟨?_, ?_⟩
    · have h3' : (c' : ℝ) ≤ (a + c) / 2 := by exact_mod_cast h3
      have := this.1
      push_cast at this ⊢
      linarith
    · have h4' : ((b : ℝ) + d) / 2 ≤ d' := by exact_mod_cast h4
      have := this.2
      push_cast at this ⊢
      linarith

/-! ### ζ(3) -/

/-- Partial sums of the series. -/
def zetaSum : ℕ → ℚ
  | 0 => 0
  | n + 1 => zetaSum n + 1 / (n : ℚ) ^ 3

theorem zetaSum_cast (n : ℕ) : ((zetaSum n : ℚ) : ℝ) = ∑ m ∈ Finset.range n, 1 / (m : ℝ) ^ 3 := by
  induction n with
  | zero => simp [zetaSum]
  | succ n ih => rw [Finset.sum_range_succ, ← ih, zetaSum]; push_cast; rfl

/-- A lower bound of the rest of the series. -/
def zetaLo {K : Type} [Field K] (t : K) : K := 1 / (2 * t ^ 2) + 1 / (2 * t ^ 3) + 1 / (4 * t ^ 4) - 1 / (12 * t ^ 6)

/-- An upper bound of the rest of the series. -/
def zetaHi {K : Type} [Field K] (t : K) : K := zetaLo t + 1 / (12 * t ^ 8)

theorem zetaLo_step {t : ℝ} (ht : 0 < t) : zetaLo t - zetaLo (t + 1) ≤ 1 / t ^ 3 := by
  have e : 1 / t ^ 3 - (zetaLo t - zetaLo (t + 1)) = (8 * t ^ 3 + 12 * t ^ 2 + 6 * t + 1) / (12 * t ^ 6 * (t + 1) ^ 6) := by
    unfold zetaLo; field_simp; ring
  have : 0 ≤ 1 / t ^ 3 - (zetaLo t - zetaLo (t + 1)) := by rw [e]; positivity
  linarith

theorem zetaHi_step {t : ℝ} (ht : 0 < t) : 1 / t ^ 3 ≤ zetaHi t - zetaHi (t + 1) := by
  have e : zetaHi t - zetaHi (t + 1) - 1 / t ^ 3 =
      (18 * t ^ 5 + 45 * t ^ 4 + 48 * t ^ 3 + 27 * t ^ 2 + 8 * t + 1) / (12 * t ^ 8 * (t + 1) ^ 8) := by
    unfold zetaHi zetaLo; field_simp; ring
  have : 0 ≤ zetaHi t - zetaHi (t + 1) - 1 / t ^ 3 := by rw [e]; positivity
  linarith

theorem tendsto_inv_pow (k : ℕ) (hk : k ≠ 0) (q : ℝ) : Filter.Tendsto (fun n : ℕ => 1 / (q * (n : ℝ) ^ k)) Filter.atTop (nhds 0) := by
  have h := (tendsto_inv_atTop_zero.comp ((Filter.tendsto_pow_atTop hk).comp (tendsto_natCast_atTop_atTop (R := ℝ)))).const_mul q⁻¹
  rw [mul_zero] at h
  refine h.congr (fun n => ?_)
  simp [mul_comm]

theorem zetaLo_tendsto : Filter.Tendsto (fun n : ℕ => zetaLo (n : ℝ)) Filter.atTop (nhds 0) := by
  have := (((tendsto_inv_pow 2 (by decide) 2).add (tendsto_inv_pow 3 (by decide) 2)).add (tendsto_inv_pow 4 (by decide) 4)).sub
    (tendsto_inv_pow 6 (by decide) 12)
  simpa [zetaLo] using this

theorem zetaHi_tendsto : Filter.Tendsto (fun n : ℕ => zetaHi (n : ℝ)) Filter.atTop (nhds 0) := by
  have := zetaLo_tendsto.add (tendsto_inv_pow 8 (by decide) 12)
  simpa [zetaHi] using this

/-- A sequence that grows from `N` on and has a limit is below its limit. -/
theorem le_limit {f : ℕ → ℝ} {l : ℝ} (hf : Filter.Tendsto f Filter.atTop (nhds l)) {N : ℕ} (hm : ∀ n, N ≤ n → f n ≤ f (n + 1)) : f N ≤ l := by
  have h : ∀ n, N ≤ n → f N ≤ f n := by
    intro n hn
    induction n, hn using Nat.le_induction with
    | base => exact le_refl _
    | succ n hn ih => exact ih.trans (hm n hn)
  exact ge_of_tendsto hf (Filter.eventually_atTop.2 ⟨N, h⟩)

theorem limit_le {f : ℕ → ℝ} {l : ℝ} (hf : Filter.Tendsto f Filter.atTop (nhds l)) {N : ℕ} (hm : ∀ n, N ≤ n → f (n + 1) ≤ f n) : l ≤ f N := by
  have := le_limit hf.neg (N := N) (fun n hn => neg_le_neg (hm n hn))
  linarith

theorem btw_zeta3 (N : ℕ) (hN : 0 < N) :
    Btw (zetaSum N + zetaLo (N : ℚ)) (zetaSum N + zetaHi (N : ℚ)) (∑' n : ℕ, 1 / (n : ℝ) ^ 3) := by
  have hs : Summable fun n : ℕ => 1 / (n : ℝ) ^ 3 := Real.summable_one_div_nat_pow.2 (by norm_num)
  have ht := hs.hasSum.tendsto_sum_nat
  constructor
  · have h := le_limit (N := N) (ht.add zetaLo_tendsto) (by
      intro n hn
      have := zetaLo_step (t := n) (by exact_mod_cast lt_of_lt_of_le hN hn)
      rw [Finset.sum_range_succ]
      push_cast
      linarith)
    rw [add_zero, ← zetaSum_cast] at h
    refine le_trans (le_of_eq ?_) h
    unfold zetaLo
    push_cast
    ring
  · have h := limit_le (N := N) (ht.add zetaHi_tendsto) (by
      intro n hn
      have := zetaHi_step (t := n) (by exact_mod_cast lt_of_lt_of_le hN hn)
      rw [Finset.sum_range_succ]
      push_cast
      linarith)
    rw [add_zero, ← zetaSum_cast] at h
    refine le_trans h (le_of_eq ?_)
    unfold zetaHi zetaLo
    push_cast
    ring

/-! ### γ -/

/-- What is added to `harmonic n - log n` for a lower bound. -/
def gammaLo {K : Type} [Field K] (t : K) : K := -(1 / (2 * t ^ 1)) + 1 / (12 * t ^ 2) - 1 / (120 * t ^ 4)

/-- What is added to `harmonic n - log n` for an upper bound. -/
def gammaHi {K : Type} [Field K] (t : K) : K := gammaLo t + 1 / (252 * t ^ 6)

theorem gammaLo_tendsto : Filter.Tendsto (fun n : ℕ => gammaLo (n : ℝ)) Filter.atTop (nhds 0) := by
  have := ((tendsto_inv_pow 1 (by decide) 2).neg.add (tendsto_inv_pow 2 (by decide) 12)).sub (tendsto_inv_pow 4 (by decide) 120)
  simpa [gammaLo] using this

theorem gammaHi_tendsto : Filter.Tendsto (fun n : ℕ => gammaHi (n : ℝ)) Filter.atTop (nhds 0) := by
  have := gammaLo_tendsto.add (tendsto_inv_pow 6 (by decide) 252)
  simpa [gammaHi] using this

theorem log_step_ge {t : ℝ} (ht : 0 < t) :
    2 / (2 * t + 1) + 2 / (3 * (2 * t + 1) ^ 3) + 2 / (5 * (2 * t + 1) ^ 5) + 2 / (7 * (2 * t + 1) ^ 7) ≤ Real.log (1 + t⁻¹) := by
  have h := sum_le_hasSum (Finset.range 4) (fun i _ => by positivity) (Real.hasSum_log_one_add_inv ht)
  refine le_trans (le_of_eq ?_) h
  simp only [Finset.sum_range_succ, Finset.sum_range_zero]
  push_cast
  field_simp
  ring

theorem log_step_le {t : ℝ} (ht : 0 < t) :
    Real.log (1 + t⁻¹) ≤ 2 / (2 * t + 1) + 2 / (3 * (2 * t + 1) ^ 3) + 2 / (5 * (2 * t + 1) ^ 5) + 1 / (14 * t * (t + 1) * (2 * t + 1) ^ 5) := by
  have h := Real.hasSum_log_one_add_inv ht
  set z : ℝ := 1 / (2 * t + 1) with hz
  have hz0 : 0 < z := by positivity
  have hz1 : z < 1 := by rw [hz, div_lt_one (by linarith)]; linarith
  have hz2 : z ^ 2 < 1 := by nlinarith
  have hg := ((hasSum_geometric_of_lt_one (sq_nonneg z) hz2).mul_left (2 / 7 * z ^ 7))
  have h3 := (hasSum_nat_add_iff' 3).2 h
  have hle := hasSum_le (fun i => ?_) h3 hg
  · have e : (1 - z ^ 2)⁻¹ = (2 * t + 1) ^ 2 / (4 * t * (t + 1)) := by
      have : 1 - z ^ 2 = 4 * t * (t + 1) / (2 * t + 1) ^ 2 := by rw [hz]; field_simp; ring
      rw [this, inv_div]
    rw [e] at hle
    simp only [Finset.sum_range_succ, Finset.sum_range_zero] at hle
    push_cast at hle
    have e2 : 2 / 7 * z ^ 7 * ((2 * t + 1) ^ 2 / (4 * t * (t + 1))) = 1 / (14 * t * (t + 1) * (2 * t + 1) ^ 5) := by
      rw [hz]; field_simp; ring
    have e3 : (2 : ℝ) * z = 2 / (2 * t + 1) := by rw [hz]; ring
    have e4 : (2 : ℝ) / 3 * z ^ 3 = 2 / (3 * (2 * t + 1) ^ 3) := by rw [hz]; field_simp
    have e5 : (2 : ℝ) / 5 * z ^ 5 = 2 / (5 * (2 * t + 1) ^ 5) := by rw [hz]; field_simp
    norm_num at hle
    rw [e2] at hle
    linarith
  · have e : z ^ (2 * (i + 3) + 1) = z ^ 7 * (z ^ 2) ^ i := by rw [← pow_mul, ← pow_add]; congr 1; ring
    simp only [e, ← mul_assoc]
    refine mul_le_mul_of_nonneg_right ?_ (by positivity)
    refine mul_le_mul_of_nonneg_right ?_ (by positivity)
    rw [mul_one_div]
    refine div_le_div_of_nonneg_left (by norm_num) (by norm_num) ?_
    push_cast
    have : (0 : ℝ) ≤ i := Nat.cast_nonneg i
    linarith

theorem gammaLo_step {t : ℝ} (ht : 0 < t) : Real.log (1 + t⁻¹) ≤ 1 / (t + 1) + gammaLo (t + 1) - gammaLo t := by
  refine (log_step_le ht).trans ?_
  have e : 1 / (t + 1) + gammaLo (t + 1) - gammaLo t -
      (2 / (2 * t + 1) + 2 / (3 * (2 * t + 1) ^ 3) + 2 / (5 * (2 * t + 1) ^ 5) + 1 / (14 * t * (t + 1) * (2 * t + 1) ^ 5)) =
      (640 * t ^ 6 + 1920 * t ^ 5 + 2354 * t ^ 4 + 1508 * t ^ 3 + 532 * t ^ 2 + 98 * t + 7) /
        (840 * t ^ 4 * (t + 1) ^ 4 * (2 * t + 1) ^ 5) := by
    unfold gammaLo; field_simp; ring
  have : 0 ≤ 1 / (t + 1) + gammaLo (t + 1) - gammaLo t -
      (2 / (2 * t + 1) + 2 / (3 * (2 * t + 1) ^ 3) + 2 / (5 * (2 * t + 1) ^ 5) + 1 / (14 * t * (t + 1) * (2 * t + 1) ^ 5)) := by
    rw [e]; positivity
  linarith

theorem gammaHi_step {t : ℝ} (ht : 0 < t) : 1 / (t + 1) + gammaHi (t + 1) - gammaHi t ≤ Real.log (1 + t⁻¹) := by
  refine le_trans ?_ (log_step_ge ht)
  have e : (2 / (2 * t + 1) + 2 / (3 * (2 * t + 1) ^ 3) + 2 / (5 * (2 * t + 1) ^ 5) + 2 / (7 * (2 * t + 1) ^ 7)) -
      (1 / (t + 1) + gammaHi (t + 1) - gammaHi t) =
      (10612 * t ^ 10 + 53060 * t ^ 9 + 119322 * t ^ 8 + 158928 * t ^ 7 + 138774 * t ^ 6 + 82926 * t ^ 5 + 34317 * t ^ 4 + 9720 * t ^ 3
        + 1809 * t ^ 2 + 200 * t + 10) / (2520 * t ^ 6 * (t + 1) ^ 6 * (2 * t + 1) ^ 7) := by
    unfold gammaHi gammaLo; field_simp; ring
  have : 0 ≤ (2 / (2 * t + 1) + 2 / (3 * (2 * t + 1) ^ 3) + 2 / (5 * (2 * t + 1) ^ 5) + 2 / (7 * (2 * t + 1) ^ 7)) -
      (1 / (t + 1) + gammaHi (t + 1) - gammaHi t) := by
    rw [e]; positivity
  linarith

/-- The harmonic numbers, by recursion. -/
def harm : ℕ → ℚ
  | 0 => 0
  | n + 1 => harm n + 1 / ((n : ℚ) + 1)

theorem harm_eq (n : ℕ) : harm n = harmonic n := by
  induction n with
  | zero => simp [harm]
  | succ n ih => rw [harm, harmonic_succ, ih]; push_cast; rw [one_div]

theorem btw_gamma (N : ℕ) (hN : 0 < N) {lo hi : ℚ} (hl : Btw lo hi (Real.log N)) :
    Btw (harm N - hi + gammaLo (N : ℚ)) (harm N - lo + gammaHi (N : ℚ)) Real.eulerMascheroniConstant := by
  have ht := Real.tendsto_harmonic_sub_log
  have hlog : ∀ n : ℕ, 0 < n → Real.log ((n + 1 : ℕ) : ℝ) = Real.log n + Real.log (1 + (n : ℝ)⁻¹) := by
    intro n hn
    have hn' : (0 : ℝ) < n := by exact_mod_cast hn
    rw [← Real.log_mul hn'.ne' (by positivity)]
    congr 1
    push_cast
    field_simp
  constructor
  · have h := le_limit (N := N) (ht.add gammaLo_tendsto) (by
      intro n hn
      have hn0 := lt_of_lt_of_le hN hn
      have := gammaLo_step (t := n) (by exact_mod_cast hn0)
      rw [hlog n hn0, harmonic_succ]
      push_cast
      rw [one_div] at this
      linarith)
    rw [add_zero, ← harm_eq] at h
    refine le_trans ?_ h
    have := hl.2
    unfold gammaLo
    push_cast
    linarith
  · have h := limit_le (N := N) (ht.add gammaHi_tendsto) (by
      intro n hn
      have hn0 := lt_of_lt_of_le hN hn
      have := gammaHi_step (t := n) (by exact_mod_cast hn0)
      rw [hlog n hn0, harmonic_succ]
      push_cast
      rw [one_div] at this
      linarith)
    rw [add_zero, ← harm_eq] at h
    refine le_trans h ?_
    have := hl.1
    unfold gammaHi gammaLo
    push_cast
    linarith

end Verif.Constants
