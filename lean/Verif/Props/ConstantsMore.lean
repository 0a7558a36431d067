import Verif.Lemmas.ConstantsMore
import Verif.Props.Constants
import Mathlib.Data.Nat.Fib.Basic
import Mathlib.Analysis.SpecificLimits.Normed

/-! Property theorems for the constants that are limits of series and sequences or roots of transcendental equations (C115). -/

namespace Verif.Constants

open Verif.Ieee

/-! ### Limits -/

/-- **C115**: `zeta3` is the double nearest to ζ(3), the sum of 1/n³ (in Lean 1/0 = 0). -/
theorem C115_zeta3 : Nearest zeta3 (∑' n : ℕ, 1 / (n : ℝ) ^ 3) :=
  nearest_of_btw ((btw_zeta3 200 (by decide)).widen (c := 1.20205690315959428536) (d := 1.20205690315959428541) (by decide +kernel)
    (by decide +kernel)) (by decide +kernel) (by decide +kernel)

/-- **C115**: `eulerMascheroni` is the double nearest to γ. -/
theorem C115_eulerMascheroni : Nearest eulerMascheroni Real.eulerMascheroniConstant := by
  have hl : Btw (9 * 0.69314718055994530941) (9 * 0.69314718055994530942) (Real.log ((512 : ℕ) : ℝ)) := by
    have h := (Btw.rat 9).mul btw_log2 (by decide +kernel) (by decide +kernel)
    have e : ((9 : ℚ) : ℝ) * Real.log 2 = Real.log ((512 : ℕ) : ℝ) := by
      have : ((512 : ℕ) : ℝ) = 2 ^ 9 := by norm_num
      rw [this, Real.log_pow]
      norm_num
    rwa [e] at h
  exact nearest_of_btw ((btw_gamma 512 (by decide) hl).widen (c := 0.57721566490153286) (d := 0.577215664901532861) (by decide +kernel)
    (by decide +kernel)) (by decide +kernel) (by decide +kernel)

/-- **C115**: `gaussConstant` is the double nearest to the inverse of the arithmetic-geometric mean of 1 and √2. -/
theorem C115_gaussConstant : Nearest gaussConstant ((NNReal.agm 1 (NNReal.sqrt 2) : NNReal) : ℝ)⁻¹ := by
  have h0 : Means 1 1 1.4142135623730950488016 1.4142135623730950488017 (1, NNReal.sqrt 2) :=
    ⟨by simpa using Btw.rat 1, by simpa [Real.coe_sqrt] using btw_sqrt2⟩
  have h1 := h0.next (a' := 1.1892071150027210667174) (b' := 1.1892071150027210667176) (c' := 1.2071067811865475244008)
    (d' := 1.2071067811865475244009) (by decide +kernel) (by decide +kernel) (by decide +kernel) (by decide +kernel) (by decide +kernel)
    (by decide +kernel) (by decide +kernel) (by decide +kernel)
  have h2 := h1.next (a' := 1.198123521493120122606) (b' := 1.198123521493120122607) (c' := 1.198156948094634295559)
    (d' := 1.198156948094634295560) (by decide +kernel) (by decide +kernel) (by decide +kernel) (by decide +kernel) (by decide +kernel)
    (by decide +kernel) (by decide +kernel) (by decide +kernel)
  have h3 := h2.next (a' := 1.198140234677307205797) (b' := 1.198140234677307205800) (c' := 1.198140234793877209082)
    (d' := 1.198140234793877209084) (by decide +kernel) (by decide +kernel) (by decide +kernel) (by decide +kernel) (by decide +kernel)
    (by decide +kernel) (by decide +kernel) (by decide +kernel)
  have h4 := h3.next (a' := 1.198140234735592207437) (b' := 1.198140234735592207442) (c' := 1.198140234735592207437)
    (d' := 1.198140234735592207443) (by decide +kernel) (by decide +kernel) (by decide +kernel) (by decide +kernel) (by decide +kernel)
    (by decide +kernel) (by decide +kernel) (by decide +kernel)
  have e : NNReal.agmSequences 1 (NNReal.sqrt 2) 3 = (NNReal.sqrt ((NNReal.agmSequences 1 (NNReal.sqrt 2) 2).1 *
      (NNReal.agmSequences 1 (NNReal.sqrt 2) 2).2), ((NNReal.agmSequences 1 (NNReal.sqrt 2) 2).1 +
      (NNReal.agmSequences 1 (NNReal.sqrt 2) 2).2) / 2) := NNReal.agmSequences_succ'
  have hb : Btw 1.198140234735592207437 1.198140234735592207443 (NNReal.agm 1 (NNReal.sqrt 2) : NNReal) := by
    constructor
    · refine h4.gm.1.trans ?_
      have := NNReal.agmSequences_fst_le_agm (x := 1) (y := NNReal.sqrt 2) 3
      exact_mod_cast this
    · refine le_trans ?_ h4.am.2
      have := NNReal.agm_le_agmSequences_snd (x := 1) (y := NNReal.sqrt 2) 3
      exact_mod_cast this
  exact nearest_of_btw (hb.inv (by decide +kernel)) (by decide +kernel) (by decide +kernel)

/-! ### Series -/

/-- Partial sums of the reciprocals of the Fibonacci numbers: the sum, and the last two numbers. -/
def fibSum : ℕ → ℚ × ℕ × ℕ
  | 0 => (0, 0, 1)
  | n + 1 => ((fibSum n).1 + 1 / ((fibSum n).2.1 : ℚ), (fibSum n).2.2, (fibSum n).2.1 + (fibSum n).2.2)

theorem fibSum_eq (n : ℕ) : (fibSum n).2 = (Nat.fib n, Nat.fib (n + 1)) ∧
    (((fibSum n).1 : ℚ) : ℝ) = ∑ i ∈ Finset.range n, 1 / (Nat.fib i : ℝ) := by
  induction n with
  | zero => simp [fibSum]
  | succ n ih =>
    rw [Finset.sum_range_succ, ← ih.2]
    constructor
    · simp only [fibSum, ih.1, Nat.fib_add_two]
    · simp only [fibSum, ih.1]
      push_cast
      rfl

theorem fib_step (n : ℕ) (hn : 2 ≤ n) : 3 * Nat.fib n ≤ 2 * Nat.fib (n + 1) := by
  obtain ⟨k, rfl⟩ : ∃ k, n = k + 2 := ⟨n - 2, by omega⟩
  have h1 : Nat.fib (k + 2 + 1) = Nat.fib (k + 1) + Nat.fib (k + 2) := Nat.fib_add_two
  have h2 : Nat.fib (k + 2) = Nat.fib k + Nat.fib (k + 1) := Nat.fib_add_two
  have h3 : Nat.fib k ≤ Nat.fib (k + 1) := Nat.fib_le_fib_succ
  omega

theorem btw_recipFib (N : ℕ) (hN : 2 ≤ N) :
    Btw (fibSum N).1 ((fibSum N).1 + 3 / ((fibSum N).2.1 : ℚ)) (∑' n : ℕ, 1 / (Nat.fib n : ℝ)) := by
  have hstep : ∀ n, 2 ≤ n → (∑ i ∈ Finset.range (n + 1), 1 / (Nat.fib i : ℝ)) + 3 / (Nat.fib (n + 1) : ℝ) ≤
      (∑ i ∈ Finset.range n, 1 / (Nat.fib i : ℝ)) + 3 / (Nat.fib n : ℝ) := by
    intro n hn
    rw [Finset.sum_range_succ]
    have h1 : (0 : ℝ) < Nat.fib n := by exact_mod_cast Nat.fib_pos.2 (by omega)
    have h2 : (0 : ℝ) < Nat.fib (n + 1) := by exact_mod_cast Nat.fib_pos.2 (by omega)
    have h3 : 3 * (Nat.fib n : ℝ) ≤ 2 * Nat.fib (n + 1) := by exact_mod_cast fib_step n hn
    have h4 : 3 / (Nat.fib (n + 1) : ℝ) ≤ 2 / (Nat.fib n : ℝ) := by
      rw [div_le_div_iff₀ h2 h1]; linarith
    have h5 : 2 / (Nat.fib n : ℝ) = 3 / (Nat.fib n : ℝ) - 1 / (Nat.fib n : ℝ) := by ring
    linarith
  have hall : ∀ n, N ≤ n → (∑ i ∈ Finset.range n, 1 / (Nat.fib i : ℝ)) + 3 / (Nat.fib n : ℝ) ≤
      (∑ i ∈ Finset.range N, 1 / (Nat.fib i : ℝ)) + 3 / (Nat.fib N : ℝ) := by
    intro n hn
    induction n, hn using Nat.le_induction with
    | base => exact le_refl _
    | succ n hn ih => exact (hstep n (hN.trans hn)).trans ih
  have hpos : ∀ i, 0 ≤ 1 / (Nat.fib i : ℝ) := fun i => by positivity
  have hup : ∀ n, ∑ i ∈ Finset.range n, 1 / (Nat.fib i : ℝ) ≤ (∑ i ∈ Finset.range N, 1 / (Nat.fib i : ℝ)) + 3 / (Nat.fib N : ℝ) := by
    intro n
    rcases le_total N n with h | h
    · have := hall n h
      have : (0 : ℝ) ≤ 3 / (Nat.fib n : ℝ) := by positivity
      linarith
    · have h1 := Finset.sum_le_sum_of_subset_of_nonneg (f := fun i => 1 / (Nat.fib i : ℝ)) (Finset.range_mono h) (fun i _ _ => hpos i)
      have : (0 : ℝ) ≤ 3 / (Nat.fib N : ℝ) := by positivity
      linarith
  have e := fibSum_eq N
  constructor
  · rw [e.2]
    exact (summable_of_sum_range_le hpos hup).sum_le_tsum _ (fun i _ => hpos i)
  · have h := Real.tsum_le_of_sum_range_le hpos hup
    rw [← e.2] at h
    rw [e.1]
    push_cast
    exact h

/-- **C115**: `recipFib` is the double nearest to the sum of the reciprocals of the Fibonacci numbers (in Lean 1/0 = 0). -/
theorem C115_recipFib : Nearest recipFib (∑' n : ℕ, 1 / (Nat.fib n : ℝ)) :=
  nearest_of_btw ((btw_recipFib 100 (by decide)).widen (c := 3.35988566624317755316) (d := 3.35988566624317755319) (by decide +kernel)
    (by decide +kernel)) (by decide +kernel) (by decide +kernel)

/-- Sylvester's sequence 2, 3, 7, 43, … less one: 1, 2, 6, 42, …. -/
def sylvester : ℕ → ℕ
  | 0 => 1
  | n + 1 => sylvester n * (sylvester n + 1)

theorem sylvester_ge (n : ℕ) : n + 1 ≤ sylvester n := by
  induction n with
  | zero => exact le_refl _
  | succ n ih => rw [sylvester]; nlinarith

theorem sylvester_anti : Antitone fun n => 1 / (sylvester n : ℝ) := by
  refine antitone_nat_of_succ_le (fun n => ?_)
  have h := sylvester_ge n
  have h1 : sylvester n ≤ sylvester (n + 1) := by rw [sylvester]; nlinarith
  exact one_div_le_one_div_of_le (by exact_mod_cast (by omega : 0 < sylvester n)) (by exact_mod_cast h1)

theorem sylvester_tendsto : Filter.Tendsto (fun n => 1 / (sylvester n : ℝ)) Filter.atTop (nhds 0) := by
  refine squeeze_zero (fun n => by positivity) (fun n => ?_) (tendsto_one_div_add_atTop_nhds_zero_nat (𝕜 := ℝ))
  have h := sylvester_ge n
  exact one_div_le_one_div_of_le (by positivity) (by exact_mod_cast h)

/-- **C115**: `cahenConstant` is the double nearest to the limit of 1/1 - 1/2 + 1/6 - 1/42 + … over Sylvester's sequence. -/
theorem C115_cahenConstant (l : ℝ)
    (hl : Filter.Tendsto (fun n => ∑ i ∈ Finset.range n, (-1) ^ i * (1 / (sylvester i : ℝ))) Filter.atTop (nhds l)) :
    Nearest cahenConstant l := by
  have h1 := sylvester_anti.alternating_series_le_tendsto hl 4
  have h2 := sylvester_anti.tendsto_le_alternating_series hl 3
  have s4 : sylvester 4 = 1806 := by decide +kernel
  have s5 : sylvester 5 = 3263442 := by decide +kernel
  have s6 : sylvester 6 = 10650056950806 := by decide +kernel
  have s7 : sylvester 7 = 113423713055421844361000442 := by decide +kernel
  simp only [Finset.sum_range_succ, Finset.sum_range_zero, Nat.reduceMul, Nat.reduceAdd, s4, s5, s6, s7, show sylvester 0 = 1 from rfl,
    show sylvester 1 = 2 from rfl, show sylvester 2 = 6 from rfl, show sylvester 3 = 42 from rfl] at h1 h2
  have hb : Btw 0.643410546288338026182 0.643410546288338026183 l := by
    constructor
    · refine le_trans ?_ h1; norm_num
    · refine h2.trans ?_; norm_num
  exact nearest_of_btw hb (by decide +kernel) (by decide +kernel)

/-- The limit exists. -/
example : ∃ l : ℝ, Filter.Tendsto (fun n => ∑ i ∈ Finset.range n, (-1) ^ i * (1 / (sylvester i : ℝ))) Filter.atTop (nhds l) :=
  sylvester_anti.tendsto_alternating_series_of_tendsto_zero sylvester_tendsto

/-- **C115**: `lochConstant` is the double nearest to 6 ln 2 ln 10 / π². -/
theorem C115_lochConstant : Nearest lochConstant (6 * Real.log 2 * Real.log 10 / Real.pi ^ 2) := by
  have h := (((Btw.rat 6).mul btw_log2 (by decide +kernel) (by decide +kernel)).mul (btw_log2.add btw_log5) (by decide +kernel)
    (by decide +kernel)).div (btw_pi.pow (by decide +kernel) 2) (by decide +kernel) (by decide +kernel) (by decide +kernel)
  have e : Real.log 2 + Real.log 5 = Real.log 10 := by rw [← Real.log_mul (by norm_num) (by norm_num)]; norm_num
  have e6 : ((6 : ℚ) : ℝ) = 6 := by norm_num
  rw [e, e6] at h
  exact nearest_of_btw h (by decide +kernel) (by decide +kernel)

/-! ### Roots of transcendental equations -/

/-- **C115**: `dottieNumber` is the double nearest to the solution of cos x = x. -/
theorem C115_dottieNumber (x : ℝ) (hx : Real.cos x = x) : Nearest dottieNumber x := by
  have hx1 : x ≤ 1 := hx ▸ Real.cos_le_one x
  have hxm : -1 ≤ x := hx ▸ Real.neg_one_le_cos x
  have hpi := Real.pi_gt_three
  have hx0 : 0 < x := by
    rw [← hx]
    exact Real.cos_pos_of_mem_Ioo ⟨by linarith, by linarith⟩
  have hb : Btw 0.739085133215160641 0.739085133215160642 x := by
    constructor
    · by_contra hc
      push Not at hc
      have h := (btw_cos 0.739085133215160641 (by decide +kernel) (by decide +kernel) 24 (by decide)).1
      have hq : (0.739085133215160641 : ℚ) ≤ cosSum 0.739085133215160641 24 - 0.739085133215160641 ^ 24 * ((24 : ℕ) + 1) /
        ((Nat.factorial 24 : ℕ) * (24 : ℕ)) := by decide +kernel
      have hq' := (Rat.cast_le (K := ℝ)).2 hq
      have hlt := Real.cos_lt_cos_of_nonneg_of_le_pi (x := x) (y := ((0.739085133215160641 : ℚ) : ℝ)) hx0.le (by
        push_cast; linarith) hc
      linarith
    · by_contra hc
      push Not at hc
      have h := (btw_cos 0.739085133215160642 (by decide +kernel) (by decide +kernel) 24 (by decide)).2
      have hq : cosSum 0.739085133215160642 24 + 0.739085133215160642 ^ 24 * ((24 : ℕ) + 1) /
        ((Nat.factorial 24 : ℕ) * (24 : ℕ)) ≤ (0.739085133215160642 : ℚ) := by decide +kernel
      have hq' := (Rat.cast_le (K := ℝ)).2 hq
      have hlt := Real.cos_lt_cos_of_nonneg_of_le_pi (x := ((0.739085133215160642 : ℚ) : ℝ)) (y := x) (by push_cast; norm_num)
        (by linarith) hc
      linarith
  exact nearest_of_btw hb (by decide +kernel) (by decide +kernel)

example : ∃ x : ℝ, Real.cos x = x := by
  obtain ⟨x, -, hx⟩ := intermediate_value_Icc (show (0 : ℝ) ≤ 1 by norm_num) (f := fun x => x - Real.cos x) (by fun_prop)
    (show (0 : ℝ) ∈ Set.Icc _ _ by
      have := Real.cos_le_one 1
      simp [this])
  exact ⟨x, by simp only at hx; linarith⟩

theorem exp_div_mono {w W : ℝ} (h0 : 0 ≤ w) (h : w ≤ W) : Real.exp w * (1 + W) ≤ Real.exp W * (1 + w) := by
  have e : Real.exp W = Real.exp w * Real.exp (W - w) := by rw [← Real.exp_add]; congr 1; ring
  have h1 := Real.add_one_le_exp (W - w)
  have h2 : 1 + W ≤ Real.exp (W - w) * (1 + w) := by nlinarith
  rw [e, mul_assoc]
  exact mul_le_mul_of_nonneg_left h2 (Real.exp_pos w).le

/-- `x exp(√(1 + x²)) / (1 + √(1 + x²))` grows with `x > 0`. -/
theorem laplace_mono {x X : ℝ} (h0 : 0 < x) (h : x < X) :
    x * Real.exp (Real.sqrt (1 + x ^ 2)) * (1 + Real.sqrt (1 + X ^ 2)) < X * Real.exp (Real.sqrt (1 + X ^ 2)) * (1 + Real.sqrt (1 + x ^ 2)) := by
  have hw : Real.sqrt (1 + x ^ 2) ≤ Real.sqrt (1 + X ^ 2) := Real.sqrt_le_sqrt (by nlinarith)
  have h1 := exp_div_mono (Real.sqrt_nonneg (1 + x ^ 2)) hw
  have hp : 0 < Real.exp (Real.sqrt (1 + X ^ 2)) * (1 + Real.sqrt (1 + x ^ 2)) := by positivity
  have h2 := mul_le_mul_of_nonneg_left h1 h0.le
  have h3 := mul_lt_mul_of_pos_right h hp
  linarith

/-- **C115**: `laplaceLimit` is the double nearest to the solution of x exp(√(1 + x²)) = 1 + √(1 + x²). -/
theorem C115_laplaceLimit (x : ℝ) (hx : x * Real.exp (Real.sqrt (1 + x ^ 2)) = 1 + Real.sqrt (1 + x ^ 2)) : Nearest laplaceLimit x := by
  have hx0 : 0 < x := by
    by_contra hc
    push Not at hc
    have h1 := mul_nonpos_of_nonpos_of_nonneg hc (Real.exp_pos (Real.sqrt (1 + x ^ 2))).le
    have := Real.sqrt_nonneg (1 + x ^ 2)
    linarith
  have hw : 0 < 1 + Real.sqrt (1 + x ^ 2) := by positivity
  have hexp : ∀ w : ℝ, Real.exp (w / ((2 : ℚ) : ℝ)) ^ 2 = Real.exp w := by
    intro w
    rw [← Real.exp_nat_mul]; push_cast; congr 1; ring
  have hb : Btw 0.66274341934918158 0.66274341934918159 x := by
    constructor
    · by_contra hc
      push Not at hc
      have hm := laplace_mono hx0 hc
      rw [hx, mul_comm (1 + _)] at hm
      have hm' := lt_of_mul_lt_mul_right hm hw.le
      have b1 := ((Btw.rat 1).add ((Btw.rat 0.66274341934918158).pow (by decide +kernel) 2)).sqrt (c := 1.1996786402577338333)
        (d := 1.1996786402577338335) (by decide +kernel) (by decide +kernel) (by decide +kernel) (by decide +kernel)
      have b2 := ((b1.div (Btw.rat 2) (by decide +kernel) (by decide +kernel) (by decide +kernel)).exp (by decide +kernel)
        (by decide +kernel) 24 (by decide)).pow (by decide +kernel) 2
      rw [hexp] at b2
      have b3 := ((Btw.rat 0.66274341934918158).mul b2 (by decide +kernel) (by decide +kernel)).2
      have b4 := ((Btw.rat 1).add b1).1
      have hq := (Rat.cast_le (K := ℝ)).2 (show (0.66274341934918158 : ℚ) * (expSum (1.1996786402577338335 / 2) 24 +
        (1.1996786402577338335 / 2) ^ 24 * ((24 : ℕ) + 1) / ((Nat.factorial 24 : ℕ) * (24 : ℕ))) ^ 2 ≤ 1 + 1.1996786402577338333 by
          decide +kernel)
      have e1 : ((1 : ℚ) : ℝ) = 1 := by norm_num
      rw [e1] at b3 b4
      linarith [b3.trans (hq.trans b4)]
    · by_contra hc
      push Not at hc
      have hp : (0 : ℝ) < ((0.66274341934918159 : ℚ) : ℝ) := by push_cast; norm_num
      have hm := laplace_mono hp hc
      rw [hx, mul_comm (1 + Real.sqrt (1 + x ^ 2))] at hm
      have hm' := lt_of_mul_lt_mul_right hm hw.le
      have b1 := ((Btw.rat 1).add ((Btw.rat 0.66274341934918159).pow (by decide +kernel) 2)).sqrt (c := 1.1996786402577338388)
        (d := 1.1996786402577338390) (by decide +kernel) (by decide +kernel) (by decide +kernel) (by decide +kernel)
      have b2 := ((b1.div (Btw.rat 2) (by decide +kernel) (by decide +kernel) (by decide +kernel)).exp (by decide +kernel)
        (by decide +kernel) 24 (by decide)).pow (by decide +kernel) 2
      rw [hexp] at b2
      have b3 := ((Btw.rat 0.66274341934918159).mul b2 (by decide +kernel) (by decide +kernel)).1
      have b4 := ((Btw.rat 1).add b1).2
      have hq := (Rat.cast_le (K := ℝ)).2 (show (1 : ℚ) + 1.1996786402577338390 ≤ 0.66274341934918159 *
        (expSum (1.1996786402577338388 / 2) 24) ^ 2 by decide +kernel)
      have e1 : ((1 : ℚ) : ℝ) = 1 := by norm_num
      rw [e1] at b3 b4
      linarith [b4.trans (hq.trans b3)]
  exact nearest_of_btw hb (by decide +kernel) (by decide +kernel)

example : ∃ x : ℝ, x * Real.exp (Real.sqrt (1 + x ^ 2)) = 1 + Real.sqrt (1 + x ^ 2) := by
  obtain ⟨x, -, hx⟩ := intermediate_value_Icc (show (0 : ℝ) ≤ 1 by norm_num)
    (f := fun x => x * Real.exp (Real.sqrt (1 + x ^ 2)) - (1 + Real.sqrt (1 + x ^ 2))) (by fun_prop)
    (show (0 : ℝ) ∈ Set.Icc _ _ by
      have := Real.add_one_le_exp (Real.sqrt (1 + 1 ^ 2))
      constructor
      · norm_num
      · linarith)
  exact ⟨x, by simp only at hx; linarith⟩

end Verif.Constants
