import Verif.Lemmas.ConstantsSeries
import Mathlib.Algebra.Order.Ring.Pow
import Mathlib.NumberTheory.ZetaValues

/-! Rational bounds of ζ at the natural numbers. -/

namespace Verif.Constants
open Verif.Ieee

/-- ζ(k), the sum of 1/n^k (in Lean 1/0 = 0). -/
noncomputable def zeta (k : ℕ) : ℝ := ∑' n : ℕ, 1 / (n : ℝ) ^ k

/-- Partial sums of the series with `d` binary digits, rounded down. -/
def zfloor (d k : ℕ) : ℕ → ℕ
  | 0 => 0
  | n + 1 => zfloor d k n + 2 ^ d / n ^ k

theorem zfloor_bounds (d k : ℕ) (n : ℕ) :
    (zfloor d k n : ℝ) / 2 ^ d ≤ ∑ i ∈ Finset.range n, 1 / (i : ℝ) ^ k ∧
    ∑ i ∈ Finset.range n, 1 / (i : ℝ) ^ k ≤ ((zfloor d k n : ℝ) + n) / 2 ^ d := by
  induction n with
  | zero => simp [zfloor]
  | succ n ih =>
    obtain ⟨h1, h2⟩ := ih
    have hp : (0 : ℝ) < 2 ^ d := by positivity
    have a : (((2 ^ d / n ^ k : ℕ) : ℝ)) ≤ 2 ^ d * (1 / (n : ℝ) ^ k) := by
      have := Nat.cast_div_le (α := ℝ) (m := 2 ^ d) (n := n ^ k)
      push_cast at this
      rw [mul_one_div]
      exact this
    have b : 2 ^ d * (1 / (n : ℝ) ^ k) ≤ ((2 ^ d / n ^ k : ℕ) : ℝ) + 1 := by
      rcases Nat.eq_zero_or_pos (n ^ k) with h0 | h0
      · have h0' : (n : ℝ) ^ k = 0 := by exact_mod_cast h0
        rw [h0', h0]
        simp
      · have := (Nat.lt_div_mul_add (a := 2 ^ d) h0).le
        have h : (2 : ℝ) ^ d ≤ ((2 ^ d / n ^ k : ℕ) : ℝ) * (n : ℝ) ^ k + (n : ℝ) ^ k := by exact_mod_cast this
        have h0' : (0 : ℝ) < (n : ℝ) ^ k := by exact_mod_cast h0
        rw [mul_one_div, div_le_iff₀ h0']
        linarith
    rw [div_le_iff₀ hp] at h1
    rw [le_div_iff₀ hp] at h2
    rw [Finset.sum_range_succ, zfloor, div_le_iff₀ hp, le_div_iff₀ hp]
    push_cast at *
    constructor <;> nlinarith

theorem rest_step_lo (m : ℕ) (hm : 1 ≤ m) {t : ℝ} (ht : 0 < t) : 1 / (m * t ^ m) - 1 / (m * (t + 1) ^ m) ≤ 1 / t ^ (m + 1) := by
  have hm' : (0 : ℝ) < m := by exact_mod_cast hm
  have h := one_add_mul_le_pow (a := -(1 / (t + 1))) (by
    rw [neg_le_neg_iff, div_le_iff₀ (by linarith)]; linarith) m
  have e : 1 + -(1 / (t + 1)) = t / (t + 1) := by field_simp; ring
  rw [e, div_pow] at h
  have h2 : 1 + m * -(1 / (t + 1)) ≥ 1 - m / t := by
    have : m * (1 / (t + 1)) ≤ m / t := by
      rw [mul_one_div]
      exact div_le_div_of_nonneg_left hm'.le ht (by linarith)
    linarith
  have h3 : 1 - m / t ≤ t ^ m / (t + 1) ^ m := by linarith
  have h4 : 1 / t ^ (m + 1) - (1 / (m * t ^ m) - 1 / (m * (t + 1) ^ m)) = 1 / (m * t ^ m) * (t ^ m / (t + 1) ^ m - (1 - m / t)) := by
    field_simp
    ring
  have h5 : 0 ≤ 1 / (m * t ^ m) * (t ^ m / (t + 1) ^ m - (1 - m / t)) := mul_nonneg (by positivity) (by linarith)
  linarith

theorem rest_step_hi (m : ℕ) (hm : 1 ≤ m) {t : ℝ} (ht : 0 < t) : 1 / (t + 1) ^ (m + 1) ≤ 1 / (m * t ^ m) - 1 / (m * (t + 1) ^ m) := by
  have hm' : (0 : ℝ) < m := by exact_mod_cast hm
  have h := one_add_mul_le_pow (a := 1 / (t + 1)) (by have : 0 < 1 / (t + 1) := by positivity
                                                      linarith) m
  have hb : (1 + 1 / (t + 1)) ^ m ≤ ((t + 1) / t) ^ m := by
    apply pow_le_pow_left₀ (by positivity)
    rw [le_div_iff₀ ht]
    have : 1 / (t + 1) * t ≤ 1 := by rw [one_div_mul_eq_div, div_le_one (by linarith)]; linarith
    linarith
  rw [div_pow] at hb
  have h4 : 1 / (m * t ^ m) - 1 / (m * (t + 1) ^ m) - 1 / (t + 1) ^ (m + 1) = 1 / (m * (t + 1) ^ m) * ((t + 1) ^ m / t ^ m - (1 + m * (1 / (t + 1)))) := by
    field_simp
    ring
  have h5 : 0 ≤ 1 / (m * (t + 1) ^ m) * ((t + 1) ^ m / t ^ m - (1 + m * (1 / (t + 1)))) := mul_nonneg (by positivity) (by linarith)
  linarith

theorem zeta_summable (m : ℕ) (hm : 1 ≤ m) : Summable fun n : ℕ => 1 / (n : ℝ) ^ (m + 1) :=
  Real.summable_one_div_nat_pow.2 (by omega)

/-- Bounds of ζ from a partial sum and two integrals. -/
theorem zeta_bounds (m N : ℕ) (hm : 1 ≤ m) (hN : 1 ≤ N) :
    ∑ i ∈ Finset.range (N + 1), 1 / (i : ℝ) ^ (m + 1) + 1 / (m * (N + 1 : ℝ) ^ m) ≤ zeta (m + 1) ∧
    zeta (m + 1) ≤ ∑ i ∈ Finset.range (N + 1), 1 / (i : ℝ) ^ (m + 1) + 1 / (m * (N : ℝ) ^ m) := by
  have ht := (zeta_summable m hm).hasSum.tendsto_sum_nat
  have t0 := tendsto_inv_pow m (by omega) m
  constructor
  · have h := le_limit (N := N + 1) (ht.add t0) (by
      intro n hn
      have := rest_step_lo m hm (t := n) (by exact_mod_cast (by omega : 0 < n))
      rw [Finset.sum_range_succ]
      push_cast
      linarith)
    rw [add_zero] at h
    push_cast at h
    exact h
  · have h := limit_le (N := N) ((ht.comp (Filter.tendsto_add_atTop_nat 1)).add t0) (by
      intro n hn
      have := rest_step_hi m hm (t := n) (by exact_mod_cast (by omega : 0 < n))
      simp only [Function.comp_apply]
      rw [Finset.sum_range_succ _ (n + 1)]
      push_cast
      linarith)
    rw [add_zero] at h
    exact h

theorem btw_zeta (d m N : ℕ) (hm : 1 ≤ m) (hN : 1 ≤ N) :
    Btw (zfloor d (m + 1) (N + 1) / 2 ^ d + 1 / (m * (N + 1) ^ m)) ((zfloor d (m + 1) (N + 1) + (N + 1)) / 2 ^ d + 1 / (m * N ^ m))
      (zeta (m + 1)) := by
  obtain ⟨h1, h2⟩ := zeta_bounds m N hm hN
  obtain ⟨h3, h4⟩ := zfloor_bounds d (m + 1) (N + 1)
  push_cast at h4
  constructor
  · refine le_trans ?_ h1
    push_cast
    linarith
  · refine h2.trans ?_
    push_cast
    linarith


/-- A lower bound of the rest of the series for ζ(5). -/
def zeta5Lo {K : Type} [Field K] (t : K) : K := 1 / (4 * t ^ 4) + 1 / (2 * t ^ 5) + 1 / ((12 / 5) * t ^ 6) - 1 / ((24 / 7) * t ^ 8)

/-- An upper bound of the rest of the series for ζ(5). -/
def zeta5Hi {K : Type} [Field K] (t : K) : K := zeta5Lo t + 1 / (2 * t ^ 10)

theorem zeta5Lo_step {t : ℝ} (ht : 0 < t) : zeta5Lo t - zeta5Lo (t + 1) ≤ 1 / t ^ 5 := by
  have e : 1 / t ^ 5 - (zeta5Lo t - zeta5Lo (t + 1)) = (120 * t ^ 5 + 300 * t ^ 4 + 324 * t ^ 3 + 186 * t ^ 2 + 56 * t + 7) /
      (24 * t ^ 8 * (t + 1) ^ 8) := by
    unfold zeta5Lo; field_simp; ring
  have : 0 ≤ 1 / t ^ 5 - (zeta5Lo t - zeta5Lo (t + 1)) := by rw [e]; positivity
  linarith

theorem zeta5Hi_step {t : ℝ} (ht : 0 < t) : 1 / t ^ 5 ≤ zeta5Hi t - zeta5Hi (t + 1) := by
  have e : zeta5Hi t - zeta5Hi (t + 1) - 1 / t ^ 5 =
      (396 * t ^ 7 + 1386 * t ^ 6 + 2272 * t ^ 5 + 2215 * t ^ 4 + 1370 * t ^ 3 + 533 * t ^ 2 + 120 * t + 12) /
      (24 * t ^ 10 * (t + 1) ^ 10) := by
    unfold zeta5Hi zeta5Lo; field_simp; ring
  have : 0 ≤ zeta5Hi t - zeta5Hi (t + 1) - 1 / t ^ 5 := by rw [e]; positivity
  linarith

theorem zeta5Lo_tendsto : Filter.Tendsto (fun n : ℕ => zeta5Lo (n : ℝ)) Filter.atTop (nhds 0) := by
  have := (((tendsto_inv_pow 4 (by decide) 4).add (tendsto_inv_pow 5 (by decide) 2)).add (tendsto_inv_pow 6 (by decide) (12 / 5))).sub
    (tendsto_inv_pow 8 (by decide) (24 / 7))
  simpa [zeta5Lo] using this

theorem zeta5Hi_tendsto : Filter.Tendsto (fun n : ℕ => zeta5Hi (n : ℝ)) Filter.atTop (nhds 0) := by
  have := zeta5Lo_tendsto.add (tendsto_inv_pow 10 (by decide) 2)
  simpa [zeta5Hi] using this

theorem btw_zeta5 (d N : ℕ) (hN : 0 < N) :
    Btw (zfloor d 5 N / 2 ^ d + zeta5Lo (N : ℚ)) ((zfloor d 5 N + N) / 2 ^ d + zeta5Hi (N : ℚ)) (zeta 5) := by
  have ht := (zeta_summable 4 (by decide)).hasSum.tendsto_sum_nat
  obtain ⟨h3, h4⟩ := zfloor_bounds d 5 N
  constructor
  · have h := le_limit (N := N) (ht.add zeta5Lo_tendsto) (by
      intro n hn
      have := zeta5Lo_step (t := n) (by exact_mod_cast lt_of_lt_of_le hN hn)
      rw [Finset.sum_range_succ]
      push_cast
      linarith)
    rw [add_zero] at h
    refine le_trans ?_ h
    have : (((zeta5Lo (N : ℚ) : ℚ)) : ℝ) = zeta5Lo (N : ℝ) := by unfold zeta5Lo; push_cast; rfl
    push_cast
    rw [this]
    linarith
  · have h := limit_le (N := N) (ht.add zeta5Hi_tendsto) (by
      intro n hn
      have := zeta5Hi_step (t := n) (by exact_mod_cast lt_of_lt_of_le hN hn)
      rw [Finset.sum_range_succ]
      push_cast
      linarith)
    rw [add_zero] at h
    refine le_trans h ?_
    have : (((zeta5Hi (N : ℚ) : ℚ)) : ℝ) = zeta5Hi (N : ℝ) := by unfold zeta5Hi zeta5Lo; push_cast; rfl
    push_cast
    rw [this]
    linarith

theorem zeta_two : zeta 2 = Real.pi ^ 2 / 6 := hasSum_zeta_two.tsum_eq
theorem zeta_four : zeta 4 = Real.pi ^ 4 / 90 := hasSum_zeta_four.tsum_eq

end Verif.Constants
