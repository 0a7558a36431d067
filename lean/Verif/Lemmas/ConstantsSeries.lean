import Verif.Lemmas.ConstantsMore
import Mathlib.Analysis.PSeries

/-! Bounds of Somos' quadratic recurrence constant and of Gieseking's constant. -/

namespace Verif.Constants

open Verif.Ieee

/-! ### Nested square roots -/

/-- √(k √((k+1) … √((k+n-1) z))). Used to state what Somos' constant is; no code of the library. -/
noncomputable def nested (k : ℕ) : ℕ → ℝ → ℝ
  | 0, z => z
  | n + 1, z => Real.sqrt (k * nested (k + 1) n z)

theorem nested_nonneg (k n : ℕ) {z : ℝ} (hz : 0 ≤ z) : 0 ≤ nested k n z := by
  cases n with
  | zero => exact hz
  | succ n => exact Real.sqrt_nonneg _

theorem nested_mono (n : ℕ) : ∀ (k : ℕ) {y z : ℝ}, y ≤ z → nested k n y ≤ nested k n z := by
  induction n with
  | zero => intro k y z h; exact h
  | succ n ih =>
    intro k y z h
    exact Real.sqrt_le_sqrt (mul_le_mul_of_nonneg_left (ih (k + 1) h) (Nat.cast_nonneg _))

theorem nested_add (m n : ℕ) (z : ℝ) : ∀ k, nested k (m + n) z = nested k m (nested (k + m) n z) := by
  induction m with
  | zero => intro k; simp [nested]
  | succ m ih =>
    intro k
    rw [Nat.succ_add]
    simp only [nested]
    rw [ih (k + 1), show k + 1 + m = k + (m + 1) by omega]

theorem nested_bounds (n : ℕ) : ∀ k, 0 < k → 1 ≤ nested k n 1 ∧ nested k n 1 ≤ k + 1 := by
  induction n with
  | zero => intro k hk; simp [nested]
  | succ n ih =>
    intro k hk
    obtain ⟨h1, h2⟩ := ih (k + 1) (by omega)
    have hk' : (1 : ℝ) ≤ k := by exact_mod_cast hk
    push_cast at h2
    constructor
    · rw [nested, Real.one_le_sqrt]; nlinarith
    · rw [nested, Real.sqrt_le_left (by linarith)]
      nlinarith

/-- Lower bounds with `d` binary digits. -/
def nestedLo (d : ℕ) (k : ℕ) : ℕ → ℕ → ℕ
  | 0, z => z
  | n + 1, z => Nat.sqrt (k * nestedLo d (k + 1) n z * 2 ^ d)

/-- Upper bounds with `d` binary digits. -/
def nestedHi (d : ℕ) (k : ℕ) : ℕ → ℕ → ℕ
  | 0, z => z
  | n + 1, z => Nat.sqrt (k * nestedHi d (k + 1) n z * 2 ^ d) + 1

theorem nestedLo_le (d n z : ℕ) : ∀ k, (nestedLo d k n z : ℝ) / 2 ^ d ≤ nested k n (z / 2 ^ d) := by
  induction n with
  | zero => intro k; exact le_refl _
  | succ n ih =>
    intro k
    have h := ih (k + 1)
    have hs : ((nestedLo d k (n + 1) z : ℕ) : ℝ) ^ 2 ≤ k * nestedLo d (k + 1) n z * 2 ^ d := by
      exact_mod_cast Nat.sqrt_le' (k * nestedLo d (k + 1) n z * 2 ^ d)
    rw [nested]
    apply Real.le_sqrt_of_sq_le
    rw [div_pow, div_le_iff₀ (by positivity)]
    rw [div_le_iff₀ (by positivity)] at h
    calc _ ≤ _ := hs
      _ ≤ (k : ℝ) * (nested (k + 1) n (z / 2 ^ d) * 2 ^ d) * 2 ^ d := by gcongr
      _ = _ := by ring

theorem le_nestedHi (d n z : ℕ) : ∀ k, nested k n (z / 2 ^ d) ≤ (nestedHi d k n z : ℝ) / 2 ^ d := by
  induction n with
  | zero => intro k; exact le_refl _
  | succ n ih =>
    intro k
    have h := ih (k + 1)
    have hs : (k : ℝ) * nestedHi d (k + 1) n z * 2 ^ d ≤ ((nestedHi d k (n + 1) z : ℕ) : ℝ) ^ 2 := by
      exact_mod_cast (Nat.lt_succ_sqrt' (k * nestedHi d (k + 1) n z * 2 ^ d)).le
    rw [nested]
    apply Real.sqrt_le_iff.2 ⟨by positivity, ?_⟩
    rw [div_pow, le_div_iff₀ (by positivity)]
    rw [le_div_iff₀ (by positivity)] at h
    calc _ = (k : ℝ) * (nested (k + 1) n (z / 2 ^ d) * 2 ^ d) * 2 ^ d := by ring
      _ ≤ k * nestedHi d (k + 1) n z * 2 ^ d := by gcongr
      _ ≤ _ := hs

theorem btw_somos {l : ℝ} (hl : Filter.Tendsto (fun n => nested 1 n 1) Filter.atTop (nhds l)) :
    Btw (nestedLo 100 1 80 (2 ^ 100) / 2 ^ 100) (nestedHi 100 1 80 (82 * 2 ^ 100) / 2 ^ 100) l := by
  have h : ∀ n, 80 ≤ n → nested 1 80 1 ≤ nested 1 n 1 ∧ nested 1 n 1 ≤ nested 1 80 82 := by
    intro n hn
    obtain ⟨m, rfl⟩ := Nat.exists_eq_add_of_le hn
    obtain ⟨h1, h2⟩ := nested_bounds m 81 (by decide)
    rw [nested_add]
    refine ⟨nested_mono 80 1 h1, nested_mono 80 1 (h2.trans (by norm_num))⟩
  have a := ge_of_tendsto hl (Filter.eventually_atTop.2 ⟨80, fun n hn => (h n hn).1⟩)
  have b := le_of_tendsto hl (Filter.eventually_atTop.2 ⟨80, fun n hn => (h n hn).2⟩)
  constructor
  · refine le_trans ?_ a
    have := nestedLo_le 100 80 (2 ^ 100) 1
    push_cast at this ⊢
    rwa [show (1267650600228229401496703205376 : ℝ) / 2 ^ 100 = 1 by norm_num] at this
  · refine le_trans b ?_
    have := le_nestedHi 100 80 (82 * 2 ^ 100) 1
    push_cast at this ⊢
    rwa [show (103947349218714810922729662840832 : ℝ) / 2 ^ 100 = 82 by norm_num] at this

/-! ### Gieseking's constant -/

/-- Four terms of the series, without the factor √3/2. -/
def giesTerm {K : Type} [Field K] (v : K) : K := 1 / (v + 1) ^ 2 + 1 / (v + 2) ^ 2 - 1 / (v + 4) ^ 2 - 1 / (v + 5) ^ 2

/-- Partial sums of the series, without the factor √3/2. -/
def giesSum : ℕ → ℚ
  | 0 => 0
  | n + 1 => giesSum n + giesTerm (6 * (n : ℚ))

/-- An upper bound of the rest of the series. -/
def giesHi {K : Type} [Field K] (v : K) : K := 1 / (1 * v ^ 2) - 1 / (6⁻¹ * v ^ 4) + 1 / (110⁻¹ * v ^ 6)

/-- A lower bound of the rest of the series. -/
def giesLo {K : Type} [Field K] (v : K) : K := giesHi v - 1 / (4214⁻¹ * v ^ 8)

theorem giesHi_step {v : ℝ} (hv : 0 < v) : giesTerm v ≤ giesHi v - giesHi (v + 6) := by
  have e : giesHi v - giesHi (v + 6) - giesTerm v = (202272 * v ^ 11 + 6674976 * v ^ 10 + 97885272 * v ^ 9 + 840658824 * v ^ 8 + 4690953216 * v ^ 7 + 17834717376 * v ^ 6 + 47093444352 * v ^ 5 + 86290983936 * v ^ 4 + 107408471040 * v ^ 3 + 86340349440 * v ^ 2 + 40236134400 * v ^ 1 + 8211456000) /
      (v ^ 6 * (v + 6) ^ 6 * (v + 1) ^ 2 * (v + 2) ^ 2 * (v + 4) ^ 2 * (v + 5) ^ 2) := by
    unfold giesHi giesTerm; field_simp; ring
  have : 0 ≤ giesHi v - giesHi (v + 6) - giesTerm v := by rw [e]; positivity
  linarith

theorem giesLo_step {v : ℝ} (hv : 0 < v) : giesLo v - giesLo (v + 6) ≤ giesTerm v := by
  have e : giesTerm v - (giesLo v - giesLo (v + 6)) = (16600680 * v ^ 13 + 647426520 * v ^ 12 + 11581138656 * v ^ 11 + 125796673728 * v ^ 10 + 925316512896 * v ^ 9 + 4863012645312 * v ^ 8 + 18761937024768 * v ^ 7 + 53702679391488 * v ^ 6 + 113754728153088 * v ^ 5 + 175543009187328 * v ^ 4 + 191048437499904 * v ^ 3 + 138207916210176 * v ^ 2 + 59265631272960 * v ^ 1 + 11324642918400) /
      (v ^ 8 * (v + 6) ^ 8 * (v + 1) ^ 2 * (v + 2) ^ 2 * (v + 4) ^ 2 * (v + 5) ^ 2) := by
    unfold giesLo giesHi giesTerm; field_simp; ring
  have : 0 ≤ giesTerm v - (giesLo v - giesLo (v + 6)) := by rw [e]; positivity
  linarith

theorem tendsto_six : Filter.Tendsto (fun n : ℕ => 6 * n) Filter.atTop Filter.atTop :=
  Filter.tendsto_id.const_mul_atTop' (by decide)

theorem giesHi_tendsto : Filter.Tendsto (fun n : ℕ => giesHi (6 * n : ℝ)) Filter.atTop (nhds 0) := by
  have := (((tendsto_inv_pow 2 (by decide) 1).sub (tendsto_inv_pow 4 (by decide) 6⁻¹)).add (tendsto_inv_pow 6 (by decide) 110⁻¹)).comp
    tendsto_six
  simpa [giesHi, Function.comp_def] using this

theorem giesLo_tendsto : Filter.Tendsto (fun n : ℕ => giesLo (6 * n : ℝ)) Filter.atTop (nhds 0) := by
  have := giesHi_tendsto.sub ((tendsto_inv_pow 8 (by decide) 4214⁻¹).comp tendsto_six)
  simpa [giesLo, Function.comp_def] using this

theorem sin_thirds (k : ℕ) : Real.sin ((6 * k : ℕ) * Real.pi / 3) = 0 ∧
    Real.sin ((6 * k + 1 : ℕ) * Real.pi / 3) = Real.sqrt 3 / 2 ∧ Real.sin ((6 * k + 2 : ℕ) * Real.pi / 3) = Real.sqrt 3 / 2 ∧
    Real.sin ((6 * k + 3 : ℕ) * Real.pi / 3) = 0 ∧ Real.sin ((6 * k + 4 : ℕ) * Real.pi / 3) = - (Real.sqrt 3 / 2) ∧
    Real.sin ((6 * k + 5 : ℕ) * Real.pi / 3) = - (Real.sqrt 3 / 2) := by
  have h (x : ℝ) : Real.sin (x + k * (2 * Real.pi)) = Real.sin x := Real.sin_add_nat_mul_two_pi x k
  refine ⟨?_, ?_, ?_, ?_, ?_, ?_⟩
  · rw [← Real.sin_zero, ← h 0]; congr 1; push_cast; ring
  · rw [← Real.sin_pi_div_three, ← h (Real.pi / 3)]; congr 1; push_cast; ring
  · rw [← Real.sin_pi_div_three, ← Real.sin_pi_sub (Real.pi / 3), ← h (Real.pi - Real.pi / 3)]; congr 1; push_cast; ring
  · rw [← Real.sin_pi, ← h Real.pi]; congr 1; push_cast; ring
  · rw [← Real.sin_pi_div_three, ← Real.sin_add_pi, ← h (Real.pi / 3 + Real.pi)]; congr 1; push_cast; ring
  · rw [← Real.sin_pi_div_three, ← Real.sin_neg, ← h (-(Real.pi / 3)), ← Real.sin_add_two_pi (-(Real.pi / 3) + k * (2 * Real.pi))]
    rw [show (-(Real.pi / 3) + k * (2 * Real.pi) + 2 * Real.pi) = (6 * k + 5 : ℕ) * Real.pi / 3 by push_cast; ring]

/-- The terms of Clausen's function at π/3. -/
noncomputable def clausen (n : ℕ) : ℝ := Real.sin (n * Real.pi / 3) / (n : ℝ) ^ 2

theorem clausen_sum (N : ℕ) : ∑ n ∈ Finset.range (6 * N), clausen n = Real.sqrt 3 / 2 * (giesSum N : ℚ) := by
  induction N with
  | zero => simp [giesSum]
  | succ N ih =>
    rw [show 6 * (N + 1) = 6 * N + 1 + 1 + 1 + 1 + 1 + 1 by ring]
    simp only [Finset.sum_range_succ, ih]
    obtain ⟨h0, h1, h2, h3, h4, h5⟩ := sin_thirds N
    simp only [clausen, h0, h1, h2, h3, h4, h5, giesSum, giesTerm]
    push_cast
    ring

theorem clausen_summable : Summable clausen := by
  have hs : Summable fun n : ℕ => 1 / (n : ℝ) ^ 2 := Real.summable_one_div_nat_pow.2 (by norm_num)
  refine Summable.of_norm_bounded hs (fun n => ?_)
  rw [clausen, norm_div, Real.norm_eq_abs, norm_pow, Real.norm_natCast]
  gcongr
  exact Real.abs_sin_le_one _

theorem btw_gies (N : ℕ) (hN : 0 < N) :
    Btw (giesSum N + giesLo (6 * N : ℚ)) (giesSum N + giesHi (6 * N : ℚ)) ((∑' n : ℕ, clausen n) / (Real.sqrt 3 / 2)) := by
  have h3 : (Real.sqrt 3 / 2) ≠ 0 := by positivity
  have ht := (clausen_summable.hasSum.tendsto_sum_nat.comp tendsto_six).div_const (Real.sqrt 3 / 2)
  have ht : Filter.Tendsto (fun n => ((giesSum n : ℚ) : ℝ)) Filter.atTop (nhds ((∑' n : ℕ, clausen n) / (Real.sqrt 3 / 2))) := by
    refine ht.congr (fun n => ?_)
    simp only [Function.comp_apply]
    rw [clausen_sum]
    field_simp
  have hp : ∀ n, N ≤ n → (0 : ℝ) < 6 * (n : ℝ) := by
    intro n hn
    have : (0 : ℝ) < n := by exact_mod_cast lt_of_lt_of_le hN hn
    linarith
  have hc (n : ℕ) : ((giesSum (n + 1) : ℚ) : ℝ) = (giesSum n : ℚ) + giesTerm (6 * (n : ℝ)) := by
    rw [giesSum]; simp [giesTerm]
  constructor
  · have h := le_limit (N := N) (ht.add giesLo_tendsto) (by
      intro n hn
      have := giesLo_step (hp n hn)
      rw [hc]
      push_cast
      rw [show (6 : ℝ) * (n + 1) = 6 * n + 6 by ring]
      linarith)
    rw [add_zero] at h
    refine le_trans (le_of_eq ?_) h
    simp [giesLo, giesHi]
  · have h := limit_le (N := N) (ht.add giesHi_tendsto) (by
      intro n hn
      have := giesHi_step (hp n hn)
      rw [hc]
      push_cast
      rw [show (6 : ℝ) * (n + 1) = 6 * n + 6 by ring]
      linarith)
    rw [add_zero] at h
    refine le_trans h (le_of_eq ?_)
    simp [giesHi]

end Verif.Constants
