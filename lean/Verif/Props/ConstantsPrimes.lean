import Verif.Lemmas.ConstantsPrimes
import Verif.Props.ConstantsMore

/-! Property theorems for the constants given by the zeta function and by products over the primes (C115), with the numerical bounds they use. -/

namespace Verif.Constants

open Verif.Ieee

theorem btw_zeta2 : Btw 1.64493406684822643646 1.64493406684822643649 (zeta 2) := by
  rw [zeta_two]
  have h := (btw_pi.pow (by decide +kernel) 2).div (Btw.rat 6) (by decide +kernel) (by decide +kernel) (by decide +kernel)
  simpa using h.widen (c := 1.64493406684822643646) (d := 1.64493406684822643649) (by decide +kernel) (by decide +kernel)

theorem btw_zeta4 : Btw 1.0823232337111381915 1.0823232337111381916 (zeta 4) := by
  rw [zeta_four]
  have h := (btw_pi.pow (by decide +kernel) 4).div (Btw.rat 90) (by decide +kernel) (by decide +kernel) (by decide +kernel)
  simpa using h.widen (c := 1.0823232337111381915) (d := 1.0823232337111381916) (by decide +kernel) (by decide +kernel)

theorem btw_zeta3' : Btw 1.20205690315959428536 1.20205690315959428541 (zeta 3) :=
  (btw_zeta3 200 (by decide)).widen (by decide +kernel) (by decide +kernel)

theorem btw_zeta5' : Btw 1.03692775514336992633 1.03692775514336992634 (zeta 5) :=
  (btw_zeta5 100 200 (by decide)).widen (by decide +kernel) (by decide +kernel)

theorem btw_zeta6' : Btw 1.01734306198444913971 1.01734306198444913973 (zeta 6) :=
  (btw_zeta 100 5 3000 (by decide) (by decide)).widen (by decide +kernel) (by decide +kernel)

/-! ### Niven's constant -/

theorem zeta_one_le (m : ℕ) (hm : 1 ≤ m) : 1 ≤ zeta (m + 1) := by
  have := (zeta_bounds m 1 hm (by decide)).1
  simp only [Finset.sum_range_succ, Finset.sum_range_zero] at this
  have h : (0 : ℝ) ≤ (2 ^ m)⁻¹ * (m : ℝ)⁻¹ := by positivity
  norm_num at this
  linarith

theorem zeta_le (m : ℕ) (hm : 1 ≤ m) : zeta (m + 1) ≤ 1 + 3 * (1 / 2) ^ (m + 1) := by
  have := (zeta_bounds m 2 hm (by decide)).2
  simp only [Finset.sum_range_succ, Finset.sum_range_zero] at this
  have hm' : (1 : ℝ) ≤ m := by exact_mod_cast hm
  have h : 1 / (m * (2 : ℝ) ^ m) ≤ 2 * (1 / 2) ^ (m + 1) := by
    rw [show (2 : ℝ) * (1 / 2) ^ (m + 1) = 1 / 2 ^ m by rw [pow_succ, one_div_pow]; ring]
    apply one_div_le_one_div_of_le (by positivity)
    nlinarith [pow_pos (show (0 : ℝ) < 2 by norm_num) m]
  have e : (1 : ℝ) / 2 ^ (m + 1) = (1 / 2) ^ (m + 1) := by rw [one_div_pow]
  norm_num at this h e ⊢
  linarith

/-- The terms of the series. -/
noncomputable def nivenTerm (k : ℕ) : ℝ := 1 - 1 / zeta (k + 2)

theorem nivenTerm_bounds (k : ℕ) : 0 ≤ nivenTerm k ∧ nivenTerm k ≤ 3 * (1 / 2) ^ (k + 2) := by
  have h1 := zeta_one_le (k + 1) (by omega)
  have h2 := zeta_le (k + 1) (by omega)
  have h0 : 0 < zeta (k + 2) := by linarith
  unfold nivenTerm
  constructor
  · have : 1 / zeta (k + 2) ≤ 1 := by rw [div_le_one h0]; exact h1
    linarith
  · have : 1 - 1 / zeta (k + 2) ≤ zeta (k + 2) - 1 := by
      have e : zeta (k + 2) - 1 - (1 - 1 / zeta (k + 2)) = (zeta (k + 2) - 1) ^ 2 / zeta (k + 2) := by field_simp
      have : 0 ≤ (zeta (k + 2) - 1) ^ 2 / zeta (k + 2) := by positivity
      linarith
    have : zeta (k + 2) ≤ 1 + 3 * (1 / 2) ^ (k + 2) := h2
    linarith

theorem geo_hasSum (K : ℕ) : HasSum (fun k : ℕ => (3 : ℝ) * (1 / 2) ^ (k + K + 2)) (3 * (1 / 2) ^ (K + 1)) := by
  have h := (hasSum_geometric_of_lt_one (r := (1 / 2 : ℝ)) (by norm_num) (by norm_num)).mul_left (3 * (1 / 2) ^ (K + 2))
  have e : (3 : ℝ) * (1 / 2) ^ (K + 2) * (1 - 1 / 2)⁻¹ = 3 * (1 / 2) ^ (K + 1) := by rw [pow_succ]; norm_num; ring
  rw [e] at h
  refine h.congr_fun ?_ |> id
  intro k
  ring

theorem nivenTerm_summable : Summable nivenTerm :=
  Summable.of_nonneg_of_le (fun k => (nivenTerm_bounds k).1) (fun k => (nivenTerm_bounds k).2) (geo_hasSum 0).summable

theorem btw_niven_tail (K : ℕ) : Btw 0 (3 / 2 ^ (K + 1)) (∑' k, nivenTerm (k + K)) := by
  constructor
  · have : 0 ≤ ∑' k, nivenTerm (k + K) := tsum_nonneg (fun k => (nivenTerm_bounds (k + K)).1)
    simpa using this
  · have h := Summable.tsum_le_tsum (fun k => (nivenTerm_bounds (k + K)).2) ((summable_nat_add_iff K).2 nivenTerm_summable) (geo_hasSum K).summable
    rw [(geo_hasSum K).tsum_eq] at h
    push_cast
    rw [one_div_pow] at h
    rw [div_eq_mul_one_div]
    exact h

theorem btw_niven_term {k : ℕ} {lo hi : ℚ} (h : Btw lo hi (zeta (k + 2))) (h0 : 0 < lo) : Btw (1 - 1 / lo) (1 - 1 / hi) (nivenTerm k) := by
  have hi0 : (0 : ℝ) < lo := by exact_mod_cast h0
  have hz : 0 < zeta (k + 2) := lt_of_lt_of_le hi0 h.1
  unfold nivenTerm
  constructor
  · push_cast
    have := one_div_le_one_div_of_le hi0 h.1
    linarith
  · push_cast
    have := one_div_le_one_div_of_le hz h.2
    linarith

/-- How many terms of ζ(k + 6) are added. -/
def nivenN (k : ℕ) : ℕ := if k ≤ 4 then 3000 else 100

/-- Sums of lower bounds of the terms from the fifth on, with 100 binary digits. -/
def nivenLo : ℕ → ℤ
  | 0 => 0
  | k + 1 => nivenLo k + ⌊(1 - 1 / ((zfloor 100 (k + 6) (nivenN k + 1) / 2 ^ 100 + 1 / ((k + 5 : ℕ) * (nivenN k + 1) ^ (k + 5))) : ℚ)) * 2 ^ 100⌋

/-- Sums of upper bounds. -/
def nivenHi : ℕ → ℤ
  | 0 => 0
  | k + 1 => nivenHi k + ⌈(1 - 1 / (((zfloor 100 (k + 6) (nivenN k + 1) + (nivenN k + 1)) / 2 ^ 100 + 1 / ((k + 5 : ℕ) * (nivenN k : ℚ) ^ (k + 5))) : ℚ)) * 2 ^ 100⌉

theorem floor_sum (a : ℤ) (q : ℚ) : ((a + ⌊q * 2 ^ 100⌋ : ℤ) : ℚ) / 2 ^ 100 ≤ a / 2 ^ 100 + q := by
  have := Int.floor_le (q * 2 ^ 100)
  rw [Int.cast_add, add_div]
  apply add_le_add le_rfl
  rw [div_le_iff₀ (by positivity)]
  exact this

theorem ceil_sum (a : ℤ) (q : ℚ) : a / 2 ^ 100 + q ≤ ((a + ⌈q * 2 ^ 100⌉ : ℤ) : ℚ) / 2 ^ 100 := by
  have := Int.le_ceil (q * 2 ^ 100)
  rw [Int.cast_add, add_div]
  apply add_le_add le_rfl
  rw [le_div_iff₀ (by positivity)]
  exact this

theorem btw_niven_sum (K : ℕ) : Btw (nivenLo K / 2 ^ 100) (nivenHi K / 2 ^ 100) (∑ k ∈ Finset.range K, nivenTerm (k + 4)) := by
  induction K with
  | zero => simp [nivenLo, nivenHi, Btw]
  | succ k ih =>
    have hb := btw_zeta 100 (k + 5) (nivenN k) (by omega) (by unfold nivenN; split <;> decide)
    have hk := btw_niven_term (k := k + 4) hb (by positivity)
    rw [Finset.sum_range_succ]
    have h := ih.add hk
    refine h.widen ?_ ?_
    · exact floor_sum _ _
    · exact ceil_sum _ _

/-- **C115**: `nivenConstant` is the double nearest to the mean of the greatest exponents in the factorisations of the whole numbers. -/
theorem C115_nivenConstant : Nearest nivenConstant (1 + ∑' k : ℕ, (1 - 1 / ∑' n : ℕ, 1 / (n : ℝ) ^ (k + 2))) := by
  have b3 : Btw 1.20205690315959428536 1.20205690315959428541 (zeta 3) :=
    (btw_zeta3 200 (by decide)).widen (by decide +kernel) (by decide +kernel)
  have b5 : Btw 1.03692775514336992633 1.03692775514336992634 (zeta 5) :=
    (btw_zeta5 100 200 (by decide)).widen (by decide +kernel) (by decide +kernel)
  have h := ((Btw.rat 1).add ((((btw_niven_term (k := 0) btw_zeta2 (by decide +kernel)).add (btw_niven_term (k := 1) b3 (by decide +kernel))).add
    (btw_niven_term (k := 2) btw_zeta4 (by decide +kernel))).add (btw_niven_term (k := 3) b5 (by decide +kernel)))).add
    ((btw_niven_sum 64).add (btw_niven_tail 68))
  have e : ((1 : ℚ) : ℝ) + (nivenTerm 0 + nivenTerm 1 + nivenTerm 2 + nivenTerm 3) + (∑ k ∈ Finset.range 64, nivenTerm (k + 4) + ∑' k, nivenTerm (k + 68)) =
      1 + ∑' k : ℕ, nivenTerm k := by
    rw [← nivenTerm_summable.sum_add_tsum_nat_add 68]
    rw [show (68 : ℕ) = 4 + 64 from rfl, Finset.sum_range_add]
    simp only [Finset.sum_range_succ, Finset.sum_range_zero, Nat.add_comm 4]
    push_cast
    ring
  rw [e] at h
  exact nearest_of_btw h (by decide +kernel) (by decide +kernel)

/-! ### The twin prime constant -/

/-- How often 1 - p^-k is a factor, so that what is left begins at p^-7. -/
def twinKs : List ℕ := [2, 3, 3, 4, 4, 4, 5, 5, 5, 5, 5, 5, 6, 6, 6, 6, 6, 6, 6, 6, 6]

/-- The factor of a prime as a rational number. -/
def twinQ (p : ℕ) : ℚ := if p = 2 then 1 else 1 - 1 / ((p : ℚ) - 1) ^ 2

/-- Bounds of the product of the values of the zeta function. -/
def twinLo : ℚ := 1 / (1.64493406684822643649 * 1.20205690315959428541 ^ 2 * 1.0823232337111381916 ^ 3 * 1.03692775514336992634 ^ 6 * 1.01734306198444913973 ^ 9)
def twinHi : ℚ := 1 / (1.64493406684822643646 * 1.20205690315959428536 ^ 2 * 1.0823232337111381915 ^ 3 * 1.03692775514336992633 ^ 6 * 1.01734306198444913971 ^ 9)

/-- The values of the zeta function for the twin prime constant. -/
theorem twin_zeta : Btw twinLo twinHi (twinKs.map fun k => 1 / zeta k).prod := by
  have h := (Btw.rat 1).div ((((btw_zeta2.mul (btw_zeta3'.pow (by decide +kernel) 2) (by decide +kernel) (by decide +kernel)).mul (btw_zeta4.pow (by decide +kernel) 3) (by decide +kernel) (by decide +kernel)).mul
    (btw_zeta5'.pow (by decide +kernel) 6) (by decide +kernel) (by decide +kernel)).mul (btw_zeta6'.pow (by decide +kernel) 9) (by decide +kernel) (by decide +kernel)) (by decide +kernel) (by decide +kernel) (by decide +kernel)
  have e : (twinKs.map fun k => 1 / zeta k).prod = ((1 : ℚ) : ℝ) / (zeta 2 * zeta 3 ^ 2 * zeta 4 ^ 3 * zeta 5 ^ 6 * zeta 6 ^ 9) := by
    simp only [twinKs, List.map_cons, List.map_nil, List.prod_cons, List.prod_nil]
    push_cast
    simp only [one_div, mul_inv]
    ring
  rw [e]
  exact h

theorem twin_bounds {x : ℝ} (h0 : 0 ≤ x) (h1 : x ≤ 1 / 1000) :
    1 - 2 * x ≤ (1 - x) ^ 2 * prodR x twinKs ∧ (1 - x) ^ 2 * prodR x twinKs * (1 - 36 * x ^ 7) ≤ 1 - 2 * x := by
  have h := prod_bounds (1 :: 1 :: twinKs) 5 18 ((prodL (1 :: 1 :: twinKs)).drop 8) (by decide) (by decide +kernel) (by decide +kernel) (by decide) h0 h1
  simp only [prodR, pow_one] at h
  rw [← mul_assoc, ← pow_two] at h
  norm_num at h ⊢
  exact h

/-- **C115**: products of 1 - 1/(p-1)^2 over the odd primes converge, to a number of which the constant is the nearest double. -/
theorem C115_twinPrimes : ∃ l : ℝ, Filter.Tendsto (fun n => ∏ p ∈ (Nat.primesBelow n).filter (· ≠ 2), (1 - 1 / ((p : ℝ) - 1) ^ 2)) Filter.atTop (nhds l) ∧
    Nearest twinPrimes l := by
  have hq0 : ∀ p, 2 ≤ p → 0 ≤ twinQ p ∧ twinQ p ≤ 1 := by
    intro p hp
    unfold twinQ
    split
    · norm_num
    · have : (3 : ℚ) ≤ p := by exact_mod_cast (by omega : 3 ≤ p)
      constructor
      · rw [sub_nonneg, div_le_one (by nlinarith)]
        nlinarith
      · have : (0 : ℚ) ≤ 1 / ((p : ℚ) - 1) ^ 2 := by positivity
        linarith
  obtain ⟨l, hl⟩ := primeProd_converges (f := fun p => (twinQ p : ℝ)) (fun p hp => by exact_mod_cast (hq0 p hp).1) (fun p hp => by exact_mod_cast (hq0 p hp).2)
  refine ⟨l, hl.congr fun n => ?_, ?_⟩
  · unfold primeProd
    rw [Finset.prod_filter]
    refine Finset.prod_congr rfl fun p _ => ?_
    unfold twinQ
    by_cases h : p = 2 <;> simp [h]
  · have h := btw_limit (m := 6) (c := 36) twinQ twinKs (by decide) (by decide) hl (fun _ _ => rfl) (fun p hp => (hq0 p hp).1) (by decide +kernel) ?_
      (a := prodLo (fun p => twinQ p / prodQ (1 / p) twinKs) 1000 / 2 ^ 100) (b := prodHi (fun p => twinQ p / prodQ (1 / p) twinKs) 1000 / 2 ^ 100) (by decide +kernel) le_rfl le_rfl
      twin_zeta (by decide +kernel) (by decide +kernel)
    · exact nearest_of_btw h (by decide +kernel) (by decide +kernel)
    · intro p hp
      have hp' : (1000 : ℝ) ≤ p := by exact_mod_cast hp
      have hx0 : (0 : ℝ) ≤ 1 / p := by positivity
      have hx1 : 1 / (p : ℝ) ≤ 1 / 1000 := one_div_le_one_div_of_le (by norm_num) hp'
      obtain ⟨h1, h2⟩ := twin_bounds hx0 hx1
      have e : ((twinQ p : ℚ) : ℝ) = (1 - 2 * (1 / p)) / (1 - 1 / p) ^ 2 := by
        unfold twinQ
        rw [if_neg (by omega)]
        push_cast
        have : (p : ℝ) - 1 ≠ 0 := by linarith
        have h3 : (p : ℝ) ≠ 0 := by linarith
        field_simp
        ring
      have hpos : 0 < (1 - 1 / (p : ℝ)) ^ 2 := by
        have : 0 < 1 - 1 / (p : ℝ) := by linarith
        positivity
      rw [e]
      constructor
      · rw [div_le_iff₀ hpos]; linarith
      · rw [le_div_iff₀ hpos]
        have e2 : (1 / (p : ℝ)) ^ 7 = 1 / (p : ℝ) ^ (6 + 1) := by rw [one_div_pow]
        rw [e2] at h2
        push_cast
        linarith

/-! ### The Feller-Tornier constant -/

/-- How often 1 - p^-k is a factor, so that what is left begins at p^-8. -/
def fellerKs : List ℕ := [2, 2, 4, 6, 6]

/-- The factor of a prime as a rational number. -/
def fellerQ (p : ℕ) : ℚ := 1 - 2 / (p : ℚ) ^ 2

/-- Bounds of the product of the values of the zeta function. -/
def fellerLo : ℚ := 1 / (1.64493406684822643649 ^ 2 * 1.0823232337111381916 * 1.01734306198444913973 ^ 2)
def fellerHi : ℚ := 1 / (1.64493406684822643646 ^ 2 * 1.0823232337111381915 * 1.01734306198444913971 ^ 2)

theorem feller_zeta : Btw fellerLo fellerHi (fellerKs.map fun k => 1 / zeta k).prod := by
  have h := (Btw.rat 1).div (((btw_zeta2.pow (by decide +kernel) 2).mul btw_zeta4 (by decide +kernel) (by decide +kernel)).mul
    (btw_zeta6'.pow (by decide +kernel) 2) (by decide +kernel) (by decide +kernel)) (by decide +kernel) (by decide +kernel) (by decide +kernel)
  have e : (fellerKs.map fun k => 1 / zeta k).prod = ((1 : ℚ) : ℝ) / (zeta 2 ^ 2 * zeta 4 * zeta 6 ^ 2) := by
    simp only [fellerKs, List.map_cons, List.map_nil, List.prod_cons, List.prod_nil]
    push_cast
    simp only [one_div, mul_inv]
    ring
  rw [e]
  exact h

theorem feller_bounds {x : ℝ} (h0 : 0 ≤ x) (h1 : x ^ 2 ≤ 1 / 1000) :
    1 - 2 * x ^ 2 ≤ prodR x fellerKs ∧ prodR x fellerKs * (1 - 6 * x ^ 8) ≤ 1 - 2 * x ^ 2 := by
  have h := prod_bounds [1, 1, 2, 3, 3] 2 3 ((prodL [1, 1, 2, 3, 3]).drop 5) (by decide) (by decide +kernel) (by decide +kernel) (by decide) (pow_nonneg h0 2) h1
  simp only [prodR, fellerKs, ← pow_mul] at h ⊢
  norm_num at h ⊢
  exact h

/-- **C115**: products of 1 - 2/p^2 over the primes converge; the constant is the nearest double to one half of the limit plus one half. -/
theorem C115_fellerTornier : ∃ l : ℝ, Filter.Tendsto (fun n => ∏ p ∈ Nat.primesBelow n, (1 - 2 / (p : ℝ) ^ 2)) Filter.atTop (nhds l) ∧
    Nearest fellerTornier (1 / 2 + l / 2) := by
  have hq0 : ∀ p, 2 ≤ p → 0 ≤ fellerQ p ∧ fellerQ p ≤ 1 := by
    intro p hp
    unfold fellerQ
    have : (2 : ℚ) ≤ p := by exact_mod_cast hp
    constructor
    · rw [sub_nonneg, div_le_one (by nlinarith)]
      nlinarith
    · have : (0 : ℚ) ≤ 2 / (p : ℚ) ^ 2 := by positivity
      linarith
  obtain ⟨l, hl⟩ := primeProd_converges (f := fun p => (fellerQ p : ℝ)) (fun p hp => by exact_mod_cast (hq0 p hp).1) (fun p hp => by exact_mod_cast (hq0 p hp).2)
  refine ⟨l, hl.congr fun n => ?_, ?_⟩
  · unfold primeProd
    refine Finset.prod_congr rfl fun p _ => ?_
    unfold fellerQ
    push_cast
    rfl
  · have h := btw_limit (m := 7) (c := 6) fellerQ fellerKs (by decide) (by decide) hl (fun _ _ => rfl) (fun p hp => (hq0 p hp).1) (by decide +kernel) ?_
      (a := prodLo (fun p => fellerQ p / prodQ (1 / p) fellerKs) 1000 / 2 ^ 100) (b := prodHi (fun p => fellerQ p / prodQ (1 / p) fellerKs) 1000 / 2 ^ 100) (by decide +kernel) le_rfl le_rfl
      feller_zeta (by decide +kernel) (by decide +kernel)
    · have h2 := (Btw.rat (1 / 2)).add (h.div (Btw.rat 2) (by decide +kernel) (by decide +kernel) (by decide +kernel))
      have e : ((1 / 2 : ℚ) : ℝ) + l / ((2 : ℚ) : ℝ) = 1 / 2 + l / 2 := by push_cast; rfl
      rw [e] at h2
      exact nearest_of_btw h2 (by decide +kernel) (by decide +kernel)
    · intro p hp
      have hp' : (1000 : ℝ) ≤ p := by exact_mod_cast hp
      have hx0 : (0 : ℝ) ≤ 1 / p := by positivity
      have hx1 : 1 / (p : ℝ) ≤ 1 / 1000 := one_div_le_one_div_of_le (by norm_num) hp'
      obtain ⟨h1, h2⟩ := feller_bounds hx0 (by nlinarith)
      have e : ((fellerQ p : ℚ) : ℝ) = 1 - 2 * (1 / (p : ℝ)) ^ 2 := by
        unfold fellerQ
        push_cast
        rw [one_div_pow, mul_one_div]
      rw [e]
      refine ⟨h1, ?_⟩
      rw [one_div_pow] at h2
      exact_mod_cast h2

end Verif.Constants
