import Verif.Lemmas.VecFp
import Mathlib.Analysis.InnerProductSpace.PiL2

/-!
# C152: lengths and unit vectors in floating point

For `Vector<double, n>` that fills its packets (otherwise the padding is added, C54), with overflow, underflow and division by zero.
-/

namespace Verif.Vec

open Verif.Ieee Verif.Num Verif.IntSqrt

/-- The squared length of the components, without rounding. -/
def len2 (v : V Fp) : ℚ := ∑ j ∈ Finset.range v.dims, value (v.lane j) ^ 2

/-- The whole property: for every vector of finite numbers that is not zero `mag` is within `n + 4` roundings of the length, and `norm` is
the unit vector of that direction up to `n + 6` roundings in each component (and the least number), of length one up to `n + 7` roundings. -/
def C152Claim : Prop := ∀ (asserts : Bool) (mem : Nat → Fp) (v : V Fp), Finite v → 1 ≤ v.width → v.width ∣ v.dims → v.dims ≤ 2 ^ 25 →
  0 < len2 v →
  (∃ g, magF asserts mem (.vec v) = .ok (.fin false g) ∧ |(g : ℝ) - √(len2 v : ℝ)| ≤ (v.dims + 4) * (2 : ℝ) ^ (-53 : ℤ) * √(len2 v : ℝ)) ∧
  ∃ u, normF asserts mem (.vec v) = .ok u ∧ u.dims = v.dims ∧ Finite u ∧
    (∀ j, j < v.dims → |(value (u.lane j) : ℝ) - value (v.lane j) / √(len2 v : ℝ)| ≤
      (v.dims + 6) * (2 : ℝ) ^ (-53 : ℤ) * |value (v.lane j) / √(len2 v : ℝ)| + (2 : ℝ) ^ (-1075 : ℤ)) ∧
    |√(len2 u : ℝ) - 1| ≤ (v.dims + 7) * (2 : ℝ) ^ (-53 : ℤ)

/-! ### Real arithmetic of the errors -/

theorem mag_core {n u S M G : ℝ} (hn : 0 ≤ n) (hu : 0 ≤ u) (hnu : (n + 6) ^ 2 * u ≤ 1) (hS : 0 < S) (hM : |M - S| ≤ (n + 2) * u * S)
    (hG : |G - √M| ≤ u * √M) : |G - √S| ≤ (n + 4) * u * √S := by
  have e1 : (n + 2) * u ≤ 1 := by nlinarith [mul_nonneg hn hu, mul_nonneg (mul_nonneg hn hn) hu]
  have h0 : 0 ≤ M := by
    have := abs_le.1 hM
    nlinarith
  have s1 := Real.sqrt_pos.2 hS
  have s2 := Real.sqrt_nonneg M
  have d : |√M - √S| ≤ (n + 2) * u * √S := by
    have e : (√M - √S) * (√M + √S) = M - S := by
      have a := Real.mul_self_sqrt h0
      have b := Real.mul_self_sqrt hS.le
      nlinarith
    have : |√M - √S| * (√M + √S) = |M - S| := by rw [← e, abs_mul, abs_of_pos (by linarith : (0 : ℝ) < √M + √S)]
    have l : |√M - √S| * √S ≤ (n + 2) * u * √S * √S := by
      have b := Real.mul_self_sqrt hS.le
      have := mul_nonneg (abs_nonneg (√M - √S)) s2
      nlinarith
    exact le_of_mul_le_mul_right l s1
  have m2 : √M ≤ 2 * √S := by
    have := abs_le.1 d
    nlinarith
  have t := abs_sub_le G (√M) (√S)
  have : u * √M ≤ u * (2 * √S) := mul_le_mul_of_nonneg_left m2 hu
  linarith

theorem comp_core {n u S G x r t : ℝ} (hn : 0 ≤ n) (hu : 0 ≤ u) (hnu : (n + 6) ^ 2 * u ≤ 1) (hS : 0 < S)
    (hG : |G - √S| ≤ (n + 4) * u * √S) (hr : |r - x / G| ≤ u * |x / G| + t) :
    0 < G ∧ |x / G| ≤ 2 * |x / √S| ∧ |r - x / √S| ≤ (n + 6) * u * |x / √S| + t := by
  have s1 := Real.sqrt_pos.2 hS
  have e1 : (n + 4) * u ≤ 1 / 2 := by nlinarith [mul_nonneg hn hu, mul_nonneg (mul_nonneg hn hn) hu]
  have e2 : (n + 6) * ((n + 4) * u) ≤ 1 := by nlinarith [mul_nonneg hn hu, mul_nonneg (mul_nonneg hn hn) hu]
  obtain ⟨g1, g2⟩ := abs_le.1 hG
  have hGl : (1 - (n + 4) * u) * √S ≤ G := by linarith
  have hGp : 0 < G := by nlinarith
  set y := x / √S with hy
  have hxy : x = y * √S := by rw [hy, div_mul_cancel₀ _ s1.ne']
  have q1 : |x / G| = |y| * (√S / G) := by
    rw [hxy, mul_div_assoc, abs_mul, abs_of_pos (div_pos s1 hGp)]
  have hy0 := abs_nonneg y
  have q2 : √S / G * (1 - (n + 4) * u) ≤ 1 := by
    rw [div_mul_eq_mul_div, div_le_one hGp]
    linarith
  have q0 : 0 < √S / G := div_pos s1 hGp
  have q3 : √S / G ≤ 2 := by nlinarith
  refine ⟨hGp, ?_, ?_⟩
  · rw [q1]; nlinarith
  · have d : |x / G - y| ≤ |y| * (√S / G * ((n + 4) * u)) := by
      have : x / G - y = y * (√S / G) * ((√S - G) / √S) := by
        rw [hxy]
        field_simp
      rw [this, abs_mul, abs_mul, abs_of_pos q0, mul_assoc]
      refine mul_le_mul_of_nonneg_left ?_ hy0
      refine mul_le_mul_of_nonneg_left ?_ q0.le
      rw [abs_div, abs_of_pos s1, div_le_iff₀ s1, abs_sub_comm]
      exact hG
    have tr := abs_sub_le r (x / G) y
    have fin : √S / G * ((n + 5) * u) ≤ (n + 6) * u := by
      have : (n + 5) * u ≤ (n + 6) * u * (1 - (n + 4) * u) := by nlinarith [mul_le_mul_of_nonneg_right e2 hu]
      have h2 := mul_le_mul_of_nonneg_left this q0.le
      have h3 : (n + 6) * u * (√S / G * (1 - (n + 4) * u)) ≤ (n + 6) * u * 1 :=
        mul_le_mul_of_nonneg_left q2 (by positivity)
      nlinarith
    have := mul_le_mul_of_nonneg_left fin hy0
    rw [q1] at hr
    nlinarith

theorem len_core {n : ℕ} {a u t : ℝ} (ha : 0 ≤ a) (hu : 0 ≤ u) (ht : 0 ≤ t) (hnt : n * t ≤ u) (y r : ℕ → ℝ)
    (hy : ∑ j ∈ Finset.range n, y j ^ 2 = 1) (hr : ∀ j, j < n → |r j - y j| ≤ a * |y j| + t) :
    |√(∑ j ∈ Finset.range n, r j ^ 2) - 1| ≤ a + u := by
  let Y : EuclideanSpace ℝ (Fin n) := WithLp.toLp 2 fun j => y j
  let R : EuclideanSpace ℝ (Fin n) := WithLp.toLp 2 fun j => r j
  have hn0 : 1 ≤ n := by
    rcases Nat.eq_zero_or_pos n with h | h
    · subst h; simp at hy
    · exact h
  have nY : ‖Y‖ = 1 := by
    rw [EuclideanSpace.norm_eq]
    simp only [Real.norm_eq_abs, sq_abs, Y]
    rw [Fin.sum_univ_eq_sum_range (fun j => y j ^ 2), hy, Real.sqrt_one]
  have nR : ‖R‖ = √(∑ j ∈ Finset.range n, r j ^ 2) := by
    rw [EuclideanSpace.norm_eq]
    simp only [Real.norm_eq_abs, sq_abs, R]
    rw [Fin.sum_univ_eq_sum_range (fun j => r j ^ 2)]
  have nD : ‖R - Y‖ ≤ a + u := by
    rw [EuclideanSpace.norm_eq]
    simp only [Real.norm_eq_abs, sq_abs, PiLp.sub_apply, Y, R]
    rw [Fin.sum_univ_eq_sum_range (fun j => (r j - y j) ^ 2)]
    apply Real.sqrt_le_iff.2
    refine ⟨by linarith, ?_⟩
    have each : ∀ j ∈ Finset.range n, (r j - y j) ^ 2 ≤ a ^ 2 * y j ^ 2 + (2 * a * t + t ^ 2) := by
      intro j hj
      have h1 := hr j (Finset.mem_range.1 hj)
      have hy1 : |y j| ≤ 1 := by
        have := Finset.single_le_sum (f := fun j => y j ^ 2) (fun i _ => sq_nonneg _) hj
        rw [hy] at this
        exact (sq_le_one_iff_abs_le_one _).1 this
      have h2 : (r j - y j) ^ 2 ≤ (a * |y j| + t) ^ 2 := by
        rw [← sq_abs (r j - y j)]
        exact pow_le_pow_left₀ (abs_nonneg _) h1 2
      have h3 : a * t * |y j| ≤ a * t * 1 := mul_le_mul_of_nonneg_left hy1 (mul_nonneg ha ht)
      have h4 := sq_abs (y j)
      nlinarith
    have := Finset.sum_le_sum each
    rw [Finset.sum_add_distrib, ← Finset.mul_sum, hy, Finset.sum_const, Finset.card_range, nsmul_eq_mul] at this
    have n1 : (1 : ℝ) ≤ n := by exact_mod_cast hn0
    have htu : t ≤ u := by nlinarith
    have a1 : a * (n * t) ≤ a * u := mul_le_mul_of_nonneg_left hnt ha
    have a2 : n * t * t ≤ u * u := mul_le_mul hnt htu ht hu
    nlinarith
  have := abs_norm_sub_norm_le R Y
  rw [nR, nY] at this
  exact this.trans nD

/-! ### The code -/

theorem unit64 : unitRoundoff binary64 = (2 : ℚ) ^ (-53 : ℤ) := rfl

theorem tiny64 : halfTiny binary64 = (2 : ℚ) ^ (-1075 : ℤ) := rfl

/-- The squared length in floating point. -/
theorem mag2_err (asserts : Bool) (mem : Nat → Fp) {v : V Fp} (hv : Finite v) (hw : 1 ≤ v.width) (hd : v.width ∣ v.dims) :
    ∃ M, 0 ≤ M ∧ mag2 asserts mem (.vec v) = .ok (big M) ∧
      |M - len2 v| ≤ ((1 + (2 : ℚ) ^ (-53 : ℤ)) ^ v.dims - 1) * len2 v +
        v.dims * (1 + (2 : ℚ) ^ (-53 : ℤ)) ^ v.dims * (2 : ℚ) ^ (-1075 : ℤ) := by
  obtain ⟨M, h1, h2, h3⟩ := mag2_big asserts mem (fun _ => 0) hv hw hd
  refine ⟨M.val, h2, h3, ?_⟩
  obtain ⟨-, ⟨M', e, -, -, hb⟩, -⟩ := C111_reductions_partial (f := binary64) asserts hw hd (fun _ => 0) (a := .vec (flVec v))
    (b := .vec (flVec v)) ⟨rfl, rfl⟩ trivial ⟨rfl, rfl⟩
  rw [h1] at e
  injection e with e
  subst e
  have es : ∑ j ∈ Finset.range v.dims, (meaning (.vec (flVec v)) j).val * (meaning (.vec (flVec v)) j).val = len2 v := by
    unfold len2
    refine Finset.sum_congr rfl fun j hj => ?_
    rw [pow_two]
    show ((flVec v).lane j).val * ((flVec v).lane j).val = _
    rw [flVec_val hv (Finset.mem_range.1 hj)]
  rw [es, unit64, tiny64] at hb
  exact hb

/-- The same, relative to the squared length where that is not tiny. -/
theorem mag2_rel (asserts : Bool) (mem : Nat → Fp) {v : V Fp} (hv : Finite v) (hw : 1 ≤ v.width) (hd : v.width ∣ v.dims)
    (hn : v.dims ≤ 2 ^ 25) (hlo : v.dims * (2 : ℚ) ^ (-1022 : ℤ) ≤ len2 v) :
    ∃ M, 0 ≤ M ∧ mag2 asserts mem (.vec v) = .ok (big M) ∧ |M - len2 v| ≤ (v.dims + 2) * (2 : ℚ) ^ (-53 : ℤ) * len2 v := by
  obtain ⟨M, h0, h1, hb⟩ := mag2_err asserts mem hv hw hd
  refine ⟨M, h0, h1, hb.trans ?_⟩
  have hS : 0 ≤ len2 v := Finset.sum_nonneg fun _ _ => sq_nonneg _
  have hn' : (v.dims : ℚ) ≤ 2 ^ 25 := by exact_mod_cast hn
  have hn0 : (0 : ℚ) ≤ v.dims := Nat.cast_nonneg _
  set u := (2 : ℚ) ^ (-53 : ℤ) with hu
  have hu' : u = 1 / 2 ^ 53 := by rw [hu]; norm_num
  have hup : 0 < u := by rw [hu']; positivity
  have e1 : (2 : ℚ) ^ (-1075 : ℤ) = (2 : ℚ) ^ (-1022 : ℤ) * u := by rw [hu, ← zpow_add₀ (by norm_num)]; congr 1
  have hp : (1 : ℚ) ≤ (1 + u) ^ v.dims := one_le_pow₀ (by linarith)
  have step : v.dims * (1 + u) ^ v.dims * (2 : ℚ) ^ (-1075 : ℤ) ≤ (1 + u) ^ v.dims * u * len2 v := by
    rw [e1]
    have := mul_le_mul_of_nonneg_left hlo (mul_nonneg (by linarith : (0 : ℚ) ≤ (1 + u) ^ v.dims) hup.le)
    linarith
  have k := pow_unit_le (u := u) (n := v.dims + 1) hup.le (by
    push_cast
    rw [hu']
    have : ((v.dims : ℚ) + 1) * (1 / 2 ^ 53) ≤ (2 ^ 25 + 1) * (1 / 2 ^ 53) := by gcongr
    refine lt_of_le_of_lt this ?_
    norm_num)
  push_cast at k
  have k2 : ((v.dims : ℚ) + 1) * u / (1 - (v.dims + 1) * u) ≤ (v.dims + 2) * u := by
    have small : ((v.dims : ℚ) + 2) * (v.dims + 1) * u ≤ 1 := by
      rw [hu']
      have : ((v.dims : ℚ) + 2) * (v.dims + 1) * (1 / 2 ^ 53) ≤ (2 ^ 25 + 2) * (2 ^ 25 + 1) * (1 / 2 ^ 53) := by gcongr
      refine this.trans ?_
      norm_num
    have pos : 0 < 1 - ((v.dims : ℚ) + 1) * u := by nlinarith
    rw [div_le_iff₀ pos]
    have := mul_le_mul_of_nonneg_right small hup.le
    nlinarith
  have k3 := mul_le_mul_of_nonneg_right (k.trans k2) hS
  rw [pow_succ] at k3
  nlinarith

theorem cast_u : (((2 : ℚ) ^ (-53 : ℤ) : ℚ) : ℝ) = (2 : ℝ) ^ (-53 : ℤ) := by push_cast; rfl

theorem nu_small {n : ℕ} (hn : n ≤ 2 ^ 25) : ((n : ℝ) + 6) ^ 2 * (2 : ℝ) ^ (-53 : ℤ) ≤ 1 := by
  have hn' : (n : ℝ) ≤ 2 ^ 25 := by exact_mod_cast hn
  have e : (2 : ℝ) ^ (-53 : ℤ) = 1 / 2 ^ 53 := by norm_num
  rw [e]
  calc ((n : ℝ) + 6) ^ 2 * (1 / 2 ^ 53) ≤ (2 ^ 25 + 6) ^ 2 * (1 / 2 ^ 53) := by gcongr
    _ ≤ 1 := by norm_num

/-- One component of the unit vector. -/
theorem div_comp {s : Bool} {m g : ℚ} (hm : 0 ≤ m) (hg : 0 < g) (h2 : m / g ≤ 2) :
    divF (.fin s m) (.fin false g) = .fin s (rnd binary64 (m / g)) ∧ 0 ≤ rnd binary64 (m / g) ∧
      |value (.fin s (rnd binary64 (m / g))) - value (.fin s m) / g| ≤
        (2 : ℚ) ^ (-53 : ℤ) * |value (.fin s m) / g| + (2 : ℚ) ^ (-1075 : ℤ) := by
  have h0 : 0 ≤ m / g := div_nonneg hm hg.le
  have hle : rnd binary64 (m / g) ≤ 2 := by
    refine rnd_le_of_repr ?_ h2
    have := repr_two_zpow (f := binary64) (e := 1) (by decide)
    rwa [zpow_one] at this
  refine ⟨?_, rnd_nonneg h0, ?_⟩
  · simp only [divF]
    rw [if_neg hg.ne', toFp]
    have hlt : rnd FTy.dbl.fmt (m / g) < (2 : ℚ) ^ FTy.dbl.emax := lt_of_le_of_lt hle <| by
      calc (2 : ℚ) = 2 ^ 1 := by norm_num
        _ < (2 : ℚ) ^ FTy.dbl.emax := pow_lt_pow_right₀ (by norm_num) (by decide)
    rw [if_neg (not_le.2 hlt)]
    cases s <;> rfl
  · have e := rnd_err binary64 (m / g)
    rw [unit64, tiny64] at e
    cases s
    · exact e
    · simp only [value, Fp.signed, if_true]
      rw [neg_div, abs_neg, show -rnd binary64 (m / g) - -(m / g) = -(rnd binary64 (m / g) - m / g) by ring, abs_neg]
      exact e

/-- **C152 (accuracy).** Where the squared length is neither too small nor too large for a `double`: the length, the unit vector and the
length of the unit vector, in all dimensions up to 2^25 that fill their packets. -/
theorem C152_partial (asserts : Bool) (mem : Nat → Fp) (v : V Fp) (hv : Finite v) (hw : 1 ≤ v.width) (hd : v.width ∣ v.dims)
    (hn : v.dims ≤ 2 ^ 25) (hn0 : 0 < v.dims) (hlo : v.dims * (2 : ℚ) ^ (-1022 : ℤ) ≤ len2 v) (hhi : len2 v ≤ (2 : ℚ) ^ 1023) :
    (∃ g, magF asserts mem (.vec v) = .ok (.fin false g) ∧ |(g : ℝ) - √(len2 v : ℝ)| ≤ (v.dims + 4) * (2 : ℝ) ^ (-53 : ℤ) * √(len2 v : ℝ)) ∧
    ∃ u, normF asserts mem (.vec v) = .ok u ∧ u.dims = v.dims ∧ Finite u ∧
      (∀ j, j < v.dims → |(value (u.lane j) : ℝ) - value (v.lane j) / √(len2 v : ℝ)| ≤
        (v.dims + 6) * (2 : ℝ) ^ (-53 : ℤ) * |value (v.lane j) / √(len2 v : ℝ)| + (2 : ℝ) ^ (-1075 : ℤ)) ∧
      |√(len2 u : ℝ) - 1| ≤ (v.dims + 7) * (2 : ℝ) ^ (-53 : ℤ) := by
  obtain ⟨M, hM0, hM, hb⟩ := mag2_rel asserts mem hv hw hd hn hlo
  have hup : (0 : ℚ) < (2 : ℚ) ^ (-53 : ℤ) := zpow_pos (by norm_num) _
  have hupR : (0 : ℝ) < (2 : ℝ) ^ (-53 : ℤ) := zpow_pos (by norm_num) _
  have hn1 : (0 : ℚ) < v.dims := by exact_mod_cast hn0
  have hS : 0 < len2 v := lt_of_lt_of_le (mul_pos hn1 (zpow_pos (by norm_num) _)) hlo
  have small : ((v.dims : ℚ) + 2) * (2 : ℚ) ^ (-53 : ℤ) ≤ 1 / 2 := by
    have hn' : (v.dims : ℚ) ≤ 2 ^ 25 := by exact_mod_cast hn
    have e : (2 : ℚ) ^ (-53 : ℤ) = 1 / 2 ^ 53 := by norm_num
    rw [e]
    calc ((v.dims : ℚ) + 2) * (1 / 2 ^ 53) ≤ (2 ^ 25 + 2) * (1 / 2 ^ 53) := by gcongr
      _ ≤ 1 / 2 := by norm_num
  obtain ⟨b1, b2⟩ := abs_le.1 hb
  have half := mul_le_mul_of_nonneg_right small hS.le
  have hMp : 0 < M := by
    generalize ((v.dims : ℚ) + 2) * (2 : ℚ) ^ (-53 : ℤ) * len2 v = P at b1 half
    clear hlo hhi
    linarith
  have hMlt : M < (2 : ℚ) ^ 1024 := by
    have e : (2 : ℚ) ^ 1024 = 2 * 2 ^ 1023 := by rw [← pow_succ']
    have hB : (0 : ℚ) < 2 ^ 1023 := by positivity
    rw [e]
    generalize ((v.dims : ℚ) + 2) * (2 : ℚ) ^ (-53 : ℤ) * len2 v = P at b2 half
    clear hlo e hb b1 small
    generalize (2 : ℚ) ^ 1023 = B at *
    linarith
  rw [big_lt hMlt] at hM
  have hsq : stdSqrt (.fin false M) = .fin false (sqrtRnd M) := by
    simp only [stdSqrt]
    rw [if_neg hMp.ne', if_neg Bool.false_ne_true]
  set g := sqrtRnd M with hg
  have hSR : (0 : ℝ) < (len2 v : ℝ) := by exact_mod_cast hS
  have hbR : |(M : ℝ) - (len2 v : ℝ)| ≤ ((v.dims : ℝ) + 2) * (2 : ℝ) ^ (-53 : ℤ) * (len2 v : ℝ) := by
    have : ((|M - len2 v| : ℚ) : ℝ) ≤ (((v.dims + 2) * (2 : ℚ) ^ (-53 : ℤ) * len2 v : ℚ) : ℝ) := by exact_mod_cast hb
    push_cast at this
    exact this
  have hG := mag_core (Nat.cast_nonneg v.dims) hupR.le (nu_small hn) hSR hbR (sqrtRnd_err hMp)
  refine ⟨⟨g, ?_, hG⟩, ?_⟩
  · unfold magF
    rw [hM, Out.ok_bind, hsq]
  have hnorm : norm stdSqrt asserts mem (.vec v) = .ok (.bin (· / ·) (.vec v) (.scalar (.fin false g))) := by
    unfold norm
    rw [hM, Out.ok_bind, hsq]
  obtain ⟨u, hu1, hu2, hu3, hu4⟩ := eval_spec (asserts := asserts) (n := v.dims) (w := v.width) hw mem
    (e := .bin (· / ·) (.vec v) (.scalar (.fin false g))) ⟨⟨rfl, rfl⟩, trivial⟩ (Or.inl trivial)
  rw [packets_mul hw hd] at hu4
  have gpos : 0 < g := by
    have := (comp_core (x := 0) (r := 0) (t := 0) (Nat.cast_nonneg v.dims) hupR.le (nu_small hn) hSR hG (by simp)).1
    exact_mod_cast this
  -- one component
  have comp : ∀ j, j < v.dims → ∃ s k, u.lane j = .fin s k ∧ 0 ≤ k ∧ Repr binary64 k ∧
      |(value (u.lane j) : ℝ) - value (v.lane j) / √(len2 v : ℝ)| ≤
        ((v.dims : ℝ) + 6) * (2 : ℝ) ^ (-53 : ℤ) * |value (v.lane j) / √(len2 v : ℝ)| + (2 : ℝ) ^ (-1075 : ℤ) := by
    intro j hj
    obtain ⟨s, m, e, hm, hr⟩ := hv j hj
    have hl : u.lane j = divF (.fin s m) (.fin false g) := by rw [hu4 j hj]; show divF (v.lane j) _ = _; rw [e]; rfl
    have hab : |value (Fp.fin s m)| = m := by
      cases s
      · exact abs_of_nonneg hm
      · simp only [value, Fp.signed, if_true, abs_neg]; exact abs_of_nonneg hm
    have hy : |(value (v.lane j) : ℝ) / √(len2 v : ℝ)| ≤ 1 := by
      rw [abs_div, abs_of_pos (Real.sqrt_pos.2 hSR), div_le_one (Real.sqrt_pos.2 hSR)]
      apply Real.abs_le_sqrt
      have : value (v.lane j) ^ 2 ≤ len2 v :=
        Finset.single_le_sum (f := fun j => value (v.lane j) ^ 2) (fun i _ => sq_nonneg _) (Finset.mem_range.2 hj)
      exact_mod_cast this
    have hq := (comp_core (x := (value (v.lane j) : ℝ)) (r := (value (v.lane j) : ℝ) / g) (t := 0) (Nat.cast_nonneg v.dims) hupR.le (nu_small hn)
      hSR hG (by rw [sub_self, abs_zero]; positivity)).2.1
    have h2 : m / g ≤ 2 := by
      have h3 : |(value (v.lane j) : ℝ) / g| ≤ 2 := by linarith
      rw [e, abs_div] at h3
      have gR : (0 : ℝ) < g := by exact_mod_cast gpos
      rw [abs_of_pos gR, ← Rat.cast_abs, hab] at h3
      exact_mod_cast h3
    obtain ⟨d1, d2, d3⟩ := div_comp (s := s) hm gpos h2
    refine ⟨s, _, hl.trans d1, d2, repr_rnd _ _, ?_⟩
    refine (comp_core (Nat.cast_nonneg v.dims) hupR.le (nu_small hn) hSR hG ?_).2.2
    rw [hl, d1, e]
    have : ((|value (Fp.fin s (rnd binary64 (m / g))) - value (Fp.fin s m) / g| : ℚ) : ℝ) ≤
        (((2 : ℚ) ^ (-53 : ℤ) * |value (Fp.fin s m) / g| + (2 : ℚ) ^ (-1075 : ℤ) : ℚ) : ℝ) := by exact_mod_cast d3
    push_cast at this
    exact this
  refine ⟨u, ?_, hu2, ?_, fun j hj => ?_, ?_⟩
  · unfold normF
    rw [hnorm, Out.ok_bind, hu1]
  · intro j hj
    rw [hu2] at hj
    obtain ⟨s, k, h1, h2, h3, -⟩ := comp j hj
    exact ⟨s, k, h1, h2, h3⟩
  · obtain ⟨s, k, -, -, -, h⟩ := comp j hj
    exact h
  · have := len_core (n := v.dims) (a := ((v.dims : ℝ) + 6) * (2 : ℝ) ^ (-53 : ℤ)) (u := (2 : ℝ) ^ (-53 : ℤ)) (t := (2 : ℝ) ^ (-1075 : ℤ))
      (by positivity) hupR.le (by positivity) ?_ (fun j => (value (v.lane j) : ℝ) / √(len2 v : ℝ)) (fun j => (value (u.lane j) : ℝ)) ?_
      (fun j hj => by obtain ⟨s, k, -, -, -, h⟩ := comp j hj; exact h)
    · have e : ((len2 u : ℚ) : ℝ) = ∑ j ∈ Finset.range v.dims, (value (u.lane j) : ℝ) ^ 2 := by
        unfold len2
        rw [hu2]
        push_cast
        rfl
      rw [e]
      linarith
    · have e : (2 : ℝ) ^ (-1075 : ℤ) = (2 : ℝ) ^ (-1022 : ℤ) * (2 : ℝ) ^ (-53 : ℤ) := by
        rw [← zpow_add₀ (by norm_num)]; congr 1
      rw [e, ← mul_assoc]
      have hn' : (v.dims : ℝ) ≤ 2 ^ 25 := by exact_mod_cast hn
      have h1 : (v.dims : ℝ) * (2 : ℝ) ^ (-1022 : ℤ) ≤ 1 := by
        calc (v.dims : ℝ) * (2 : ℝ) ^ (-1022 : ℤ) ≤ 2 ^ 25 * (2 : ℝ) ^ (-25 : ℤ) := by
              refine mul_le_mul hn' (zpow_le_zpow_right₀ (by norm_num) (by norm_num)) (by positivity) (by positivity)
          _ = 1 := by norm_num
      nlinarith
    · simp only [div_pow]
      rw [← Finset.sum_div, Real.sq_sqrt hSR.le]
      have e : ∑ j ∈ Finset.range v.dims, (value (v.lane j) : ℝ) ^ 2 = ((len2 v : ℚ) : ℝ) := by
        unfold len2
        push_cast
        rfl
      rw [e, div_self hSR.ne']

theorem addUp_zero (n : Nat) (g : Nat → Fp) (h : ∀ i, i < n → g i = 0) : addUp n g = 0 := by
  unfold addUp
  induction n with
  | zero => rfl
  | succ n ih =>
    simp only [List.range_succ, List.foldl_append, List.foldl_cons, List.foldl_nil]
    rw [ih fun i hi => h i (by omega), h n (by omega)]
    show addF (.fin false 0) (.fin false 0) = .fin false 0
    simp [addF, Fp.signed]

theorem abs_value {s : Bool} {m : ℚ} (hm : 0 ≤ m) : |value (Fp.fin s m)| = m := by
  cases s
  · exact abs_of_nonneg hm
  · simp only [value, Fp.signed, if_true, abs_neg]; exact abs_of_nonneg hm

/-- **C152 (too small).** If all components are below 2^-538, the length is zero and every component of the unit vector is NaN or infinite. -/
theorem C152_small (asserts : Bool) (mem : Nat → Fp) (v : V Fp) (hv : Finite v) (hw : 1 ≤ v.width) (hd : v.width ∣ v.dims)
    (hs : ∀ j, j < v.dims → |value (v.lane j)| < (2 : ℚ) ^ (-538 : ℤ)) :
    magF asserts mem (.vec v) = .ok (.fin false 0) ∧
    ∃ u, normF asserts mem (.vec v) = .ok u ∧ ∀ j, j < v.dims →
      u.lane j = if value (v.lane j) = 0 then .nan true else .inf (v.lane j).sign := by
  have hp := packets_mul hw hd
  have hM : mag2 asserts mem (.vec v) = .ok (.fin false 0) := by
    refine congrArg Out.ok (addUp_zero _ _ fun l hl => addUp_zero _ _ fun i hi => ?_)
    have hj : i * v.width + l < v.dims := by
      calc i * v.width + l < i * v.width + v.width := by omega
        _ = (i + 1) * v.width := by ring
        _ ≤ packets v.dims v.width * v.width := Nat.mul_le_mul_right _ hi
        _ = v.dims := hp
    obtain ⟨s, m, e, hm, -⟩ := hv _ hj
    have hlt := hs _ hj
    rw [e, abs_value hm] at hlt
    show mulF _ _ = _
    rw [e, mulF_self, rnd_tiny (mul_self_nonneg m), big_zero]
    show m * m < (2 : ℚ) ^ (-1075 : ℤ)
    calc m * m ≤ (2 : ℚ) ^ (-538 : ℤ) * (2 : ℚ) ^ (-538 : ℤ) := mul_le_mul hlt.le hlt.le hm (zpow_pos (by norm_num) _).le
      _ = (2 : ℚ) ^ (-1076 : ℤ) := by rw [← zpow_add₀ (by norm_num)]; congr 1
      _ < (2 : ℚ) ^ (-1075 : ℤ) := zpow_lt_zpow_right₀ (by norm_num) (by norm_num)
  have hsq : stdSqrt (.fin false 0) = .fin false 0 := rfl
  refine ⟨by unfold magF; rw [hM, Out.ok_bind, hsq], ?_⟩
  obtain ⟨u, hu1, hu2, hu3, hu4⟩ := eval_spec (asserts := asserts) (n := v.dims) (w := v.width) hw mem
    (e := .bin (· / ·) (.vec v) (.scalar (.fin false 0))) ⟨⟨rfl, rfl⟩, trivial⟩ (Or.inl trivial)
  rw [hp] at hu4
  refine ⟨u, ?_, fun j hj => ?_⟩
  · unfold normF norm
    rw [hM, Out.ok_bind, hsq, Out.ok_bind, hu1]
  · obtain ⟨s, m, e, hm, -⟩ := hv j hj
    rw [hu4 j hj]
    show divF (v.lane j) (.fin false 0) = _
    rw [e]
    have h0 : value (Fp.fin s m) = 0 ↔ m = 0 := by rw [← abs_eq_zero, abs_value hm]
    simp only [divF, h0, if_true]
    cases s <;> rfl

/-- **C152 (too large).** If the squared length is 2^1025 or more, the length is infinite and every component of the unit vector is zero. -/
theorem C152_large (asserts : Bool) (mem : Nat → Fp) (v : V Fp) (hv : Finite v) (hw : 1 ≤ v.width) (hd : v.width ∣ v.dims)
    (hn : v.dims ≤ 2 ^ 25) (hl : (2 : ℚ) ^ 1025 ≤ len2 v) :
    magF asserts mem (.vec v) = .ok (.inf false) ∧
    ∃ u, normF asserts mem (.vec v) = .ok u ∧ ∀ j, j < v.dims → u.lane j = .fin (v.lane j).sign 0 := by
  have hn' : (v.dims : ℚ) ≤ 2 ^ 25 := by exact_mod_cast hn
  have hn0 : (0 : ℚ) ≤ v.dims := Nat.cast_nonneg _
  have hlo : v.dims * (2 : ℚ) ^ (-1022 : ℤ) ≤ len2 v := by
    refine le_trans ?_ hl
    calc v.dims * (2 : ℚ) ^ (-1022 : ℤ) ≤ 2 ^ 25 * 1 :=
          mul_le_mul hn' (zpow_le_one_of_nonpos₀ (by norm_num) (by norm_num)) (zpow_pos (by norm_num) _).le (by norm_num)
      _ = 2 ^ 25 := mul_one _
      _ ≤ 2 ^ 1025 := pow_le_pow_right₀ (by norm_num) (by norm_num)
  obtain ⟨M, hM0, hM, hb⟩ := mag2_rel asserts mem hv hw hd hn hlo
  have hS : 0 ≤ len2 v := Finset.sum_nonneg fun _ _ => sq_nonneg _
  have small : ((v.dims : ℚ) + 2) * (2 : ℚ) ^ (-53 : ℤ) ≤ 1 / 2 := by
    have e : (2 : ℚ) ^ (-53 : ℤ) = 1 / 2 ^ 53 := by norm_num
    rw [e]
    calc ((v.dims : ℚ) + 2) * (1 / 2 ^ 53) ≤ (2 ^ 25 + 2) * (1 / 2 ^ 53) := by gcongr
      _ ≤ 1 / 2 := by norm_num
  have half := mul_le_mul_of_nonneg_right small hS
  have b1 := (abs_le.1 hb).1
  have hMge : (2 : ℚ) ^ 1024 ≤ M := by
    have e : (2 : ℚ) ^ 1025 = 2 * 2 ^ 1024 := by rw [← pow_succ']
    rw [e] at hl
    generalize ((v.dims : ℚ) + 2) * (2 : ℚ) ^ (-53 : ℤ) * len2 v = P at b1 half
    clear hlo e hb small
    generalize (2 : ℚ) ^ 1024 = B at *
    linarith
  rw [big_ge hMge] at hM
  have hsq : stdSqrt (.inf false) = .inf false := rfl
  refine ⟨by unfold magF; rw [hM, Out.ok_bind, hsq], ?_⟩
  obtain ⟨u, hu1, hu2, hu3, hu4⟩ := eval_spec (asserts := asserts) (n := v.dims) (w := v.width) hw mem
    (e := .bin (· / ·) (.vec v) (.scalar (.inf false))) ⟨⟨rfl, rfl⟩, trivial⟩ (Or.inl trivial)
  rw [packets_mul hw hd] at hu4
  refine ⟨u, ?_, fun j hj => ?_⟩
  · unfold normF norm
    rw [hM, Out.ok_bind, hsq, Out.ok_bind, hu1]
  · obtain ⟨s, m, e, hm, -⟩ := hv j hj
    rw [hu4 j hj]
    show divF (v.lane j) (.inf false) = _
    rw [e]
    cases s <;> rfl

/-- The vector with the one component 2^e. -/
def single (e : Int) : V Fp := ⟨1, 1, fun _ => .fin false (2 ^ e)⟩

theorem single_finite {e : Int} (h : -1074 ≤ e) : Finite (single e) := fun _ _ =>
  ⟨false, 2 ^ e, rfl, (zpow_pos (by norm_num) _).le, repr_two_zpow (f := binary64) h⟩

theorem single_len2 (e : Int) : len2 (single e) = (2 : ℚ) ^ (2 * e) := by
  show ∑ j ∈ Finset.range 1, ((2 : ℚ) ^ e) ^ 2 = _
  rw [Finset.sum_range_one, pow_two, ← zpow_add₀ (by norm_num), two_mul]

/-- **C152 is false**: the length of a vector with the component 2^-600 is zero (and its unit vector infinite), that of 2^600 is infinite (and
its unit vector zero). -/
theorem C152_false : ¬ C152Claim ∧
    (∃ u, normF true (fun _ => 0) (.vec (single (-600))) = .ok u ∧ u.lane 0 = .inf false) ∧
    (∃ u, normF true (fun _ => 0) (.vec (single 600)) = .ok u ∧ u.lane 0 = .fin false 0) := by
  have small := C152_small true (fun _ => 0) (single (-600)) (single_finite (by norm_num)) le_rfl (dvd_refl _) (fun j _ => by
    show |(2 : ℚ) ^ (-600 : ℤ)| < _
    rw [abs_of_pos (zpow_pos (by norm_num) _)]
    exact zpow_lt_zpow_right₀ (by norm_num) (by norm_num))
  have large := C152_large true (fun _ => 0) (single 600) (single_finite (by norm_num)) le_rfl (dvd_refl _) (by decide) (by
    rw [single_len2]
    calc (2 : ℚ) ^ 1025 = (2 : ℚ) ^ ((1025 : ℕ) : ℤ) := (zpow_natCast _ _).symm
      _ ≤ _ := zpow_le_zpow_right₀ (by norm_num) (by norm_num))
  refine ⟨fun h => ?_, ?_, ?_⟩
  · obtain ⟨⟨g, h1, h2⟩, -⟩ := h true (fun _ => 0) (single (-600)) (single_finite (by norm_num)) le_rfl (dvd_refl _) (by decide) (by
      rw [single_len2]; exact zpow_pos (by norm_num) _)
    rw [small.1] at h1
    injection h1 with h1
    injection h1 with _ h1
    subst h1
    have hp : (0 : ℝ) < √((len2 (single (-600)) : ℚ) : ℝ) := by
      apply Real.sqrt_pos.2
      rw [single_len2]
      exact_mod_cast zpow_pos (by norm_num : (0 : ℚ) < 2) _
    rw [Rat.cast_zero, zero_sub, abs_neg, abs_of_pos hp] at h2
    have h3 : (((single (-600)).dims : ℝ) + 4) * (2 : ℝ) ^ (-53 : ℤ) ≤ 1 / 2 := by
      show (((1 : ℕ) : ℝ) + 4) * (2 : ℝ) ^ (-53 : ℤ) ≤ 1 / 2
      norm_num
    have h4 := h2.trans (mul_le_mul_of_nonneg_right h3 hp.le)
    clear h2 h3
    linarith
  · obtain ⟨u, hu, hl⟩ := small.2
    refine ⟨u, hu, (hl 0 (by decide)).trans ?_⟩
    rw [if_neg]
    · rfl
    · exact (zpow_pos (by norm_num : (0 : ℚ) < 2) (-600)).ne'
  · obtain ⟨u, hu, hl⟩ := large.2
    exact ⟨u, hu, hl 0 (by decide)⟩

/-- The hypotheses of `C152_partial` hold of (3, -4) in a packet of two. -/
example : ∃ v : V Fp, Finite v ∧ v.width = 2 ∧ v.dims = 2 ∧ v.dims * (2 : ℚ) ^ (-1022 : ℤ) ≤ len2 v ∧ len2 v ≤ (2 : ℚ) ^ 1023 := by
  refine ⟨⟨2, 2, fun j => if j = 0 then .fin false 3 else .fin true 4⟩, fun j hj => ?_, rfl, rfl, ?_⟩
  · have r : ∀ k : Int, |k| ≤ 2 ^ 53 → Repr binary64 (k : ℚ) := fun k hk => repr_int (by decide) hk
    by_cases h : j = 0
    · exact ⟨false, 3, by simp [h], by norm_num, by exact_mod_cast r 3 (by norm_num)⟩
    · exact ⟨true, 4, by simp [h], by norm_num, by exact_mod_cast r 4 (by norm_num)⟩
  · have e : len2 ⟨2, 2, fun j => if j = 0 then .fin false 3 else .fin true 4⟩ = 25 := by
      unfold len2
      rw [Finset.sum_range_succ, Finset.sum_range_one]
      norm_num [value, Fp.signed]
    rw [e]
    constructor
    · have : (2 : ℚ) ^ (-1022 : ℤ) ≤ 1 := zpow_le_one_of_nonpos₀ (by norm_num) (by norm_num)
      show ((2 : ℕ) : ℚ) * _ ≤ _
      push_cast
      generalize (2 : ℚ) ^ (-1022 : ℤ) = x at *
      linarith
    · calc (25 : ℚ) ≤ 2 ^ 5 := by norm_num
        _ ≤ 2 ^ 1023 := pow_le_pow_right₀ (by norm_num) (by norm_num)

end Verif.Vec
