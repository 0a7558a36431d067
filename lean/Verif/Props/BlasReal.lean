import Verif.Model.BlasReal
import Verif.Lemmas.Blas1
import Mathlib.Analysis.Complex.Norm
import Mathlib.Analysis.Complex.Basic
import Mathlib.Tactic.FieldSimp
import Mathlib.Tactic.Positivity
import Mathlib.Tactic.LinearCombination
import Mathlib.Tactic.NormNum

/-! Property theorems for `nrm2` (C72) and `rotg` (C73), over the real numbers. -/

namespace Verif.Blas

open Finset

/-- The scaled sum of squares is kept as `scale² * ssq`. -/
theorem ssqStep_sq {st : ℝ × ℝ} (h : 0 ≤ st.1) (t : ℝ) :
    0 ≤ (ssqStep st t).1 ∧ (ssqStep st t).1 ^ 2 * (ssqStep st t).2 = st.1 ^ 2 * st.2 + t ^ 2 ∧ |t| ≤ (ssqStep st t).1 ∧
      st.1 ≤ (ssqStep st t).1 ∧ (0 ≤ st.2 → 0 ≤ (ssqStep st t).2) := by
  unfold ssqStep
  by_cases ht : t = 0
  · subst ht; simp [h]
  · rw [if_pos ht]
    have hp := abs_pos.2 ht
    have hs : |t| ^ 2 = t ^ 2 := sq_abs t
    split
    · rename_i hlt
      refine ⟨hp.le, ?_, le_refl _, hlt.le, fun h2 => ?_⟩
      · simp only
        rw [← hs]; field_simp; ring
      · simp only; positivity
    · rename_i hlt
      push Not at hlt
      have hp1 : 0 < st.1 := lt_of_lt_of_le hp hlt
      refine ⟨h, ?_, hlt, le_refl _, fun h2 => ?_⟩
      · simp only
        rw [← hs]; field_simp
      · simp only; positivity

/-- **C72** `nrm2` of a real vector: the Euclidean norm. -/
theorem C72_nrm2 {n : Nat} {x incX : Int} {m : Mem ℝ} {xv : Nat → ℝ} (hx : VecAt m x incX n xv) :
    nrm2 n x incX m = .ok (√(∑ i ∈ range n, xv i ^ 2), m) := by
  unfold nrm2
  have hst : 0 < n → m (start n x incX) = .val (xv 0) := by
    intro hn
    have := hx 0 hn
    rw [← start_elem] at this
    simpa using this
  split
  · rename_i h
    rw [show n = 0 by omega]; simp [pure_ok]
  split
  · rename_i _ h
    subst h
    rw [bind_ok (load_ok (hst (by omega)))]
    simp [pure_ok, Real.sqrt_sq_eq_abs]
  · have key : ∀ k, ∃ t : Nat → ℝ × ℝ, t 0 = (0, 1) ∧ ∀ i, i < k → t (i + 1) = ssqStep (t i) (xv i) ∧ True := by
      intro k
      exact ⟨fun i => Nat.rec (0, 1) (fun j s => ssqStep s (xv j)) i, rfl, fun i _ => ⟨rfl, trivial⟩⟩
    obtain ⟨t, h0, hs⟩ := key n
    have hf := fold_trace (fun i st => do
      let v ← load (start n x incX + i * incX)
      pure (ssqStep st v)) t m n fun i hi => by
        simp only [start_elem]
        rw [bind_ok (load_ok (hx i hi)), (hs i hi).1]; rfl
    rw [h0] at hf
    rw [bind_ok hf, pure_ok]
    have inv : ∀ k, k ≤ n → 0 ≤ (t k).1 ∧ 0 ≤ (t k).2 ∧ (t k).1 ^ 2 * (t k).2 = ∑ i ∈ range k, xv i ^ 2 := by
      intro k
      induction k with
      | zero => intro _; simp [h0]
      | succ k ih =>
        intro hk
        obtain ⟨i1, i2, i3⟩ := ih (by omega)
        obtain ⟨s1, s2, _, _, s3⟩ := ssqStep_sq i1 (xv k)
        rw [(hs k (by omega)).1, sum_range_succ, ← i3]
        exact ⟨s1, s3 i2, s2⟩
    obtain ⟨i1, i2, i3⟩ := inv n (Nat.le_refl _)
    rw [← i3, Real.sqrt_mul (sq_nonneg _), Real.sqrt_sq i1]

/-- **C72** `nrm2` of a complex vector. -/
theorem C72_cnrm2 {n : Nat} {x incX : Int} {m : Mem ℂ} {xv : Nat → ℂ} (hx : VecAt m x incX n xv) :
    cnrm2 n x incX m = .ok (√(∑ i ∈ range n, ‖xv i‖ ^ 2), m) := by
  unfold cnrm2
  have hst : 0 < n → m (start n x incX) = .val (xv 0) := by
    intro hn
    have := hx 0 hn
    rw [← start_elem] at this
    simpa using this
  split
  · rename_i h
    rw [show n = 0 by omega]; simp [pure_ok]
  split
  · rename_i _ h
    subst h
    rw [bind_ok (load_ok (hst (by omega)))]
    simp [pure_ok]
  · have key : ∃ t : Nat → ℝ × ℝ, t 0 = (0, 1) ∧ ∀ i, t (i + 1) = ssqStep (ssqStep (t i) (xv i).re) (xv i).im :=
      ⟨fun i => Nat.rec (0, 1) (fun j s => ssqStep (ssqStep s (xv j).re) (xv j).im) i, rfl, fun i => rfl⟩
    obtain ⟨t, h0, hs⟩ := key
    have hf := fold_trace (fun i st => do
      let v ← load (start n x incX + i * incX)
      pure (ssqStep (ssqStep st v.re) v.im)) t m n fun i hi => by
        simp only [start_elem]
        rw [bind_ok (load_ok (hx i hi)), hs i]; rfl
    rw [h0] at hf
    rw [bind_ok hf, pure_ok]
    have inv : ∀ k, 0 ≤ (t k).1 ∧ 0 ≤ (t k).2 ∧ (t k).1 ^ 2 * (t k).2 = ∑ i ∈ range k, ‖xv i‖ ^ 2 := by
      intro k
      induction k with
      | zero => simp [h0]
      | succ k ih =>
        obtain ⟨i1, i2, i3⟩ := ih
        obtain ⟨s1, s2, _, _, s3⟩ := ssqStep_sq i1 (xv k).re
        obtain ⟨u1, u2, _, _, u3⟩ := ssqStep_sq s1 (xv k).im
        rw [hs k, sum_range_succ, ← i3]
        refine ⟨u1, u3 (s3 i2), ?_⟩
        rw [u2, s2, Complex.sq_norm, Complex.normSq_apply]; ring
    obtain ⟨i1, i2, i3⟩ := inv n
    rw [← i3, Real.sqrt_mul (sq_nonneg _), Real.sqrt_sq i1]

/-- **C72** `nrm2` stays in range: in every step the quotient that is squared is at most 1 and the scale is
at most the largest component, so no intermediate result is larger than the number of components or the result. -/
theorem C72_nrm2_range (st : ℝ × ℝ) (h : 0 ≤ st.1) (t : ℝ) (ht : t ≠ 0) :
    (st.1 < |t| → st.1 / |t| ≤ 1) ∧ (¬ st.1 < |t| → |t| / st.1 ≤ 1) ∧
      ((ssqStep st t).1 = st.1 ∨ (ssqStep st t).1 = |t|) ∧ (1 ≤ st.2 → (ssqStep st t).2 ≤ st.2 + 1) := by
  have hp := abs_pos.2 ht
  refine ⟨fun hlt => ?_, fun hlt => ?_, ?_, fun h2 => ?_⟩
  · rw [div_le_one hp]; exact hlt.le
  · push Not at hlt
    rw [div_le_one (lt_of_lt_of_le hp hlt)]; exact hlt
  · unfold ssqStep
    rw [if_pos ht]
    split
    · right; rfl
    · left; rfl
  · unfold ssqStep
    rw [if_pos ht]
    split
    · rename_i hlt
      have h3 : (st.1 / |t|) ^ 2 ≤ 1 := by
        rw [div_pow, div_le_one (by positivity)]
        exact pow_le_pow_left₀ h hlt.le 2
      have : st.2 * (st.1 / |t|) ^ 2 ≤ st.2 * 1 := mul_le_mul_of_nonneg_left h3 (by linarith)
      simp only; linarith
    · rename_i hlt
      push Not at hlt
      have h3 : (|t| / st.1) ^ 2 ≤ 1 := by
        rw [div_pow, div_le_one (by have := lt_of_lt_of_le hp hlt; positivity)]
        exact pow_le_pow_left₀ hp.le hlt 2
      simp only; linarith

/-! ### C73: Givens rotations -/

theorem scaled_norm {a b : ℝ} (ha : 0 ≤ a) (hb : 0 ≤ b) (h : a + b ≠ 0) :
    (a + b) * √(a / (a + b) * (a / (a + b)) + b / (a + b) * (b / (a + b))) = √(a ^ 2 + b ^ 2) := by
  have hp : 0 < a + b := lt_of_le_of_ne (by linarith) (Ne.symm h)
  have e : a / (a + b) * (a / (a + b)) + b / (a + b) * (b / (a + b)) = (a ^ 2 + b ^ 2) / (a + b) ^ 2 := by
    field_simp
  rw [e, Real.sqrt_div (by positivity), Real.sqrt_sq hp.le]
  field_simp

/-- **C73**: `rotg` gives a rotation that takes `(a, b)` to `(r, 0)`, with `r² = a² + b²`. -/
theorem C73_rotg (a b : ℝ) :
    let g := rotg a b
    g.c ^ 2 + g.s ^ 2 = 1 ∧ g.c * a + g.s * b = g.a ∧ -g.s * a + g.c * b = 0 ∧ g.a ^ 2 = a ^ 2 + b ^ 2 := by
  unfold rotg
  dsimp only
  split
  · rename_i h
    have ha : a = 0 := by
      have := abs_nonneg a; have := abs_nonneg b
      exact abs_eq_zero.1 (by linarith)
    have hb : b = 0 := by
      have := abs_nonneg a; have := abs_nonneg b
      exact abs_eq_zero.1 (by linarith)
    subst ha hb; simp
  · rename_i h
    rw [scaled_norm (abs_nonneg a) (abs_nonneg b) h]
    simp only [sq_abs]
    have hpos : 0 < a ^ 2 + b ^ 2 := by
      by_contra hc
      push Not at hc
      have h1 : a = 0 := by nlinarith [sq_nonneg a, sq_nonneg b]
      have h2 : b = 0 := by nlinarith [sq_nonneg a, sq_nonneg b]
      exact h (by simp [h1, h2])
    have key : ∀ r : ℝ, r ^ 2 = a ^ 2 + b ^ 2 →
        (a / r) ^ 2 + (b / r) ^ 2 = 1 ∧ a / r * a + b / r * b = r ∧ -(b / r) * a + a / r * b = 0 ∧ r ^ 2 = a ^ 2 + b ^ 2 := by
      intro r hr
      have hr0 : r ≠ 0 := by
        intro h0; rw [h0] at hr; nlinarith
      refine ⟨?_, ?_, ?_, hr⟩
      · field_simp; linarith
      · field_simp; linarith
      · field_simp; ring
    have hsq : √(a ^ 2 + b ^ 2) ^ 2 = a ^ 2 + b ^ 2 := Real.sq_sqrt hpos.le
    apply key
    generalize (if |a| > |b| then a else b) = roe
    split
    · rw [neg_sq, hsq]
    · exact hsq

/-- **C73** for complex numbers: `c` is real, `c² + |s|² = 1`, and the rotation takes `(a, b)` to `(r, 0)`. -/
theorem C73_crotg (a b : ℂ) :
    let g := crotg a b
    g.c ^ 2 + ‖g.s‖ ^ 2 = 1 ∧ g.c * a + g.s * b = g.a ∧ -star g.s * a + g.c * b = 0 ∧
      ‖g.a‖ ^ 2 = ‖a‖ ^ 2 + ‖b‖ ^ 2 := by
  unfold crotg
  dsimp only
  split
  · rename_i h
    have : a = 0 := norm_eq_zero.1 h
    subst this; simp [norm_one]
  · rename_i h
    have hp : 0 < ‖a‖ := lt_of_le_of_ne (norm_nonneg _) (Ne.symm h)
    have hb := norm_nonneg b
    have hs : 0 < ‖a‖ + ‖b‖ := by linarith
    have e1 : ∀ z : ℂ, ‖z / ((‖a‖ : ℂ) + (‖b‖ : ℂ))‖ = ‖z‖ / (‖a‖ + ‖b‖) := by
      intro z
      rw [norm_div, ← Complex.ofReal_add, Complex.norm_real, Real.norm_of_nonneg hs.le]
    simp only [Complex.ofReal_add, e1]
    have e2 := scaled_norm hp.le hb hs.ne'
    simp only [← sq] at e2
    rw [e2]
    set N := √(‖a‖ ^ 2 + ‖b‖ ^ 2) with hN
    have hNsq : N ^ 2 = ‖a‖ ^ 2 + ‖b‖ ^ 2 := Real.sq_sqrt (by positivity)
    have hN0 : 0 < N := Real.sqrt_pos.2 (by positivity)
    have haC : (‖a‖ : ℂ) ≠ 0 := by exact_mod_cast hp.ne'
    have hNC : (N : ℂ) ≠ 0 := by exact_mod_cast hN0.ne'
    have ea : a * star a = (‖a‖ : ℂ) ^ 2 := by
      rw [show star a = (starRingEnd ℂ) a from rfl, Complex.mul_conj, Complex.normSq_eq_norm_sq]; push_cast; ring
    have eb : star b * b = (‖b‖ : ℂ) ^ 2 := by
      rw [mul_comm, show star b = (starRingEnd ℂ) b from rfl, Complex.mul_conj, Complex.normSq_eq_norm_sq]
      push_cast; ring
    have hNC2 : (N : ℂ) ^ 2 = (‖a‖ : ℂ) ^ 2 + (‖b‖ : ℂ) ^ 2 := by exact_mod_cast hNsq
    have hal : ‖a / (‖a‖ : ℂ)‖ = 1 := by
      rw [norm_div, Complex.norm_real, Real.norm_of_nonneg hp.le, div_self hp.ne']
    have hNn : ‖(N : ℂ)‖ = N := by rw [Complex.norm_real, Real.norm_of_nonneg hN0.le]
    refine ⟨?_, ?_, ?_, ?_⟩
    · rw [norm_div, norm_mul, hal, norm_star, hNn]
      field_simp; linarith
    · push_cast
      field_simp
      linear_combination a * eb - a * hNC2
    · push_cast
      rw [star_div₀, star_mul', star_div₀, star_star]
      have h1 : star (‖a‖ : ℂ) = (‖a‖ : ℂ) := Complex.conj_ofReal _
      have h2 : star (N : ℂ) = (N : ℂ) := Complex.conj_ofReal _
      rw [h1, h2]
      field_simp
      linear_combination -b * ea
    · rw [norm_mul, hal, hNn, one_mul, hNsq]

/-- **C73**, the second half as documented for BLAS: the value left in `b` encodes the rotation. With `z` this value,
`c = 0, s = 1` if `z = 1`, `s = z, c = √(1 - z²)` if `|z| < 1`, and `c = 1/z, s = √(1 - c²)` if `|z| > 1`. -/
def C73RestoreClaim (a b : ℝ) : Prop :=
  let g := rotg a b
  (g.b = 1 → g.c = 0 ∧ g.s = 1) ∧ (|g.b| < 1 → g.s = g.b ∧ g.c = √(1 - g.b ^ 2)) ∧
    (1 < |g.b| → g.c = 1 / g.b ∧ g.s = √(1 - g.c ^ 2))

/-- It is false when `|a| = |b|`: then the code stores 1 (BLAS stores `1/c`), which stands for another rotation. -/
theorem C73_restore_false : ¬ ∀ a b, C73RestoreClaim a b := by
  intro h
  obtain ⟨h1, _, _⟩ := h 1 1
  have hz : (rotg 1 1).b = 1 := by
    unfold rotg
    norm_num
  have hc := (h1 hz).1
  obtain ⟨k1, k2, k3, k4⟩ := C73_rotg 1 1
  have := (h1 hz).2
  rw [hc, this] at k3
  norm_num at k3

/-- It holds whenever `|a| ≠ |b|` or both are zero. -/
theorem C73_restore_partial (a b : ℝ) (h : |a| ≠ |b| ∨ (a = 0 ∧ b = 0)) : C73RestoreClaim a b := by
  have hz : (a = 0 ∧ b = 0) → C73RestoreClaim a b := by
    rintro ⟨rfl, rfl⟩
    unfold C73RestoreClaim rotg
    simp
  rcases h with h | h
  · by_cases h0 : a = 0 ∧ b = 0
    · exact hz h0
    have hne : |a| + |b| ≠ 0 := by
      intro e
      have := abs_nonneg a; have := abs_nonneg b
      exact h0 ⟨abs_eq_zero.1 (by linarith), abs_eq_zero.1 (by linarith)⟩
    obtain ⟨k1, k2, k3, k4⟩ := C73_rotg a b
    unfold C73RestoreClaim
    have hga : (rotg a b).a ≠ 0 := by
      intro e
      rw [e] at k4
      exact h0 ⟨by nlinarith [sq_nonneg a, sq_nonneg b], by nlinarith [sq_nonneg a, sq_nonneg b]⟩
    have hcs : (rotg a b).c = a / (rotg a b).a ∧ (rotg a b).s = b / (rotg a b).a := by
      unfold rotg
      simp only [if_neg hne]
      exact ⟨trivial, trivial⟩
    -- the sign of `r` is that of the larger component
    have hsign : (|b| < |a| → 0 < a * (rotg a b).a) ∧ (|a| < |b| → 0 < b * (rotg a b).a) := by
      have hr0 : 0 < √(a ^ 2 + b ^ 2) := by
        apply Real.sqrt_pos.2
        by_contra hc
        push Not at hc
        exact h0 ⟨by nlinarith [sq_nonneg a, sq_nonneg b], by nlinarith [sq_nonneg a, sq_nonneg b]⟩
      have hra : (rotg a b).a = if (if |a| > |b| then a else b) < 0 then -√(a ^ 2 + b ^ 2) else √(a ^ 2 + b ^ 2) := by
        unfold rotg
        simp only [if_neg hne]
        rw [scaled_norm (abs_nonneg a) (abs_nonneg b) hne]
        simp only [sq_abs]
      constructor
      · intro hlt
        rw [hra, if_pos (show |a| > |b| from hlt)]
        have ha0 : a ≠ 0 := by
          intro e; rw [e, abs_zero] at hlt; exact absurd hlt (not_lt.2 (abs_nonneg b))
        split
        · rename_i hn; nlinarith
        · rename_i hn
          push Not at hn
          exact mul_pos (lt_of_le_of_ne hn (Ne.symm ha0)) hr0
      · intro hlt
        rw [hra, if_neg (show ¬ |a| > |b| from not_lt.2 hlt.le)]
        have hb0 : b ≠ 0 := by
          intro e; rw [e, abs_zero] at hlt; exact absurd hlt (not_lt.2 (abs_nonneg a))
        split
        · rename_i hn; nlinarith
        · rename_i hn
          push Not at hn
          exact mul_pos (lt_of_le_of_ne hn (Ne.symm hb0)) hr0
    have hgb : (rotg a b).b = if |a| < |b| ∧ (rotg a b).c ≠ 0 then 1 / (rotg a b).c
        else if |a| > |b| then (rotg a b).s else 1 := by
      unfold rotg
      simp only [if_neg hne]
    have quot : ∀ t : ℝ, 0 < t * (rotg a b).a → 0 < t / (rotg a b).a := by
      intro t ht
      rw [div_eq_mul_inv]
      have : t * (rotg a b).a⁻¹ = t * (rotg a b).a * ((rotg a b).a⁻¹) ^ 2 := by field_simp
      rw [this]
      have : 0 < ((rotg a b).a⁻¹) ^ 2 := by positivity
      positivity
    generalize hG : rotg a b = g at *
    obtain ⟨r, z, c, s⟩ := g
    simp only at *
    have hc1 : c ^ 2 ≤ 1 := by nlinarith [sq_nonneg s]
    have hs1 : s ^ 2 ≤ 1 := by nlinarith [sq_nonneg c]
    rcases lt_or_gt_of_ne h with hlt | hlt
    · -- |a| < |b|
      have hspos : 0 < s := by rw [hcs.2]; exact quot b (hsign.2 hlt)
      by_cases hc0 : c = 0
      · have hs : s = 1 := by
          have : s ^ 2 = 1 := by rw [hc0] at k1; linarith
          nlinarith
        rw [if_neg (by simp [hc0]), if_neg (not_lt.2 hlt.le)] at hgb
        subst hgb
        refine ⟨fun _ => ⟨hc0, hs⟩, fun h1 => ?_, fun h1 => ?_⟩
        · norm_num at h1
        · norm_num at h1
      · rw [if_pos ⟨hlt, hc0⟩] at hgb
        have hclt : |c| < 1 := by
          have : c ^ 2 < 1 := by nlinarith [sq_pos_of_pos hspos]
          exact (sq_lt_one_iff_abs_lt_one c).1 this
        have hzabs : 1 < |z| := by
          rw [hgb, abs_div, abs_one, lt_div_iff₀ (abs_pos.2 hc0)]; linarith
        refine ⟨fun h1 => ?_, fun h1 => absurd h1 (not_lt.2 hzabs.le), fun _ => ⟨?_, ?_⟩⟩
        · rw [h1] at hzabs; norm_num at hzabs
        · rw [hgb]; field_simp
        · rw [show 1 - c ^ 2 = s ^ 2 by linarith, Real.sqrt_sq hspos.le]
    · -- |b| < |a|
      have hcpos : 0 < c := by rw [hcs.1]; exact quot a (hsign.1 hlt)
      rw [if_neg (fun hh => absurd hh.1 (not_lt.2 (le_of_lt hlt))), if_pos hlt] at hgb
      subst hgb
      have hslt : |z| < 1 := by
        have : z ^ 2 < 1 := by nlinarith [sq_pos_of_pos hcpos]
        exact (sq_lt_one_iff_abs_lt_one z).1 this
      refine ⟨fun h1 => ?_, fun _ => ⟨rfl, ?_⟩, fun h1 => absurd h1 (not_lt.2 hslt.le)⟩
      · rw [h1] at hslt; norm_num at hslt
      · rw [show 1 - z ^ 2 = c ^ 2 by linarith, Real.sqrt_sq hcpos.le]
  · exact hz h

example : |(3 : ℝ)| ≠ |(-4 : ℝ)| := by norm_num

end Verif.Blas
