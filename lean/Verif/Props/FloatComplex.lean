import Verif.Lemmas.FloatComplex
import Mathlib.Analysis.Complex.Norm

/-!
# C110: complex arithmetic in floating point

The code of C51 run on floating-point components (`unitRoundoff binary64` is `2 ^ -53`). The exponents have no upper limit here.
-/

namespace Verif.Cx

open Ieee

variable {f : Fmt}

theorem cast_abs_le {x y : ℚ} (h : |x| ≤ y) : |(x : ℝ)| ≤ (y : ℝ) := by
  rw [← Rat.cast_abs]
  exact_mod_cast h

/-- Errors of the components and the error of the number. -/
theorem norm_err {z w : ℂ} {e : ℝ} (hr : |z.re - w.re| ≤ e) (hi : |z.im - w.im| ≤ e) : ‖z - w‖ ≤ √2 * e :=
  le_trans (Complex.norm_le_sqrt_two_mul_max _) (mul_le_mul_of_nonneg_left (max_le (by simpa using hr) (by simpa using hi)) (Real.sqrt_nonneg _))

/-- **C110**, sums and differences: each component is the nearest number, and the error is at most one rounding of the result. -/
theorem C110_add (l r : Cx (Fl f)) :
    ‖valC (add l r) - (valC l + valC r)‖ ≤ unitRoundoff f * ‖valC l + valC r‖ ∧
    ‖valC (sub l r) - (valC l - valC r)‖ ≤ unitRoundoff f * ‖valC l - valC r‖ := by
  have key : ∀ (a b c d : ℚ), |c - a| ≤ unitRoundoff f * |a| → |d - b| ≤ unitRoundoff f * |b| →
      ‖(⟨c, d⟩ : ℂ) - ⟨a, b⟩‖ ≤ unitRoundoff f * ‖(⟨a, b⟩ : ℂ)‖ := by
    intro a b c d h1 h2
    have hu : (0 : ℝ) ≤ unitRoundoff f := by exact_mod_cast (unit_pos f).le
    refine (sq_le_sq₀ (norm_nonneg _) (by positivity)).1 ?_
    rw [mul_pow, Complex.sq_norm, Complex.sq_norm, Complex.normSq_apply, Complex.normSq_apply]
    simp only [Complex.sub_re, Complex.sub_im]
    have e1 : |((c : ℝ) - a)| ≤ unitRoundoff f * |(a : ℝ)| := by
      have := cast_abs_le h1
      push_cast at this
      exact this
    have e2 : |((d : ℝ) - b)| ≤ unitRoundoff f * |(b : ℝ)| := by
      have := cast_abs_le h2
      push_cast at this
      exact this
    have s1 := mul_self_le_mul_self (abs_nonneg _) e1
    have s2 := mul_self_le_mul_self (abs_nonneg _) e2
    rw [abs_mul_abs_self] at s1 s2
    have t1 := abs_mul_abs_self (a : ℝ)
    have t2 := abs_mul_abs_self (b : ℝ)
    calc _ ≤ _ := add_le_add s1 s2
      _ = (unitRoundoff f : ℝ) ^ 2 * (|(a : ℝ)| * |(a : ℝ)| + |(b : ℝ)| * |(b : ℝ)|) := by ring
      _ = _ := by rw [t1, t2]
  constructor
  · have e : valC l + valC r = ⟨((l.re.val + r.re.val : ℚ) : ℝ), ((l.im.val + r.im.val : ℚ) : ℝ)⟩ := by
      apply Complex.ext <;> simp [valC]
    rw [e]
    exact key _ _ _ _ (rnd_add_err l.re.repr r.re.repr) (rnd_add_err l.im.repr r.im.repr)
  · have e : valC l - valC r = ⟨((l.re.val - r.re.val : ℚ) : ℝ), ((l.im.val - r.im.val : ℚ) : ℝ)⟩ := by
      apply Complex.ext <;> simp [valC]
    rw [e]
    refine key _ _ _ _ ?_ ?_
    · have := rnd_add_err l.re.repr (repr_neg r.re.repr)
      rwa [← sub_eq_add_neg] at this
    · have := rnd_add_err l.im.repr (repr_neg r.im.repr)
      rwa [← sub_eq_add_neg] at this

theorem mul_components (l r : Cx (Fl f)) :
    SumOf f [(l.re.val, r.re.val), (-l.im.val, r.im.val)] (mul l r).re.val ∧
    SumOf f [(l.re.val, r.im.val), (l.im.val, r.re.val)] (mul l r).im.val := by
  constructor
  · have h := SumOf.add (SumOf.product (f := f) l.re.val r.re.val) (SumOf.product (-l.im.val) r.im.val)
    rw [neg_mul, rnd_neg, ← sub_eq_add_neg] at h
    exact h
  · exact SumOf.add (SumOf.product (f := f) l.re.val r.im.val) (SumOf.product l.im.val r.re.val)

/-- Cauchy's inequality for two terms. -/
theorem cauchy2 (z w : ℂ) : |z.re * w.re| + |z.im * w.im| ≤ ‖z‖ * ‖w‖ ∧ |z.re * w.im| + |z.im * w.re| ≤ ‖z‖ * ‖w‖ := by
  have key : ∀ a b c d : ℝ, (|a * c| + |b * d|) ^ 2 ≤ (a * a + b * b) * (c * c + d * d) := by
    intro a b c d
    rw [abs_mul, abs_mul]
    have h := sq_nonneg (|a| * |d| - |b| * |c|)
    have e : (a * a + b * b) * (c * c + d * d) = (|a| * |a| + |b| * |b|) * (|c| * |c| + |d| * |d|) := by
      simp only [abs_mul_abs_self]
    rw [e]
    nlinarith
  constructor
  · refine (sq_le_sq₀ (by positivity) (by positivity)).1 ?_
    rw [mul_pow, Complex.sq_norm, Complex.sq_norm, Complex.normSq_apply, Complex.normSq_apply]
    exact key _ _ _ _
  · refine (sq_le_sq₀ (by positivity) (by positivity)).1 ?_
    rw [mul_pow, Complex.sq_norm, Complex.sq_norm, Complex.normSq_apply, Complex.normSq_apply, add_comm (w.re * w.re)]
    exact key _ _ _ _

/-- **C110**, products: the error is at most `√2` times two roundings of the product of the magnitudes, and a few of the least numbers. -/
theorem C110_mul (l r : Cx (Fl f)) :
    ‖valC (mul l r) - valC l * valC r‖ ≤ √2 * (((1 + unitRoundoff f) ^ 2 - 1) * (‖valC l‖ * ‖valC r‖) +
      2 * (1 + unitRoundoff f) ^ 2 * halfTiny f) := by
  obtain ⟨h1, h2⟩ := mul_components l r
  have e1 := cast_abs_le h1.error
  have e2 := cast_abs_le h2.error
  have hu : (0 : ℝ) ≤ unitRoundoff f := by exact_mod_cast (unit_pos f).le
  have hg : (0 : ℝ) ≤ (1 + unitRoundoff f) ^ 2 - 1 := by nlinarith
  obtain ⟨c1, c2⟩ := cauchy2 (valC l) (valC r)
  simp only [valC] at c1 c2
  simp only [sumBound, exactSum, magnitudeSum, List.map_cons, List.map_nil, List.sum_cons, List.sum_nil, List.length_cons,
    List.length_nil, zero_add, add_zero, Nat.reduceAdd, Nat.cast_ofNat, neg_mul, abs_neg] at e1 e2
  push_cast at e1 e2
  refine norm_err ?_ ?_
  · have : (valC l * valC r).re = (l.re.val : ℝ) * r.re.val + -((l.im.val : ℝ) * r.im.val) := by
      simp [valC, sub_eq_add_neg]
    rw [this]
    refine le_trans e1 (add_le_add_left (mul_le_mul_of_nonneg_left ?_ hg) _)
    simpa [valC] using c1
  · have : (valC l * valC r).im = (l.re.val : ℝ) * r.im.val + (l.im.val : ℝ) * r.re.val := by
      simp [valC]
    rw [this]
    refine le_trans e2 (add_le_add_left (mul_le_mul_of_nonneg_left ?_ hg) _)
    simpa [valC] using c2

/-- The quotient of complex numbers by Smith's formulas. -/
theorem quotient_real {a b c d : ℝ} (hc : c ≠ 0) :
    (⟨a, b⟩ / ⟨c, d⟩ : ℂ) = ⟨(a + b * (d / c)) / (c + d / c * d), (b + -a * (d / c)) / (c + d / c * d)⟩ := by
  have h2 : c * c + d * d ≠ 0 := by
    have := mul_self_pos.2 hc
    have := mul_self_nonneg d
    positivity
  have h3 : c + d / c * d ≠ 0 := by
    have : c + d / c * d = (c * c + d * d) / c := by field_simp
    rw [this]
    exact div_ne_zero h2 hc
  apply Complex.ext
  · simp only [Complex.div_re, Complex.normSq_apply]
    field_simp
  · simp only [Complex.div_im, Complex.normSq_apply]
    field_simp
    ring

theorem quotient_imag {a b c d : ℝ} (hd : d ≠ 0) :
    (⟨a, b⟩ / ⟨c, d⟩ : ℂ) = ⟨(b + a * (c / d)) / (d + c / d * c), (-a + b * (c / d)) / (d + c / d * c)⟩ := by
  have h2 : d * d + c * c ≠ 0 := by
    have := mul_self_pos.2 hd
    have := mul_self_nonneg c
    positivity
  have h3 : d + c / d * c ≠ 0 := by
    have : d + c / d * c = (d * d + c * c) / d := by field_simp
    rw [this]
    exact div_ne_zero h2 hd
  have h4 : c * c + d * d ≠ 0 := by rwa [add_comm]
  apply Complex.ext
  · simp only [Complex.div_re, Complex.normSq_apply]
    field_simp
    ring
  · simp only [Complex.div_im, Complex.normSq_apply]
    field_simp
    ring

/-- The bound of a component against the magnitude of the quotient. -/
theorem smith_norm {a b c d : ℝ} (hc : c ≠ 0) : (|a| + |b * (d / c)|) / |c + d / c * d| ≤ √(a * a + b * b) / √(c * c + d * d) := by
  have hcc := mul_self_pos.2 hc
  have hdd := mul_self_nonneg d
  have hw : c + d / c * d = (c * c + d * d) / c := by field_simp
  have hp : 0 < c * c + d * d := by linarith
  have h1 : (|a| + |b * (d / c)|) / |c + d / c * d| = (|a * c| + |b * d|) / (c * c + d * d) := by
    rw [hw, abs_div, abs_of_pos hp, abs_mul b, abs_div, abs_mul a, abs_mul b]
    have := abs_pos.2 hc
    field_simp
  rw [h1, div_le_div_iff₀ hp (Real.sqrt_pos.2 hp)]
  have h2 := (cauchy2 ⟨a, b⟩ ⟨c, d⟩).1
  rw [Complex.norm_eq_sqrt_sq_add_sq, Complex.norm_eq_sqrt_sq_add_sq] at h2
  simp only [pow_two] at h2
  have h3 := Real.mul_self_sqrt hp.le
  calc _ ≤ √(a * a + b * b) * √(c * c + d * d) * √(c * c + d * d) := mul_le_mul_of_nonneg_right h2 (Real.sqrt_nonneg _)
    _ = _ := by rw [mul_assoc, h3]

theorem absT_val (x : Fl f) : (absT x).val = |x.val| := by
  unfold absT
  split
  · rename_i h
    have h : x.val < 0 := h
    rw [abs_of_neg h]
    rfl
  · rename_i h
    have h : ¬ x.val < 0 := h
    rw [abs_of_nonneg (not_lt.1 h)]

theorem fl_eq_zero {x : Fl f} : x = 0 ↔ x.val = 0 := by
  constructor
  · rintro rfl
    rfl
  · intro h
    cases x
    subst h
    rfl

theorem fdiv_some {x y : Fl f} (h : y.val ≠ 0) : fdiv x y = some (x / y) := if_neg (mt fl_eq_zero.1 h)

/-- The error of one component as a real number, against the magnitude of the quotient. -/
theorem component {a b c d q : ℚ} {k : ℚ} (hk : 0 ≤ k) (hc : c ≠ 0)
    (h : |q - (a + b * (d / c)) / (c + d / c * d)| ≤ k * ((|a| + |b * (d / c)|) / |c + d / c * d|)) :
    |(q : ℝ) - (a + b * (d / c)) / (c + d / c * d)| ≤ k * (√(a * a + b * b) / √(c * c + d * d)) := by
  have h1 := cast_abs_le h
  push_cast at h1
  refine le_trans h1 (mul_le_mul_of_nonneg_left (smith_norm (by exact_mod_cast hc)) (by exact_mod_cast hk))

/-- **C110**, quotients, for components that are zero or of magnitude between `2 ^ -k` and `2 ^ k`, where `4 * k + 2 * p` is at most `-emin`
(`k` up to 242 for `double`, up to 25 for `float`): the error is at most `√2` times seven roundings of the quotient. -/
theorem C110_div_partial (l r : Cx (Fl f)) (k : Nat) (hk : 4 * k + 2 * f.p ≤ -f.emin) (hr : valC r ≠ 0)
    (h1 : InRange k l.re.val) (h2 : InRange k l.im.val) (h3 : InRange k r.re.val) (h4 : InRange k r.im.val) :
    ∃ q, div fdiv l r = some q ∧
      ‖valC q - valC l / valC r‖ ≤ √2 * (((1 + unitRoundoff f) ^ 4 / (1 - unitRoundoff f) ^ 3 - 1) * ‖valC l / valC r‖) := by
  have hu0 := (unit_pos f).le
  have hu4 := unit_le_quarter f
  have hs0 := smithConst_nonneg hu0 (by linarith)
  have hsc : (((1 + unitRoundoff f) ^ 4 / (1 - unitRoundoff f) ^ 3 - 1 : ℝ)) = ((smithConst (unitRoundoff f) : ℚ) : ℝ) := by
    unfold smithConst
    push_cast
    rfl
  have hlr : ‖valC l / valC r‖ = √((l.re.val : ℝ) * l.re.val + l.im.val * l.im.val) / √((r.re.val : ℝ) * r.re.val + r.im.val * r.im.val) := by
    rw [Complex.norm_div, Complex.norm_eq_sqrt_sq_add_sq, Complex.norm_eq_sqrt_sq_add_sq]
    simp only [valC, pow_two]
  rw [hsc]
  by_cases hb : |r.im.val| < |r.re.val|
  · have hc : r.re.val ≠ 0 := by
      intro h
      rw [h, abs_zero] at hb
      exact absurd hb (not_lt.2 (abs_nonneg _))
    obtain ⟨hw, e1⟩ := smith_rnd l.re.repr r.re.repr hk h1 h2 h3 h4 hc hb.le
    obtain ⟨-, e2⟩ := smith_rnd l.im.repr r.re.repr hk h2 h1.neg h3 h4 hc hb.le
    have hcond : absT r.im < absT r.re := by
      show (absT r.im).val < (absT r.re).val
      rw [absT_val, absT_val]
      exact hb
    refine ⟨⟨(l.re + l.im * (r.im / r.re)) / (r.re + r.im / r.re * r.im), (l.im - l.re * (r.im / r.re)) / (r.re + r.im / r.re * r.im)⟩,
      ?_, ?_⟩
    · unfold div divAssign
      simp only [CRef.get]
      refine (if_pos hcond).trans ?_
      unfold divByReal
      rw [fdiv_some hc]
      simp only [Option.bind_eq_bind, Option.bind_some]
      have hw' : (r.re + r.im / r.re * r.im).val ≠ 0 := hw
      rw [if_neg (mt fl_eq_zero.1 hw'), fdiv_some hw', fdiv_some hw']
      rfl
    · have hcR : (r.re.val : ℝ) ≠ 0 := by exact_mod_cast hc
      have hq : valC l / valC r = ⟨_, _⟩ := quotient_real (a := (l.re.val : ℝ)) (b := (l.im.val : ℝ)) (d := (r.im.val : ℝ)) hcR
      refine norm_err ?_ ?_
      · rw [hlr, hq]
        exact component hs0 hc e1
      · rw [hlr, hq]
        have := component hs0 hc e2
        push_cast at this
        rw [neg_mul_neg, add_comm ((l.im.val : ℝ) * _)] at this
        rw [neg_mul, rnd_neg, ← sub_eq_add_neg] at this
        exact this
  · have hd : r.im.val ≠ 0 := by
      intro h
      rw [h, abs_zero] at hb
      have h0 : r.re.val = 0 := abs_nonpos_iff.1 (not_lt.1 hb)
      refine hr ?_
      apply Complex.ext <;> simp [valC, h, h0]
    obtain ⟨hw, e1⟩ := smith_rnd l.im.repr r.im.repr hk h2 h1 h4 h3 hd (not_lt.1 hb)
    obtain ⟨-, e2⟩ := smith_rnd (repr_neg l.re.repr) r.im.repr hk h1.neg h2 h4 h3 hd (not_lt.1 hb)
    have hcond : ¬ absT r.im < absT r.re := by
      show ¬ (absT r.im).val < (absT r.re).val
      rw [absT_val, absT_val]
      exact hb
    refine ⟨⟨(l.re * (r.re / r.im) + l.im) / (r.im + r.re / r.im * r.re), (l.im * (r.re / r.im) - l.re) / (r.im + r.re / r.im * r.re)⟩,
      ?_, ?_⟩
    · unfold div divAssign
      simp only [CRef.get]
      refine (if_neg hcond).trans ((if_neg (mt fl_eq_zero.1 hd)).trans ?_)
      unfold divByImag
      rw [fdiv_some hd]
      simp only [Option.bind_eq_bind, Option.bind_some]
      have hw' : (r.im + r.re / r.im * r.re).val ≠ 0 := hw
      rw [if_neg (mt fl_eq_zero.1 hw'), fdiv_some hw', fdiv_some hw']
      rfl
    · have hdR : (r.im.val : ℝ) ≠ 0 := by exact_mod_cast hd
      have hq : valC l / valC r = ⟨_, _⟩ := quotient_imag (a := (l.re.val : ℝ)) (b := (l.im.val : ℝ)) (c := (r.re.val : ℝ)) hdR
      refine norm_err ?_ ?_
      · rw [hlr, hq]
        have := component hs0 hd e1
        rw [add_comm l.im.val, add_comm ((l.im.val : ℝ) * _), add_comm ((r.im.val : ℝ) * _)] at this
        exact this
      · rw [hlr, hq]
        have := component hs0 hd e2
        push_cast at this
        rw [neg_mul_neg, add_comm ((r.im.val : ℝ) * _), neg_add_eq_sub l.re.val] at this
        exact this

/-- **C110**, scalars: both components of `z * x` and `z / x` are the nearest numbers, and `x * z`, which is computed as a product of two
complex numbers, is the same as `z * x`. -/
theorem C110_scalar (z : Cx (Fl f)) (x : Fl f) :
    (mulS z x).re.val = rnd f (z.re.val * x.val) ∧ (mulS z x).im.val = rnd f (z.im.val * x.val) ∧ sMul x z = mulS z x ∧
    (x.val ≠ 0 → ∃ q, divS fdiv z x = some q ∧ q.re.val = rnd f (z.re.val / x.val) ∧ q.im.val = rnd f (z.im.val / x.val)) := by
  have ext : ∀ {a b : Fl f}, a.val = b.val → a = b := by
    rintro ⟨a, _⟩ ⟨b, _⟩ rfl
    rfl
  refine ⟨rfl, rfl, ?_, fun h => ⟨⟨z.re / x, z.im / x⟩, ?_, rfl, rfl⟩⟩
  · apply Cx.ext
    · apply ext
      show rnd f (rnd f (x.val * z.re.val) - rnd f (0 * z.im.val)) = rnd f (z.re.val * x.val)
      rw [zero_mul, rnd_zero, sub_zero, rnd_of_repr (repr_rnd f _), mul_comm]
    · apply ext
      show rnd f (rnd f (x.val * z.im.val) + rnd f (0 * z.re.val)) = rnd f (z.im.val * x.val)
      rw [zero_mul, rnd_zero, add_zero, rnd_of_repr (repr_rnd f _), mul_comm]
  · unfold divS divAssignS
    simp only [Ref.get, Option.bind_eq_bind]
    rw [fdiv_some h]
    simp only [Option.bind_some]
    rw [fdiv_some h]
    rfl

/-- The bound for all quotients of doubles, with 2^51 times the rounding allowed. -/
def C110DivClaim : Prop := ∀ l r : Cx (Fl binary64), valC r ≠ 0 →
  ∃ q, div fdiv l r = some q ∧ ‖valC q - valC l / valC r‖ ≤ 1 / 4 * ‖valC l / valC r‖

theorem repr_least : Repr binary64 ((2 : ℚ) ^ (-1074 : Int)) := repr_two_zpow (by decide)

theorem repr_three_least : Repr binary64 (3 * (2 : ℚ) ^ (-1074 : Int)) := ⟨3, -1074, by decide, by decide, by norm_num⟩

/-- Numbers in the proportion of the witness below. -/
theorem div_witness {t : ℚ} (he : t ≠ 0) {l r q : Cx (Fl binary64)} (h1 : l.re.val = t) (h2 : l.im.val = t) (h3 : r.re.val = 3 * t)
    (h4 : r.im.val = t) (hq : q.im.val = rnd binary64 (1 / 3)) :
    valC r ≠ 0 ∧ ¬ ‖valC q - valC l / valC r‖ ≤ 1 / 4 * ‖valC l / valC r‖ := by
  have htR : (t : ℝ) ≠ 0 := by exact_mod_cast he
  have h3' : ((3 * t : ℚ) : ℝ) ≠ 0 := by
    push_cast
    exact mul_ne_zero (by norm_num) htR
  refine ⟨fun h0 => ?_, fun hb => ?_⟩
  · have := congrArg Complex.re h0
    simp only [valC, h3] at this
    exact h3' this
  have hd : valC l / valC r = ⟨2 / 5, 1 / 5⟩ := by
    have := quotient_real (a := (t : ℝ)) (b := (t : ℝ)) (d := (t : ℝ)) h3'
    unfold valC
    rw [h1, h2, h3, h4]
    refine Eq.trans this ?_
    push_cast
    apply Complex.ext
    · show (_ : ℝ) = 2 / 5
      field_simp
      norm_num
    · show (_ : ℝ) = 1 / 5
      field_simp
      norm_num
  rw [hd] at hb
  have hi := le_trans (Complex.abs_im_le_norm _) hb
  have him : (valC q - ⟨2 / 5, 1 / 5⟩).im = ((rnd binary64 (1 / 3) : ℚ) : ℝ) - 1 / 5 := by
    rw [← hq]
    rfl
  rw [him] at hi
  have hlow : ((13 / 100 : ℚ) : ℝ) ≤ ((rnd binary64 (1 / 3) - 1 / 5 : ℚ) : ℝ) := by
    have : (13 / 100 : ℚ) ≤ rnd binary64 (1 / 3) - 1 / 5 := by decide +kernel
    exact_mod_cast this
  push_cast at hlow
  have hn : ‖(⟨2 / 5, 1 / 5⟩ : ℂ)‖ ≤ 1 / 2 := by
    rw [Complex.norm_eq_sqrt_sq_add_sq]
    exact Real.sqrt_le_iff.2 ⟨by norm_num, by norm_num⟩
  have := le_trans (le_abs_self _) hi
  linarith

/-- For the least numbers the products in the formulas underflow: `(1 + i)t / (3 + i)t` for the least double `t` is `(1 + i) / 3` and not
`(2 + i) / 5`. -/
theorem C110_div_false : ¬ C110DivClaim ∧
    (div fdiv (⟨⟨_, repr_least⟩, ⟨_, repr_least⟩⟩ : Cx (Fl binary64)) ⟨⟨_, repr_three_least⟩, ⟨_, repr_least⟩⟩).map
      (fun q => (q.re.val, q.im.val)) = some (rnd binary64 (1 / 3), rnd binary64 (1 / 3)) := by
  have hv : (div fdiv (⟨⟨_, repr_least⟩, ⟨_, repr_least⟩⟩ : Cx (Fl binary64)) ⟨⟨_, repr_three_least⟩, ⟨_, repr_least⟩⟩).map
      (fun q => (q.re.val, q.im.val)) = some (rnd binary64 (1 / 3), rnd binary64 (1 / 3)) := by decide +kernel
  refine ⟨fun h => ?_, hv⟩
  cases hq : div fdiv (⟨⟨_, repr_least⟩, ⟨_, repr_least⟩⟩ : Cx (Fl binary64)) ⟨⟨_, repr_three_least⟩, ⟨_, repr_least⟩⟩ with
  | none =>
    rw [hq] at hv
    cases hv
  | some q =>
    rw [hq] at hv
    simp only [Option.map_some, Option.some.injEq, Prod.mk.injEq] at hv
    have hw := div_witness (two_zpow_pos _).ne' (l := ⟨⟨_, repr_least⟩, ⟨_, repr_least⟩⟩) (r := ⟨⟨_, repr_three_least⟩, ⟨_, repr_least⟩⟩)
      rfl rfl rfl rfl hv.2
    obtain ⟨q', hq', hb⟩ := h _ _ hw.1
    rw [hq] at hq'
    cases hq'
    exact hw.2 hb

/-- A bound for each component, with half of it allowed. -/
def C110ComponentClaim : Prop := ∀ l r : Cx (Fl binary64),
  |((mul l r).re.val : ℚ) - (l.re.val * r.re.val - l.im.val * r.im.val)| ≤ 1 / 2 * |l.re.val * r.re.val - l.im.val * r.im.val|

/-- The components on their own can be wrong altogether: the real part of `(1 + 2^-30 + i)(1 - 2^-30 + i)` is `-2^-60`, the computed one is
zero. -/
theorem C110_component_false : ¬ C110ComponentClaim := by
  intro h
  have := h ⟨.round _ (1 + 1 / 2 ^ 30), .round _ 1⟩ ⟨.round _ (1 - 1 / 2 ^ 30), .round _ 1⟩
  exact absurd this (by decide +kernel)

/-- The hypotheses are met: a quotient of doubles in the range. -/
example : ∃ q, div fdiv (⟨.round _ 1, .round _ (1 / 10)⟩ : Cx (Fl binary64)) ⟨.round _ 3, .round _ (-7)⟩ = some q ∧
    ‖valC q - valC (⟨.round _ 1, .round _ (1 / 10)⟩ : Cx (Fl binary64)) / valC (⟨.round _ 3, .round _ (-7)⟩ : Cx (Fl binary64))‖ ≤
      √2 * (((1 + unitRoundoff binary64) ^ 4 / (1 - unitRoundoff binary64) ^ 3 - 1) *
        ‖valC (⟨.round _ 1, .round _ (1 / 10)⟩ : Cx (Fl binary64)) / valC (⟨.round _ 3, .round _ (-7)⟩ : Cx (Fl binary64))‖) := by
  have e3 : rnd binary64 3 = 3 := by decide +kernel
  refine C110_div_partial _ _ 242 (by decide) ?_ (.inr ?_) (.inr ?_) (.inr ?_) (.inr ?_)
  · intro h
    have := congrArg Complex.re h
    simp [valC, Fl.round, e3] at this
  all_goals decide +kernel

end Verif.Cx
