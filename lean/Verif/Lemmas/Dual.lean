import Verif.Spec.Dual
import Mathlib.Analysis.SpecialFunctions.Pow.Deriv
import Mathlib.Analysis.SpecialFunctions.Sqrt
import Mathlib.Analysis.SpecialFunctions.Log.Deriv
import Mathlib.Analysis.SpecialFunctions.Trigonometric.ArctanDeriv
import Mathlib.Analysis.SpecialFunctions.Trigonometric.InverseDeriv
import Mathlib.Analysis.SpecialFunctions.Trigonometric.DerivHyp
import Mathlib.Analysis.SpecialFunctions.ExpDeriv
import Mathlib.Analysis.Calculus.Deriv.ZPow
import Mathlib.Analysis.Calculus.Deriv.Inv
import Mathlib.Tactic.FieldSimp
import Mathlib.Tactic.Linarith
import Mathlib.Tactic.LinearCombination
import Mathlib.Tactic.Positivity

/-! # Each dual function carries the derivative of its real function -/

namespace Verif.DualM

open Filter Topology Real

/-- A function of duals is right at `x` for the partial function `f`. -/
def Good (f : ℝ → Option ℝ) (D : Dual ℝ → Option (Dual ℝ)) (x : ℝ) : Prop :=
  ∃ (G : ℝ → ℝ) (f' : ℝ), (∀ᶠ t in 𝓝 x, f t = some (G t)) ∧ HasDerivAt G f' x ∧
    ∀ d, D ⟨x, d⟩ = some ⟨G x, f' * d⟩

theorem Good.comp {f D x} (h : Good f D x) {u : ℝ → ℝ} {d t₀ : ℝ} (hu : HasDerivAt u d t₀) (hx : u t₀ = x) :
    ∃ (g : ℝ → ℝ) (g' : ℝ), (∀ᶠ t in 𝓝 t₀, f (u t) = some (g t)) ∧ HasDerivAt g g' t₀ ∧
      D ⟨u t₀, d⟩ = some ⟨g t₀, g'⟩ := by
  obtain ⟨G, f', hG, hd, hD⟩ := h
  subst hx
  refine ⟨fun t => G (u t), f' * d, hu.continuousAt.eventually hG, hd.comp t₀ hu, hD d⟩

theorem cDiv_ne {a b : ℝ} (h : b ≠ 0) : cDiv a b = some (a / b) := by simp [cDiv, h]
theorem cSqrt_pos {x : ℝ} (h : 0 < x) : cSqrt x = some √x := by simp [cSqrt, h.le]
theorem cLog_pos {x : ℝ} (h : 0 < x) : cLog x = some (log x) := by simp [cLog, h]

theorem good_some (G : ℝ → ℝ) (f' x : ℝ) (D) (h : HasDerivAt G f' x) (hD : ∀ d, D ⟨x, d⟩ = some ⟨G x, f' * d⟩) :
    Good (fun x => some (G x)) D x := ⟨G, f', Eventually.of_forall fun _ => rfl, h, hD⟩

/-! ## Where the functions are not smooth -/

/-- A partial function that is smooth at `x` is defined to the left and to the right of `x`. -/
theorem Smooth.defined {f x} (h : Smooth f x) : ∃ ε > 0, ∀ t, |t - x| < ε → ∃ y, f t = some y := by
  obtain ⟨g, hg, _⟩ := h
  obtain ⟨ε, he, h⟩ := Metric.eventually_nhds_iff.1 hg
  exact ⟨ε, he, fun t ht => ⟨g t, h (by rwa [Real.dist_eq])⟩⟩

theorem Smooth.at {f x} (h : Smooth f x) : ∃ y, f x = some y := by
  obtain ⟨ε, he, h⟩ := h.defined
  exact h x (by simpa using he)

theorem Smooth.left {f x} (h : Smooth f x) : ∃ t < x, ∃ y, f t = some y := by
  obtain ⟨ε, he, h⟩ := h.defined
  refine ⟨x - ε / 2, by linarith, h _ ?_⟩
  rw [abs_lt]; constructor <;> linarith

theorem Smooth.right {f x} (h : Smooth f x) : ∃ t, x < t ∧ ∃ y, f t = some y := by
  obtain ⟨ε, he, h⟩ := h.defined
  refine ⟨x + ε / 2, by linarith, h _ ?_⟩
  rw [abs_lt]; constructor <;> linarith

theorem Smooth2.fst {f x y} (h : Smooth2 f x y) : Smooth (fun t => f t y) x := by
  obtain ⟨g, hg, hd⟩ := h
  refine ⟨fun t => g (t, y), ?_, ?_⟩
  · have : Tendsto (fun t : ℝ => (t, y)) (𝓝 x) (𝓝 (x, y)) := (Continuous.prodMk_left y).continuousAt
    exact this.eventually hg
  · exact hd.comp x (f := fun t : ℝ => (t, y)) (differentiableAt_id.prodMk (differentiableAt_const y))

theorem Smooth2.near {f x y} (h : Smooth2 f x y) :
    ∃ ε > 0, ∀ s t, |s - x| < ε → |t - y| < ε → ∃ z, f s t = some z := by
  obtain ⟨g, hg, _⟩ := h
  obtain ⟨ε, he, h⟩ := Metric.eventually_nhds_iff.1 hg
  refine ⟨ε, he, fun s t hs ht => ⟨g (s, t), h (y := (s, t)) ?_⟩⟩
  rw [Prod.dist_eq, max_lt_iff, Real.dist_eq, Real.dist_eq]
  exact ⟨hs, ht⟩

theorem cbrt_cube (x : ℝ) : realCbrt x ^ 3 = x := by
  unfold realCbrt
  have key : ∀ y : ℝ, 0 ≤ y → (y ^ (1 / 3 : ℝ)) ^ 3 = y := by
    intro y hy
    rw [← Real.rpow_natCast, ← Real.rpow_mul hy]; norm_num
  split
  · next h => exact key x h
  · next h =>
    have := key (-x) (by linarith)
    rw [neg_pow, this]; norm_num

/-- The cube root is not differentiable at 0: its cube would have derivative 0 there. -/
theorem cbrt_not_smooth : ¬ Smooth (fun x => some (realCbrt x)) 0 := by
  rintro ⟨g, hg, hd⟩
  have h1 : HasDerivAt (fun t => g t ^ 3) (3 * g 0 ^ 2 * deriv g 0) 0 := by
    have := hd.hasDerivAt.fun_pow 3
    simpa using! this
  have hg' : (fun t => g t ^ 3) =ᶠ[𝓝 0] fun t => t := by
    filter_upwards [hg] with t ht
    have : realCbrt t = g t := by simpa using ht
    rw [← this, cbrt_cube]
  have h2 := h1.congr_of_eventuallyEq hg'.symm
  have h0 : g 0 = 0 := by
    have := hg'.self_of_nhds
    simpa using this
  have := h2.unique (hasDerivAt_id (0 : ℝ))
  rw [h0] at this; norm_num at this

/-! ## The functions of one argument -/

theorem good_tan {x} (h : Smooth cTan x) : Good cTan dTan x := by
  obtain ⟨y, hy⟩ := h.at
  have hc : cos x ≠ 0 := fun h => by simp [cTan, h] at hy
  refine ⟨tan, 1 / cos x ^ 2, ?_, hasDerivAt_tan hc, fun d => ?_⟩
  · filter_upwards [continuous_cos.continuousAt.eventually_ne hc] with t ht
    simp [cTan, ht]
  · simp [dTan, cTan, hc, cDiv_ne]; ring

theorem sqrt_aux {x : ℝ} (h1 : -1 < x) (h2 : x < 1) : 0 < 1 - x * x := by nlinarith

theorem dom_asin {f : ℝ → ℝ} {x : ℝ} (h : Smooth (fun x => if -1 ≤ x ∧ x ≤ 1 then some (f x) else none) x) :
    -1 < x ∧ x < 1 := by
  obtain ⟨t, ht, y, hy⟩ := h.left
  obtain ⟨s, hs, z, hz⟩ := h.right
  constructor
  · by_cases c : -1 ≤ t ∧ t ≤ 1
    · linarith
    · simp [c] at hy
  · by_cases c : -1 ≤ s ∧ s ≤ 1
    · linarith
    · simp [c] at hz

theorem nhds_asin {x : ℝ} (h : -1 < x ∧ x < 1) : ∀ᶠ t in 𝓝 x, -1 ≤ t ∧ t ≤ 1 := by
  filter_upwards [Ioo_mem_nhds h.1 h.2] with t ht
  exact ⟨ht.1.le, ht.2.le⟩

theorem good_asin {x} (h : Smooth cAsin x) : Good cAsin dAsin x := by
  have hx := dom_asin h
  have hs := sqrt_aux hx.1 hx.2
  refine ⟨arcsin, 1 / √(1 - x ^ 2), ?_, hasDerivAt_arcsin (by linarith) (by linarith), fun d => ?_⟩
  · filter_upwards [nhds_asin hx] with t ht
    simp [cAsin, ht]
  · have : √(1 - x * x) ≠ 0 := (Real.sqrt_pos.2 hs).ne'
    simp [dAsin, cAsin, hx.1.le, hx.2.le, cSqrt_pos hs, cDiv_ne this, pow_two]
    ring

theorem good_acos {x} (h : Smooth cAcos x) : Good cAcos dAcos x := by
  have hx := dom_asin h
  have hs := sqrt_aux hx.1 hx.2
  refine ⟨arccos, -(1 / √(1 - x ^ 2)), ?_, hasDerivAt_arccos (by linarith) (by linarith), fun d => ?_⟩
  · filter_upwards [nhds_asin hx] with t ht
    simp [cAcos, ht]
  · have : √(1 - x * x) ≠ 0 := (Real.sqrt_pos.2 hs).ne'
    simp [dAcos, cAcos, hx.1.le, hx.2.le, cSqrt_pos hs, cDiv_ne this, pow_two]
    ring

theorem good_acosh {x} (h : Smooth cAcosh x) : Good cAcosh dAcosh x := by
  have hx : 1 < x := by
    obtain ⟨t, ht, y, hy⟩ := h.left
    by_cases c : 1 ≤ t
    · linarith
    · simp [cAcosh, c] at hy
  have hs : 0 < x * x - 1 := by nlinarith
  refine ⟨arcosh, (√(x ^ 2 - 1))⁻¹, ?_, hasDerivAt_arcosh hx, fun d => ?_⟩
  · filter_upwards [Ioi_mem_nhds hx] with t ht
    simp [cAcosh, (Set.mem_Ioi.1 ht).le]
  · have : √(x * x - 1) ≠ 0 := (Real.sqrt_pos.2 hs).ne'
    simp [dAcosh, cAcosh, hx.le, cSqrt_pos hs, cDiv_ne this, pow_two]
    ring

theorem hasDerivAt_artanh {x : ℝ} (h1 : -1 < x) (h2 : x < 1) : HasDerivAt artanh (1 / (1 - x * x)) x := by
  have e : artanh =ᶠ[𝓝 x] fun t => 1 / 2 * (log (1 + t) - log (1 - t)) := by
    filter_upwards [Ioo_mem_nhds h1 h2] with t ht
    have a : (0 : ℝ) < 1 + t := by linarith [ht.1]
    have b : (0 : ℝ) < 1 - t := by linarith [ht.2]
    rw [artanh_eq_half_log ⟨ht.1.le, ht.2.le⟩, Real.log_div a.ne' b.ne']
  refine HasDerivAt.congr_of_eventuallyEq ?_ e
  have a : (1 + x) ≠ 0 := by linarith
  have b : (1 - x) ≠ 0 := by linarith
  have ha : HasDerivAt (fun t => log (1 + t)) (1 / (1 + x)) x := ((hasDerivAt_id x).const_add 1).log a
  have hb : HasDerivAt (fun t => log (1 - t)) (-1 / (1 - x)) x := ((hasDerivAt_id x).const_sub 1).log b
  have := (ha.sub hb).const_mul (1 / 2 : ℝ)
  refine this.congr_deriv ?_
  have c : (1 - x * x) ≠ 0 := (sqrt_aux h1 h2).ne'
  have e2 : 1 - x * x = (1 + x) * (1 - x) := by ring
  rw [e2]
  field_simp
  ring

theorem good_atanh {x} (h : Smooth cAtanh x) : Good cAtanh dAtanh x := by
  have hx : -1 < x ∧ x < 1 := by
    obtain ⟨y, hy⟩ := h.at
    by_cases c : -1 < x ∧ x < 1
    · exact c
    · simp [cAtanh, c] at hy
  have hs := sqrt_aux hx.1 hx.2
  refine ⟨artanh, 1 / (1 - x * x), ?_, hasDerivAt_artanh hx.1 hx.2, fun d => ?_⟩
  · filter_upwards [Ioo_mem_nhds hx.1 hx.2] with t ht
    simp [cAtanh, ht.1, ht.2]
  · simp [dAtanh, cAtanh, hx.1, hx.2, cDiv_ne hs.ne']
    ring

theorem pos_of_smooth {f : ℝ → ℝ} {x : ℝ} (h : Smooth (fun x => if 0 < x then some (f x) else none) x) : 0 < x := by
  obtain ⟨y, hy⟩ := h.at
  by_cases c : 0 < x
  · exact c
  · simp [c] at hy

theorem nhds_pos {x : ℝ} (h : 0 < x) : ∀ᶠ t in 𝓝 x, 0 < t := Ioi_mem_nhds h

theorem good_log {x} (h : Smooth cLog x) : Good cLog dLog x := by
  have hx := pos_of_smooth h
  refine ⟨log, x⁻¹, ?_, hasDerivAt_log hx.ne', fun d => ?_⟩
  · filter_upwards [nhds_pos hx] with t ht
    simp [cLog, ht]
  · simp [dLog, cLog, hx, cDiv_ne hx.ne']
    ring

theorem hasDerivAt_logb' {b x : ℝ} (hx : 0 < x) : HasDerivAt (logb b) (x⁻¹ / log b) x :=
  (hasDerivAt_log hx.ne').div_const (log b)

theorem log_ten_pos : 0 < log (10 : ℝ) := log_pos (by norm_num)
theorem log_two_pos' : 0 < log (2 : ℝ) := log_pos (by norm_num)

theorem good_log10 {x} (h : Smooth cLog10 x) : Good cLog10 dLog10 x := by
  have hx := pos_of_smooth h
  refine ⟨logb 10, x⁻¹ / log 10, ?_, hasDerivAt_logb' hx, fun d => ?_⟩
  · filter_upwards [nhds_pos hx] with t ht
    simp [cLog10, ht]
  · have hl := log_ten_pos
    simp [dLog10, cLog10, hx, cLog_pos (show (0 : ℝ) < 10 by norm_num), cDiv_ne (mul_pos hx hl).ne']
    field_simp

theorem good_log2 {x} (h : Smooth cLog2 x) : Good cLog2 dLog2 x := by
  have hx := pos_of_smooth h
  refine ⟨logb 2, x⁻¹ / log 2, ?_, hasDerivAt_logb' hx, fun d => ?_⟩
  · filter_upwards [nhds_pos hx] with t ht
    simp [cLog2, ht]
  · have hl := log_two_pos'
    simp [dLog2, cLog2, hx, cLog_pos (show (0 : ℝ) < 2 by norm_num), cDiv_ne (mul_pos hx hl).ne']
    field_simp

theorem good_sqrt {x} (h : Smooth cSqrt x) : Good cSqrt dSqrt x := by
  have hx : 0 < x := by
    obtain ⟨t, ht, y, hy⟩ := h.left
    by_cases c : 0 ≤ t
    · linarith
    · simp [cSqrt, c] at hy
  have hs : √x ≠ 0 := (Real.sqrt_pos.2 hx).ne'
  refine ⟨sqrt, 1 / (2 * √x), ?_, hasDerivAt_sqrt hx.ne', fun d => ?_⟩
  · filter_upwards [nhds_pos hx] with t ht
    simp [cSqrt, ht.le]
  · simp [dSqrt, cSqrt, hx.le, cDiv_ne (mul_ne_zero two_ne_zero hs)]
    ring

theorem cbrt_pos {x : ℝ} (h : 0 < x) : realCbrt x = x ^ (1 / 3 : ℝ) := by simp [realCbrt, h.le]
theorem cbrt_neg {x : ℝ} (h : x < 0) : realCbrt x = -((-x) ^ (1 / 3 : ℝ)) := by simp [realCbrt, not_le.2 h]

theorem cbrt_sq {x : ℝ} (h : 0 < x) : realCbrt (x * x) = x ^ (2 / 3 : ℝ) := by
  rw [cbrt_pos (mul_pos h h), Real.mul_rpow h.le h.le, ← Real.rpow_add h]
  norm_num

theorem good_cbrt {x} (h : Smooth (fun x => some (realCbrt x)) x) : Good (fun x => some (realCbrt x)) dCbrt x := by
  have hx : x ≠ 0 := fun hx => cbrt_not_smooth (hx ▸ h)
  have hsq : 0 < realCbrt (x * x) := by
    have : 0 < x * x := mul_self_pos.2 hx
    rw [cbrt_pos this]; exact Real.rpow_pos_of_pos this _
  refine good_some realCbrt (1 / (3 * realCbrt (x * x))) x _ ?_ fun d => ?_
  · rcases lt_or_gt_of_ne hx with hn | hp
    · have e : realCbrt =ᶠ[𝓝 x] fun t => -((-t) ^ (1 / 3 : ℝ)) := by
        filter_upwards [Iio_mem_nhds hn] with t ht
        exact cbrt_neg ht
      refine HasDerivAt.congr_of_eventuallyEq ?_ e
      have h1 : HasDerivAt (fun t : ℝ => -t) (-1) x := (hasDerivAt_id x).neg
      have := (h1.rpow_const (p := (1 / 3 : ℝ)) (Or.inl (by simpa using hx))).neg
      refine this.congr_deriv ?_
      have hn' : 0 < -x := by linarith
      rw [show x * x = (-x) * (-x) by ring, cbrt_sq hn', show (1 / 3 - 1 : ℝ) = -(2 / 3) by norm_num,
        Real.rpow_neg hn'.le]
      have := (Real.rpow_pos_of_pos hn' (2 / 3)).ne'
      field_simp
    · have e : realCbrt =ᶠ[𝓝 x] fun t => t ^ (1 / 3 : ℝ) := by
        filter_upwards [nhds_pos hp] with t ht
        exact cbrt_pos ht
      refine HasDerivAt.congr_of_eventuallyEq ?_ e
      refine (Real.hasDerivAt_rpow_const (p := (1 / 3 : ℝ)) (Or.inl hx)).congr_deriv ?_
      rw [cbrt_sq hp, show (1 / 3 - 1 : ℝ) = -(2 / 3) by norm_num, Real.rpow_neg hp.le]
      have := (Real.rpow_pos_of_pos hp (2 / 3)).ne'
      field_simp
  · simp [dCbrt, cDiv_ne (mul_ne_zero three_ne_zero hsq.ne')]
    field_simp

theorem hasDerivAt_tanh' (x : ℝ) : HasDerivAt tanh (1 / (cosh x * cosh x)) x := by
  have e : (tanh : ℝ → ℝ) = fun t => sinh t / cosh t := funext tanh_eq_sinh_div_cosh
  rw [e]
  have hc := (cosh_pos x).ne'
  refine ((hasDerivAt_sinh x).div (hasDerivAt_cosh x) hc).congr_deriv ?_
  have := cosh_sq x
  rw [div_eq_div_iff (by positivity) (by positivity)]
  linear_combination (cosh x * cosh x) * this

/-- Every function of one argument carries the derivative wherever it is smooth. -/
theorem Fn.good (f : Fn) {x : ℝ} (h : Smooth f.val x) : Good f.val f.dual x := by
  cases f
  case neg => exact good_some _ (-1) x _ (hasDerivAt_id x).neg fun d => by simp [Fn.dual, DualM.neg]
  case pos => exact good_some _ 1 x _ (hasDerivAt_id x) fun d => by simp [Fn.dual, DualM.pos]
  case sin => exact good_some _ _ x _ (hasDerivAt_sin x) fun d => rfl
  case cos => exact good_some _ _ x _ (hasDerivAt_cos x) fun d => rfl
  case tan => exact good_tan h
  case asin => exact good_asin h
  case acos => exact good_acos h
  case atan =>
    refine good_some _ _ x _ (hasDerivAt_arctan x) fun d => ?_
    have : 1 + x * x ≠ 0 := by nlinarith [mul_self_nonneg x]
    simp [Fn.dual, dAtan, cDiv_ne this, pow_two]; ring
  case sinh => exact good_some _ _ x _ (hasDerivAt_sinh x) fun d => rfl
  case cosh => exact good_some _ _ x _ (hasDerivAt_cosh x) fun d => rfl
  case tanh =>
    refine good_some _ _ x _ (hasDerivAt_tanh' x) fun d => ?_
    have := cosh_pos x
    simp [Fn.dual, dTanh, cDiv_ne (mul_pos this this).ne']; ring
  case asinh =>
    refine good_some _ _ x _ (hasDerivAt_arsinh x) fun d => ?_
    have h : 0 < 1 + x * x := by nlinarith [mul_self_nonneg x]
    have := (Real.sqrt_pos.2 h).ne'
    simp [Fn.dual, dAsinh, cSqrt_pos h, cDiv_ne this, pow_two]; ring
  case acosh => exact good_acosh h
  case atanh => exact good_atanh h
  case exp => exact good_some _ _ x _ (Real.hasDerivAt_exp x) fun d => rfl
  case exp2 =>
    have := (hasDerivAt_id x).const_rpow (a := (2 : ℝ)) (by norm_num)
    refine good_some _ _ x _ this fun d => ?_
    simp only [Fn.dual, dExp2, cLog_pos (show (0 : ℝ) < 2 by norm_num), id, mul_one]
    simp [mul_comm]
  case exp10 =>
    have := (hasDerivAt_id x).const_rpow (a := (10 : ℝ)) (by norm_num)
    refine good_some _ _ x _ this fun d => ?_
    simp only [Fn.dual, dExp10, cLog_pos (show (0 : ℝ) < 10 by norm_num), id, mul_one]
    simp [mul_comm]
  case log => exact good_log h
  case log10 => exact good_log10 h
  case log2 => exact good_log2 h
  case sqrt => exact good_sqrt h
  case cbrt => exact good_cbrt h

/-! ## Powers with a scalar -/

theorem cPow_int (x : ℝ) (n : ℤ) (h : x ≠ 0 ∨ 0 ≤ n) : cPow x n = some (x ^ n) := by
  unfold cPow
  by_cases h1 : 0 < x
  · simp [h1]
  · rw [if_neg h1]
    by_cases h2 : x = 0
    · rw [if_pos h2]
      subst h2
      have hn : 0 ≤ n := by simpa using h
      by_cases h3 : n = 0
      · simp [h3]
      · have : (0 : ℝ) < n := by exact_mod_cast lt_of_le_of_ne hn (Ne.symm h3)
        rw [if_neg (by exact_mod_cast h3), if_pos this, zero_zpow n h3]
    · rw [if_neg h2, if_pos (by simp)]
      simp

theorem good_powS {x c : ℝ} (h : Smooth (fun t => cPow t c) x) (h0 : c = 0 → x ≠ 0) :
    Good (fun t => cPow t c) (fun d => dPowS d c) x := by
  by_cases hx : 0 < x
  · refine ⟨fun t => t ^ c, c * x ^ (c - 1), ?_, Real.hasDerivAt_rpow_const (Or.inl hx.ne'), fun d => ?_⟩
    · filter_upwards [nhds_pos hx] with t ht
      simp [cPow, ht]
    · simp [dPowS, cPow, hx]
  · -- a point to the left is negative, so the exponent is integral
    have hc : c = (⌊c⌋ : ℝ) := by
      obtain ⟨t, ht, y, hy⟩ := h.left
      have : t < 0 := by linarith
      by_cases c' : c = (⌊c⌋ : ℝ)
      · exact c'
      · simp [cPow, not_lt.2 this.le, this.ne, if_neg c'] at hy
    obtain ⟨n, rfl⟩ : ∃ n : ℤ, c = n := ⟨_, hc⟩
    have hn : x ≠ 0 ∨ 0 < n := by
      by_cases hx0 : x = 0
      · right
        obtain ⟨y, hy⟩ := h.at
        have hn0 : n ≠ 0 := fun e => h0 (by simp [e]) hx0
        by_contra hneg
        have h1 : ¬ (0 : ℝ) < n := by exact_mod_cast hneg
        have h2 : ¬ (n : ℝ) = 0 := by exact_mod_cast hn0
        simp [cPow, hx0, h2] at hy
        exact h1 (by exact_mod_cast hy.1)
      · exact Or.inl hx0
    refine ⟨fun t => t ^ n, n * x ^ (n - 1), ?_, hasDerivAt_zpow n x (hn.imp id le_of_lt), fun d => ?_⟩
    · rcases hn with hx0 | hn
      · filter_upwards [continuousAt_id.eventually_ne hx0] with t ht
        exact cPow_int t n (Or.inl ht)
      · filter_upwards with t
        exact cPow_int t n (Or.inr hn.le)
    · have e1 := cPow_int x n (hn.imp id le_of_lt)
      have e2 : cPow x ((n : ℝ) - 1) = some (x ^ (n - 1)) := by
        have := cPow_int x (n - 1) (hn.imp id (by omega))
        rwa [Int.cast_sub, Int.cast_one] at this
      simp [dPowS, e1, e2]

theorem good_sPow {c y : ℝ} (h : Smooth (fun t => cPow c t) y) (h0 : c ≠ 0) :
    Good (fun t => cPow c t) (fun d => dSPow c d) y := by
  have hc : 0 < c := by
    rcases lt_trichotomy c 0 with hn | hz | hp
    · exfalso
      -- a negative base is undefined at nearby exponents that are not integers
      obtain ⟨ε, he, hd⟩ := h.defined
      obtain ⟨q, hq, hni⟩ : ∃ q : ℝ, |q - y| < ε ∧ q ≠ (⌊q⌋ : ℝ) := by
        by_cases hy : y = (⌊y⌋ : ℝ)
        · refine ⟨y + min (ε / 2) (1 / 2), ?_, ?_⟩
          · rw [abs_lt]
            have := min_le_left (ε / 2) (1 / 2)
            have : 0 < min (ε / 2) (1 / 2) := lt_min (by linarith) (by norm_num)
            constructor <;> linarith
          · intro e
            have h1 := min_le_right (ε / 2) (1 / 2)
            have h2 : 0 < min (ε / 2) (1 / 2) := lt_min (by linarith) (by norm_num)
            have : ((⌊y⌋ : ℤ) : ℝ) < (⌊y + min (ε / 2) (1 / 2)⌋ : ℝ) := by linarith
            have h3 : ⌊y⌋ + 1 ≤ ⌊y + min (ε / 2) (1 / 2)⌋ := by
              have : ⌊y⌋ < ⌊y + min (ε / 2) (1 / 2)⌋ := by exact_mod_cast this
              omega
            have h4 : ((⌊y⌋ : ℤ) : ℝ) + 1 ≤ (⌊y + min (ε / 2) (1 / 2)⌋ : ℝ) := by exact_mod_cast h3
            linarith
        · exact ⟨y, by simpa using he, hy⟩
      obtain ⟨z, hz⟩ := hd q hq
      simp [cPow, not_lt.2 hn.le, hn.ne, if_neg hni] at hz
    · exact absurd hz h0
    · exact hp
  refine ⟨fun t => c ^ t, log c * c ^ y, Eventually.of_forall fun t => by simp [cPow, hc], ?_, fun d => ?_⟩
  · refine ((hasDerivAt_id y).const_rpow hc).congr_deriv ?_
    simp
  · simp [dSPow, cPow, cLog, hc]

/-! ## Operations with a scalar operand -/

theorem Op.goodS (o : Op) {x c : ℝ} (h : Smooth (fun t => o.val t c) x) (h0 : o = .pow → c = 0 → x ≠ 0) :
    Good (fun t => o.val t c) (fun d => o.dualS d c) x := by
  cases o
  case add => exact good_some _ 1 x _ ((hasDerivAt_id x).add_const c) fun d => by simp [Op.dualS, addS]
  case sub => exact good_some _ 1 x _ ((hasDerivAt_id x).sub_const c) fun d => by simp [Op.dualS, subS]
  case mul =>
    refine good_some _ c x _ (((hasDerivAt_id x).mul_const c).congr_deriv (by simp)) fun d => ?_
    simp [Op.dualS, mulS, mul_comm]
  case div =>
    have hc : c ≠ 0 := by
      obtain ⟨y, hy⟩ := h.at
      intro hc
      simp [Op.val, cDiv, hc] at hy
    refine ⟨fun t => t / c, 1 / c, Eventually.of_forall fun t => cDiv_ne hc,
      (hasDerivAt_id x).div_const c, fun d => ?_⟩
    simp [Op.dualS, divS, cDiv_ne hc]; ring
  case pow => exact good_powS h (h0 rfl)

theorem Op.goodS' (o : Op) {x c : ℝ} (h : Smooth (fun t => o.val c t) x) (h0 : o = .pow → c ≠ 0) :
    Good (fun t => o.val c t) (fun d => o.sDual c d) x := by
  cases o
  case add => exact good_some _ 1 x _ ((hasDerivAt_id x).const_add c) fun d => by simp [Op.sDual, sAdd]
  case sub => exact good_some _ (-1) x _ ((hasDerivAt_id x).const_sub c) fun d => by simp [Op.sDual, sSub]
  case mul =>
    refine good_some _ c x _ (((hasDerivAt_id x).const_mul c).congr_deriv (by simp)) fun d => ?_
    simp [Op.sDual, sMul]
  case div =>
    have hx : x ≠ 0 := by
      obtain ⟨y, hy⟩ := h.at
      intro hx
      simp [Op.val, cDiv, hx] at hy
    refine ⟨fun t => c / t, -c / (x * x), ?_, ?_, fun d => ?_⟩
    · filter_upwards [continuousAt_id.eventually_ne hx] with t ht
      exact cDiv_ne ht
    · refine ((hasDerivAt_const x c).div (hasDerivAt_id x) hx).congr_deriv ?_
      simp [pow_two]
    · simp [Op.sDual, sDiv, cDiv_ne hx, cDiv_ne (mul_ne_zero hx hx)]; ring
  case pow => exact good_sPow h (h0 rfl)

/-! ## Operations on two duals -/

theorem pow_base_pos {x y : ℝ} (h : Smooth2 cPow x y) : 0 < x := by
  obtain ⟨ε, he, hd⟩ := h.near
  by_contra hx
  have hx : x ≤ 0 := not_lt.1 hx
  obtain ⟨q, hq, hni⟩ : ∃ q : ℝ, |q - y| < ε ∧ q ≠ (⌊q⌋ : ℝ) := by
    by_cases hy : y = (⌊y⌋ : ℝ)
    · refine ⟨y + min (ε / 2) (1 / 2), ?_, ?_⟩
      · rw [abs_lt]
        have := min_le_left (ε / 2) (1 / 2)
        have : 0 < min (ε / 2) (1 / 2) := lt_min (by linarith) (by norm_num)
        constructor <;> linarith
      · intro e
        have h1 := min_le_right (ε / 2) (1 / 2)
        have h2 : 0 < min (ε / 2) (1 / 2) := lt_min (by linarith) (by norm_num)
        have : ((⌊y⌋ : ℤ) : ℝ) < (⌊y + min (ε / 2) (1 / 2)⌋ : ℝ) := by linarith
        have h3 : ⌊y⌋ + 1 ≤ ⌊y + min (ε / 2) (1 / 2)⌋ := by
          have : ⌊y⌋ < ⌊y + min (ε / 2) (1 / 2)⌋ := by exact_mod_cast this
          omega
        have h4 : ((⌊y⌋ : ℤ) : ℝ) + 1 ≤ (⌊y + min (ε / 2) (1 / 2)⌋ : ℝ) := by exact_mod_cast h3
        linarith
    · exact ⟨y, by simpa using he, hy⟩
  have hs : x - ε / 2 < 0 := by linarith
  obtain ⟨z, hz⟩ := hd (x - ε / 2) q (by rw [abs_lt]; constructor <;> linarith) hq
  simp [cPow, not_lt.2 hs.le, hs.ne, if_neg hni] at hz

theorem Op.good2 (o : Op) {x y : ℝ} (h : Smooth2 o.val x y) {u v : ℝ → ℝ} {du dv t₀ : ℝ} (hu : HasDerivAt u du t₀)
    (hv : HasDerivAt v dv t₀) (hx : u t₀ = x) (hy : v t₀ = y) :
    ∃ (g : ℝ → ℝ) (g' : ℝ), (∀ᶠ t in 𝓝 t₀, o.val (u t) (v t) = some (g t)) ∧ HasDerivAt g g' t₀ ∧
      o.dual ⟨u t₀, du⟩ ⟨v t₀, dv⟩ = some ⟨g t₀, g'⟩ := by
  subst hx hy
  cases o
  case add => exact ⟨_, _, Eventually.of_forall fun _ => rfl, hu.add hv, rfl⟩
  case sub => exact ⟨_, _, Eventually.of_forall fun _ => rfl, hu.sub hv, rfl⟩
  case mul => exact ⟨_, _, Eventually.of_forall fun _ => rfl, hu.mul hv, rfl⟩
  case div =>
    have hne : v t₀ ≠ 0 := by
      obtain ⟨ε, he, hd⟩ := h.near
      obtain ⟨z, hz⟩ := hd (u t₀) (v t₀) (by simpa using he) (by simpa using he)
      intro hv0
      simp [Op.val, cDiv, hv0] at hz
    refine ⟨fun t => u t / v t, _, ?_, hu.div hv hne, ?_⟩
    · filter_upwards [hv.continuousAt.eventually_ne hne] with t ht
      exact cDiv_ne ht
    · simp [Op.dual, DualM.div, cDiv_ne hne, cDiv_ne (mul_ne_zero hne hne), pow_two]
  case pow =>
    have hp := pow_base_pos h
    refine ⟨fun t => u t ^ v t, _, ?_, hu.rpow hv hp, ?_⟩
    · filter_upwards [hu.continuousAt.eventually (nhds_pos hp)] with t ht
      simp [Op.val, cPow, ht]
    · simp [Op.dual, dPow, cPow, hp, cLog, cDiv_ne hp.ne']
      rw [Real.rpow_sub_one hp.ne']
      field_simp
      ring

/-! ## Expressions -/

theorem Ex.differentiates (e : Ex) {γ : ℝ → Nat → ℝ} {γ' : Nat → ℝ} {t₀ : ℝ}
    (hγ : ∀ i, HasDerivAt (fun t => γ t i) (γ' i) t₀) (hs : e.SmoothAt (γ t₀)) (hz : e.NoZeroPow (γ t₀)) :
    e.Differentiates γ γ' t₀ := by
  induction e with
  | var i => exact ⟨fun t => γ t i, γ' i, Eventually.of_forall fun _ => rfl, hγ i, rfl⟩
  | const c => exact ⟨fun _ => c, 0, Eventually.of_forall fun _ => rfl, hasDerivAt_const _ _, rfl⟩
  | fn f e ih =>
    obtain ⟨g, d, hg, hd, he⟩ := ih hs.1 hz
    obtain ⟨k, k', hk, hk', hD⟩ := (f.good (hs.2 _ hg.self_of_nhds)).comp hd rfl
    refine ⟨k, k', ?_, hk', ?_⟩
    · filter_upwards [hg, hk] with t h1 h2
      simp [Ex.val, h1, h2]
    · simp [Ex.dual, he, hD]
  | op o a b iha ihb =>
    obtain ⟨g, d, hg, hd, he⟩ := iha hs.1 hz.1
    obtain ⟨g2, d2, hg2, hd2, he2⟩ := ihb hs.2.1 hz.2
    obtain ⟨k, k', hk, hk', hD⟩ := o.good2 (hs.2.2 _ _ hg.self_of_nhds hg2.self_of_nhds) hd hd2 rfl rfl
    refine ⟨k, k', ?_, hk', ?_⟩
    · filter_upwards [hg, hg2, hk] with t h1 h2 h3
      simp [Ex.val, h1, h2, h3]
    · simp [Ex.dual, he, he2, hD]
  | opS o a c ih =>
    obtain ⟨g, d, hg, hd, he⟩ := ih hs.1 hz.1
    have h0 : o = .pow → c = 0 → g t₀ ≠ 0 := fun h1 h2 h3 => hz.2 h1 h2 (by rw [hg.self_of_nhds, h3])
    obtain ⟨k, k', hk, hk', hD⟩ := (o.goodS (hs.2 _ hg.self_of_nhds) h0).comp hd rfl
    refine ⟨k, k', ?_, hk', ?_⟩
    · filter_upwards [hg, hk] with t h1 h2
      simp [Ex.val, h1, h2]
    · simp [Ex.dual, he, hD]
  | sOp o c a ih =>
    obtain ⟨g, d, hg, hd, he⟩ := ih hs.1 hz.1
    obtain ⟨k, k', hk, hk', hD⟩ := (o.goodS' (hs.2 _ hg.self_of_nhds) hz.2).comp hd rfl
    refine ⟨k, k', ?_, hk', ?_⟩
    · filter_upwards [hg, hk] with t h1 h2
      simp [Ex.val, h1, h2]
    · simp [Ex.dual, he, hD]

end Verif.DualM
