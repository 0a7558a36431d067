import Verif.Props.Complex
import Verif.Lemmas.ComplexSqrt
import Verif.Model.Ieee
import Mathlib.Analysis.SpecialFunctions.Pow.Complex
import Mathlib.Analysis.SpecialFunctions.Complex.Arg
import Mathlib.Analysis.Real.Pi.Irrational
import Mathlib.Analysis.SpecialFunctions.Trigonometric.Complex
import Mathlib.Tactic.LinearCombination

/-!
# C52: complex elementary functions

`math/complex.hpp`. The specification is Mathlib's complex analysis.
-/

namespace Verif.Cx

noncomputable section

theorem toC_eq (z : Cx ℝ) : toC z = (z.re : ℂ) + z.im * Complex.I := (Complex.re_add_im (toC z)).symm

/-- The functions without branches. -/
theorem C52_simple (z : Cx ℝ) :
    toC (exp z) = Complex.exp (toC z) ∧ toC (sin z) = Complex.sin (toC z) ∧ toC (cos z) = Complex.cos (toC z) ∧
    toC (sinh z) = Complex.sinh (toC z) ∧ toC (cosh z) = Complex.cosh (toC z) := by
  refine ⟨?_, ?_, ?_, ?_, ?_⟩
  · apply Complex.ext
    · rw [Complex.exp_re]; simp [toC, exp, expMul]
    · rw [Complex.exp_im]; simp [toC, exp, expMul]
  · rw [Complex.sin_eq (toC z)]
    apply Complex.ext
    · simp [toC, sin, Complex.sin_ofReal_re, Complex.sin_ofReal_im, Complex.cos_ofReal_re, Complex.cos_ofReal_im, Complex.sinh_ofReal_re, Complex.sinh_ofReal_im, Complex.cosh_ofReal_re, Complex.cosh_ofReal_im, -Complex.ofReal_sin, -Complex.ofReal_cos, -Complex.ofReal_sinh, -Complex.ofReal_cosh, mul_comm]
    · simp [toC, sin, Complex.sin_ofReal_re, Complex.sin_ofReal_im, Complex.cos_ofReal_re, Complex.cos_ofReal_im, Complex.sinh_ofReal_re, Complex.sinh_ofReal_im, Complex.cosh_ofReal_re, Complex.cosh_ofReal_im, -Complex.ofReal_sin, -Complex.ofReal_cos, -Complex.ofReal_sinh, -Complex.ofReal_cosh, mul_comm]
  · rw [Complex.cos_eq (toC z)]
    apply Complex.ext
    · simp [toC, cos, Complex.sin_ofReal_re, Complex.sin_ofReal_im, Complex.cos_ofReal_re, Complex.cos_ofReal_im, Complex.sinh_ofReal_re, Complex.sinh_ofReal_im, Complex.cosh_ofReal_re, Complex.cosh_ofReal_im, -Complex.ofReal_sin, -Complex.ofReal_cos, -Complex.ofReal_sinh, -Complex.ofReal_cosh, mul_comm]
    · simp [toC, cos, Complex.sin_ofReal_re, Complex.sin_ofReal_im, Complex.cos_ofReal_re, Complex.cos_ofReal_im, Complex.sinh_ofReal_re, Complex.sinh_ofReal_im, Complex.cosh_ofReal_re, Complex.cosh_ofReal_im, -Complex.ofReal_sin, -Complex.ofReal_cos, -Complex.ofReal_sinh, -Complex.ofReal_cosh, mul_comm]
  · rw [toC_eq z, Complex.sinh_add, Complex.sinh_mul_I, Complex.cosh_mul_I]
    apply Complex.ext
    · simp [toC, sinh, Complex.sin_ofReal_re, Complex.sin_ofReal_im, Complex.cos_ofReal_re, Complex.cos_ofReal_im, Complex.sinh_ofReal_re, Complex.sinh_ofReal_im, Complex.cosh_ofReal_re, Complex.cosh_ofReal_im, -Complex.ofReal_sin, -Complex.ofReal_cos, -Complex.ofReal_sinh, -Complex.ofReal_cosh]
    · simp [toC, sinh, Complex.sin_ofReal_re, Complex.sin_ofReal_im, Complex.cos_ofReal_re, Complex.cos_ofReal_im, Complex.sinh_ofReal_re, Complex.sinh_ofReal_im, Complex.cosh_ofReal_re, Complex.cosh_ofReal_im, -Complex.ofReal_sin, -Complex.ofReal_cos, -Complex.ofReal_sinh, -Complex.ofReal_cosh]
  · rw [toC_eq z, Complex.cosh_add, Complex.sinh_mul_I, Complex.cosh_mul_I]
    apply Complex.ext
    · simp [toC, cosh, Complex.sin_ofReal_re, Complex.sin_ofReal_im, Complex.cos_ofReal_re, Complex.cos_ofReal_im, Complex.sinh_ofReal_re, Complex.sinh_ofReal_im, Complex.cosh_ofReal_re, Complex.cosh_ofReal_im, -Complex.ofReal_sin, -Complex.ofReal_cos, -Complex.ofReal_sinh, -Complex.ofReal_cosh]
    · simp [toC, cosh, Complex.sin_ofReal_re, Complex.sin_ofReal_im, Complex.cos_ofReal_re, Complex.cos_ofReal_im, Complex.sinh_ofReal_re, Complex.sinh_ofReal_im, Complex.cosh_ofReal_re, Complex.cosh_ofReal_im, -Complex.ofReal_sin, -Complex.ofReal_cos, -Complex.ofReal_sinh, -Complex.ofReal_cosh]

theorem tanh_spec (z : Cx ℝ) (h : Real.cos z.im ≠ 0) :
    (tanh z).map toC = some (Complex.tanh (toC z)) ∧ Complex.cosh (toC z) ≠ 0 := by
  have hch : 0 < Real.cosh z.re := Real.cosh_pos _
  have hcs : Real.cosh z.re ^ 2 = Real.sinh z.re ^ 2 + 1 := Real.cosh_sq _
  have hsc := Real.sin_sq_add_cos_sq z.im
  have hs4 := (C52_simple z).2.2.2
  have hne : Complex.cosh (toC z) ≠ 0 := by
    rw [← hs4.2]
    intro h0
    have := congrArg Complex.re h0
    simp only [toC, cosh, Complex.zero_re] at this
    rcases mul_eq_zero.1 this with h1 | h1
    · exact hch.ne' h1
    · exact h h1
  refine ⟨?_, hne⟩
  unfold tanh rtan
  rw [if_neg h]
  have hsq : Real.sqrt (1 + Real.sinh z.re * Real.sinh z.re) = Real.cosh z.re := by
    rw [show 1 + Real.sinh z.re * Real.sinh z.re = Real.cosh z.re ^ 2 by rw [hcs]; ring, Real.sqrt_sq hch.le]
  simp only [Option.bind_eq_bind, Option.bind_some, hsq]
  have ht : 1 + Real.sin z.im / Real.cos z.im * (Real.sin z.im / Real.cos z.im) = 1 / Real.cos z.im ^ 2 := by
    field_simp
    linarith
  rw [ht]
  have hdv : 1 + Real.sinh z.re * (1 / Real.cos z.im ^ 2) * Real.sinh z.re =
      (Real.cos z.im ^ 2 + Real.sinh z.re ^ 2) / Real.cos z.im ^ 2 := by
    field_simp
  rw [hdv]
  have hD : Real.cos z.im ^ 2 + Real.sinh z.re ^ 2 ≠ 0 := by positivity
  rw [if_neg (div_ne_zero hD (by positivity))]
  simp only [Option.pure_def, Option.map_some]
  refine congrArg some ?_
  rw [Complex.tanh_eq_sinh_div_cosh, eq_div_iff hne, ← hs4.1, ← hs4.2]
  have hD2 : Real.cos z.im ^ 2 + Real.sinh z.re ^ 2 = Real.cosh z.re ^ 2 - Real.sin z.im ^ 2 := by rw [hcs]; linarith
  apply Complex.ext
  · simp only [toC, cosh, sinh, Complex.mul_re]
    field_simp
    rw [hD2]
  · simp only [toC, cosh, sinh, Complex.mul_im]
    field_simp
    ring

/-- **C52 (tanh).** Wherever the tangent of the imaginary part exists. -/
theorem C52_tanh (z : Cx ℝ) (h : Real.cos z.im ≠ 0) : (tanh z).map toC = some (Complex.tanh (toC z)) := (tanh_spec z h).1

/-- **C52 (tan).** Wherever the tangent of the real part exists. -/
theorem C52_tan (z : Cx ℝ) (h : Real.cos z.re ≠ 0) : (tan z).map toC = some (Complex.tan (toC z)) := by
  have h1 := C52_tanh ⟨-z.im, z.re⟩ h
  unfold tan
  cases ht : tanh ⟨-z.im, z.re⟩ with
  | none => rw [ht] at h1; simp at h1
  | some w =>
    rw [ht] at h1
    have h1 : toC w = Complex.tanh (toC ⟨-z.im, z.re⟩) := by simpa using h1
    simp only [Option.bind_eq_bind, Option.bind_some, Option.pure_def, Option.map_some]
    refine congrArg some ?_
    have h2 : toC ⟨-z.im, z.re⟩ = toC z * Complex.I := by
      apply Complex.ext <;> simp [toC]
    rw [h2, Complex.tanh_mul_I] at h1
    have h3 : Complex.tan (toC z) = toC w * -Complex.I := by
      rw [h1, mul_assoc]; simp
    rw [h3]
    apply Complex.ext <;> simp [toC]

/-- The scalar tangent has no pole at a rational number, in particular not at a floating-point number. -/
theorem cos_rat_ne_zero (q : ℚ) : Real.cos q ≠ 0 := by
  intro h
  rw [Real.cos_eq_zero_iff] at h
  obtain ⟨k, hk⟩ := h
  apply irrational_pi
  refine ⟨2 * q / (2 * k + 1), ?_⟩
  have h2 : (2 * (k : ℝ) + 1) ≠ 0 := by
    intro h0
    have : (2 * k + 1 : Int) = 0 := by exact_mod_cast h0
    omega
  push_cast
  rw [hk]
  field_simp

/-- **C52 (all floating-point arguments).** For components that are rational, as all finite floating-point numbers are, `tan` and `tanh`
have a value and it is the right one. -/
theorem C52_tan_rat (x y : ℚ) :
    (tanh ⟨x, y⟩).map toC = some (Complex.tanh (toC ⟨x, y⟩)) ∧ (tan ⟨x, y⟩).map toC = some (Complex.tan (toC ⟨x, y⟩)) :=
  ⟨C52_tanh _ (cos_rat_ne_zero y), C52_tan _ (cos_rat_ne_zero x)⟩

/-- A number is the principal square root of its square when it lies in the right half plane (upper boundary). -/
theorem sqrt_unique {s z : ℂ} (h : s ^ 2 = z) (h0 : 0 ≤ s.re) (h1 : s.re = 0 → 0 ≤ s.im) : s = z ^ (1 / 2 : ℂ) := by
  have ha : |s.arg| ≤ Real.pi / 2 := Complex.abs_arg_le_pi_div_two_iff.2 h0
  rw [abs_le] at ha
  have hne : s.arg ≠ -(Real.pi / 2) := by
    intro hc
    obtain ⟨a, b⟩ := Complex.arg_eq_neg_pi_div_two_iff.1 hc
    linarith [h1 a]
  have := Complex.pow_cpow_nat_inv (x := s) (n := 2) (by norm_num) (by
    push_cast
    exact lt_of_le_of_ne ha.1 (Ne.symm hne)) (by push_cast; exact ha.2)
  rw [← h]
  rw [one_div]
  exact_mod_cast this.symm

theorem toC_sq (s : Cx ℝ) : toC s ^ 2 = ⟨s.re ^ 2 - s.im ^ 2, 2 * s.re * s.im⟩ := by
  rw [sq]
  apply Complex.ext
  · rw [Complex.mul_re]; show s.re * s.re - s.im * s.im = s.re ^ 2 - s.im ^ 2; ring
  · rw [Complex.mul_im]; show s.re * s.im + s.im * s.re = 2 * s.re * s.im; ring

theorem norm_toC (z : Cx ℝ) : ‖toC z‖ = Real.sqrt (z.re ^ 2 + z.im ^ 2) := by
  rw [Complex.norm_def, Complex.normSq_apply]
  congr 1
  show z.re * z.re + z.im * z.im = _
  ring

/-- **C52 (sqrt, exact constants).** With `root2 = √2` and `onePlusRoot2 = 1 + √2`, as `mpfr` computes them, the result is the principal
square root, for every argument and every choice of the threshold and scale of the tiny branch. -/
theorem C52_sqrt_partial (k : FabsConst) (hd : 0 < k.digits) (h1 : k.root2 = Real.sqrt 2) (h2 : k.onePlusRoot2 = 1 + Real.sqrt 2)
    (z : Cx ℝ) : toC (sqrt k z) = toC z ^ (1 / 2 : ℂ) := by
  have hk : Good k 0 := ⟨hd, by rw [h1]; positivity, by rw [h1, h2]; simp⟩
  obtain ⟨a, b, c, d⟩ := sqrt_square hk (by norm_num) z
  refine sqrt_unique ?_ c d
  rw [zero_mul] at a
  have a := abs_nonpos_iff.1 a
  rw [toC_sq]
  apply Complex.ext
  · show _ = z.re; linarith
  · exact b

/-- **C52 (sqrt, the constants of `float` and `double`).** With constants that are right up to `d`, the square of the result differs from the
argument by at most `d` times its magnitude, and only in the real part; the result lies in the right half plane. -/
theorem C52_sqrt_rounded_partial (k : FabsConst) (d : ℝ) (hk : Good k d) (hd : d ≤ 1 / 10) (z : Cx ℝ) :
    ‖toC (sqrt k z) ^ 2 - toC z‖ ≤ d * ‖toC z‖ ∧ 0 ≤ (sqrt k z).re ∧ ((sqrt k z).re = 0 → 0 ≤ (sqrt k z).im) := by
  obtain ⟨a, b, c, e⟩ := sqrt_square hk hd z
  refine ⟨?_, c, e⟩
  have : toC (sqrt k z) ^ 2 - toC z = (((sqrt k z).re ^ 2 - (sqrt k z).im ^ 2 - z.re : ℝ) : ℂ) := by
    rw [toC_sq]
    apply Complex.ext
    · rw [Complex.sub_re, Complex.ofReal_re]; rfl
    · rw [Complex.sub_im, Complex.ofReal_im]; show 2 * _ * _ - z.im = 0; linarith
  rw [this, Complex.norm_real, norm_toC]
  exact a

/-- The constants of the code for `double`, 1633-1637: each literal rounded to `double`. -/
def root2D : ℚ := Ieee.rnd Ieee.binary64 1.4142135623730950488016887242096981
def onePlusRoot2D : ℚ :=
  Ieee.rnd Ieee.binary64 (10125945 / 4194304) + Ieee.rnd Ieee.binary64 1.4341252375973918872420969807856967e-7

def constD : FabsConst := ⟨2 ^ (-969 : Int), 53, root2D, onePlusRoot2D⟩

/-- The constants of `double` are right to within `2 ^ -52`. -/
theorem good_double : Good constD (2 ^ (-52 : Int)) := by
  have h1 : (1.41421356237309492 : ℚ) < root2D ∧ root2D < 1.41421356237309515 := by decide +kernel
  have h2 : (2.41421356237309500 : ℚ) < onePlusRoot2D ∧ onePlusRoot2D < 2.41421356237309509 := by decide +kernel
  have s1 : (1.414213562373095048 : ℝ) < Real.sqrt 2 := Real.lt_sqrt_of_sq_lt (by norm_num)
  have s2 : Real.sqrt 2 < 1.414213562373095049 := by rw [Real.sqrt_lt' (by norm_num)]; norm_num
  have r1 : (1.41421356237309492 : ℝ) < (root2D : ℝ) ∧ (root2D : ℝ) < 1.41421356237309515 := by
    have a : (((1.41421356237309492 : ℚ)) : ℝ) < root2D := by exact_mod_cast h1.1
    have b : (root2D : ℝ) < ((1.41421356237309515 : ℚ) : ℝ) := by exact_mod_cast h1.2
    norm_num at a b ⊢
    exact ⟨a, b⟩
  have r2 : (2.41421356237309500 : ℝ) < (onePlusRoot2D : ℝ) ∧ (onePlusRoot2D : ℝ) < 2.41421356237309509 := by
    have a : (((2.41421356237309500 : ℚ)) : ℝ) < onePlusRoot2D := by exact_mod_cast h2.1
    have b : (onePlusRoot2D : ℝ) < ((2.41421356237309509 : ℚ) : ℝ) := by exact_mod_cast h2.2
    norm_num at a b ⊢
    exact ⟨a, b⟩
  refine ⟨by decide, ?_, ?_⟩
  · show (0 : ℝ) < (root2D : ℝ)
    linarith [r1.1]
  · show |(root2D : ℝ) - Real.sqrt 2| + |(onePlusRoot2D : ℝ) - (1 + Real.sqrt 2)| ≤ _
    have a : |(root2D : ℝ) - Real.sqrt 2| ≤ 13e-17 := by rw [abs_le]; constructor <;> linarith [r1.1, r1.2]
    have b : |(onePlusRoot2D : ℝ) - (1 + Real.sqrt 2)| ≤ 5e-17 := by rw [abs_le]; constructor <;> linarith [r2.1, r2.2]
    have c : (13e-17 : ℝ) + 5e-17 ≤ 2 ^ (-52 : Int) := by norm_num
    exact le_trans (add_le_add a b) c

/-- The property for `sqrt` with given constants. -/
def C52SqrtClaim (k : FabsConst) : Prop := ∀ z : Cx ℝ, toC (sqrt k z) = toC z ^ (1 / 2 : ℂ)

/-- **C52 (disproved for the constants of `double`).** Even when all operations are exact, `sqrt(3 + 4i)` is not `2 + i`: the rounded
constants enter the magnitude. -/
theorem C52_false : ¬ C52SqrtClaim constD := by
  intro h
  have h34 : toC (sqrt constD ⟨3, 4⟩) ^ 2 = toC ⟨3, 4⟩ := by
    rw [h]
    have := Complex.cpow_nat_inv_pow (toC ⟨3, 4⟩) (n := 2) (by norm_num)
    rw [one_div]
    exact_mod_cast this
  have hre : (sqrt constD ⟨3, 4⟩).re ^ 2 - (sqrt constD ⟨3, 4⟩).im ^ 2 = 3 := by
    have := congrArg Complex.re h34
    rw [toC_sq] at this
    exact this
  have him : 2 * (sqrt constD ⟨3, 4⟩).re * (sqrt constD ⟨3, 4⟩).im = 4 := by
    have := congrArg Complex.im h34
    rw [toC_sq] at this
    exact this
  -- the magnitude the code computes
  have hf : fabs constD ⟨3, 4⟩ = (4, 4 * (1 / 16) + 3 * (1 / 16) / (7 / 9 / ((root2D : ℝ) + 5 / 3) + (onePlusRoot2D : ℝ) + 1 / 3)) := by
    have e1 : max |(3 : ℝ)| |4| = 4 := by norm_num
    have e2 : min |(3 : ℝ)| |4| = 3 := by norm_num
    have e3 : fabsScale constD 4 3 = (4, 4 * (1 / 16), 3 * (1 / 16)) := by
      unfold fabsScale; rw [if_pos (by norm_num)]
    unfold fabs
    simp only [e1, e2]
    rw [if_neg (by norm_num), e3]
    simp only
    unfold fabsHyp
    simp only
    rw [if_neg (by norm_num), if_neg (by norm_num)]
    have e4 : ((4 : ℝ) * (1 / 16) - 3 * (1 / 16)) / (3 * (1 / 16)) = 1 / 3 := by norm_num
    have e5 : Real.sqrt (((1 : ℝ) / 3 + 2) * (1 / 3) + 2) = 5 / 3 := by
      rw [show ((1 : ℝ) / 3 + 2) * (1 / 3) + 2 = (5 / 3) ^ 2 by norm_num, Real.sqrt_sq (by norm_num)]
    rw [e4, e5]
    norm_num [constD]
  obtain ⟨R, -, -, -, hR, hr, e⟩ := sqrt_spec good_double (by norm_num) (⟨3, 4⟩ : Cx ℝ) (Or.inl (by norm_num))
  have hrho := rho_eq (R := R) (x := 3) 2 (by positivity)
  obtain ⟨m, R', -, hf', -, -, -⟩ := fabs_spec good_double (by norm_num) (⟨3, 4⟩ : Cx ℝ) (Or.inl (by norm_num))
  -- the real part of the result determines the magnitude
  have hs : sqrt constD ⟨3, 4⟩ = ⟨ldexp (Real.sqrt (2 * (ldexp |3| (-4) + (fabs constD ⟨3, 4⟩).2))) 1,
      4 / (2 * ldexp (Real.sqrt (2 * (ldexp |3| (-4) + (fabs constD ⟨3, 4⟩).2))) 1)⟩ := by
    unfold sqrt
    rw [hf]
    norm_num
  have hbig : (0 : ℝ) ≤ 2 * (ldexp |3| (-4) + (fabs constD ⟨3, 4⟩).2) := by
    have h1 : (0 : ℝ) < (root2D : ℝ) := good_double.root2
    have h2 : (0 : ℝ) < (onePlusRoot2D : ℝ) := by
      have : (0 : ℚ) < onePlusRoot2D := by decide +kernel
      exact_mod_cast this
    rw [hf]
    unfold ldexp
    positivity
  have h2 : (sqrt constD ⟨3, 4⟩).re = 2 := by
    have hpos : 0 ≤ (sqrt constD ⟨3, 4⟩).re := by
      rw [hs]
      unfold ldexp
      positivity
    set a := (sqrt constD ⟨3, 4⟩).re
    set b := (sqrt constD ⟨3, 4⟩).im
    have : (a ^ 2 - 4) * (a ^ 2 + 1) = 0 := by
      have h1 : a ^ 2 * b ^ 2 = 4 := by
        have : a * b = 2 := by linarith
        rw [← mul_pow, this]; norm_num
      have h2 : b ^ 2 = a ^ 2 - 3 := by linarith
      rw [h2] at h1
      nlinarith
    rcases mul_eq_zero.1 this with h1 | h1
    · nlinarith
    · nlinarith [sq_nonneg a]
  rw [hs] at h2
  have h3 : 2 * (ldexp |3| (-4) + (fabs constD ⟨3, 4⟩).2) = 1 := by
    have h4 : Real.sqrt (2 * (ldexp |3| (-4) + (fabs constD ⟨3, 4⟩).2)) = 1 := by
      generalize Real.sqrt (2 * (ldexp |3| (-4) + (fabs constD ⟨3, 4⟩).2)) = t at h2
      simp only [ldexp] at h2
      norm_num at h2
      linarith
    rw [Real.sqrt_eq_one] at h4
    exact h4
  rw [hf] at h3
  have h5 : (3 : ℝ) * (1 / 16) / (7 / 9 / ((root2D : ℝ) + 5 / 3) + (onePlusRoot2D : ℝ) + 1 / 3) = 1 / 16 := by
    have e6 : ldexp |3| (-4) = 3 / 16 := by unfold ldexp; norm_num
    rw [e6] at h3
    simp only at h3
    linarith
  have h6 : ((3 * (1 / 16) / (7 / 9 / (root2D + 5 / 3) + onePlusRoot2D + 1 / 3) : ℚ) : ℝ) = ((1 / 16 : ℚ) : ℝ) := by
    push_cast
    exact h5
  have h7 : 3 * (1 / 16) / (7 / 9 / (root2D + 5 / 3) + onePlusRoot2D + 1 / 3) = (1 / 16 : ℚ) := by exact_mod_cast h6
  revert h7
  decide +kernel

/-- **C52 (sqrt in `double`).** So the result is right to within `2 ^ -52` relative to the square, even though not exact. -/
theorem C52_sqrt_double_partial (z : Cx ℝ) : ‖toC (sqrt constD z) ^ 2 - toC z‖ ≤ 2 ^ (-52 : Int) * ‖toC z‖ :=
  (C52_sqrt_rounded_partial constD _ good_double (by norm_num) z).1

/-- **C52 (magnitude, conjugate, polar form).** -/
theorem C52_parts (z : Cx ℝ) (rho theta : ℝ) :
    cabs z = ‖toC z‖ ∧ toC (conj z) = (starRingEnd ℂ) (toC z) ∧ norm z = ‖toC z‖ ^ 2 ∧
    toC (polar rho theta) = rho * Complex.exp (theta * Complex.I) := by
  refine ⟨(norm_toC z).symm, ?_, ?_, ?_⟩
  · apply Complex.ext <;> simp [toC, conj]
  · rw [norm_toC, Real.sq_sqrt (by positivity)]
    unfold norm; ring
  · have key : ∀ r t : ℝ, (⟨r * Real.cos t, r * Real.sin t⟩ : ℂ) = r * Complex.exp (t * Complex.I) := by
      intro r t
      apply Complex.ext
      · rw [Complex.re_ofReal_mul, Complex.exp_ofReal_mul_I_re]
      · rw [Complex.im_ofReal_mul, Complex.exp_ofReal_mul_I_im]
    unfold polar
    by_cases h : rho = 0
    · subst h
      simp only [ne_eq, not_true, if_false, lt_irrefl, polarZero]
      split
      · rename_i h; subst h; simp [toC]; rfl
      · simp [toC]; rfl
    · rw [if_pos h]
      exact key rho theta

/-- **C52 (csc, sec, cot).** Reciprocals, where the divisor is not zero. -/
theorem C52_reciprocals (z : Cx ℝ) :
    (csc z).map toC = (if Complex.sin (toC z) = 0 then none else some (1 / Complex.sin (toC z))) ∧
    (sec z).map toC = (if Complex.cos (toC z) = 0 then none else some (1 / Complex.cos (toC z))) ∧
    (Real.cos z.re ≠ 0 → (cot z).map toC = (if Complex.tan (toC z) = 0 then none else some (1 / Complex.tan (toC z)))) := by
  have hs := C52_simple z
  refine ⟨?_, ?_, fun h => ?_⟩
  · have := (C51_binary_partial ⟨0, 0⟩ (sin z) 1).2.2.2.2.2.2.2.2.2.2.2.1
    rw [hs.2.1] at this
    exact_mod_cast this
  · have := (C51_binary_partial ⟨0, 0⟩ (cos z) 1).2.2.2.2.2.2.2.2.2.2.2.1
    rw [hs.2.2.1] at this
    exact_mod_cast this
  · have h1 := C52_tan z h
    unfold cot
    cases ht : tan z with
    | none => rw [ht] at h1; simp at h1
    | some w =>
      rw [ht] at h1
      have h1 : toC w = Complex.tan (toC z) := by simpa using h1
      simp only [Option.bind_eq_bind, Option.bind_some]
      have := (C51_binary_partial ⟨0, 0⟩ w 1).2.2.2.2.2.2.2.2.2.2.2.1
      rw [h1] at this
      exact_mod_cast this

end

end Verif.Cx
