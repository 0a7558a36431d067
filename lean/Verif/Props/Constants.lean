import Verif.Lemmas.Constants
import Mathlib.NumberTheory.Real.GoldenRatio

/-! Property theorems for the mathematical constants (C115). -/

namespace Verif.Constants

open Verif.Ieee

/-! ### Bounds -/

theorem btw_pi : Btw 3.14159265358979323846 3.14159265358979323847 Real.pi :=
  ⟨by have := Real.pi_gt_d20; push_cast; linarith, by have := Real.pi_lt_d20; push_cast; linarith⟩

theorem btw_sqrt2 : Btw 1.4142135623730950488016 1.4142135623730950488017 (Real.sqrt 2) := by
  have := (Btw.rat 2).sqrt (c := 1.4142135623730950488016) (d := 1.4142135623730950488017) (by decide +kernel) (by decide +kernel)
    (by decide +kernel) (by decide +kernel)
  simpa using this

theorem btw_sqrt3 : Btw 1.7320508075688772935274 1.7320508075688772935275 (Real.sqrt 3) := by
  have := (Btw.rat 3).sqrt (c := 1.7320508075688772935274) (d := 1.7320508075688772935275) (by decide +kernel) (by decide +kernel)
    (by decide +kernel) (by decide +kernel)
  simpa using this

theorem btw_sqrt5 : Btw 2.2360679774997896964091 2.2360679774997896964092 (Real.sqrt 5) := by
  have := (Btw.rat 5).sqrt (c := 2.2360679774997896964091) (d := 2.2360679774997896964092) (by decide +kernel) (by decide +kernel)
    (by decide +kernel) (by decide +kernel)
  simpa using this

theorem btw_log2 : Btw 0.69314718055994530941 0.69314718055994530942 (Real.log 2) := by
  have h := ((Btw.rat (1 / 2)).logInv (by decide +kernel) (by decide +kernel) 75).widen (c := 0.69314718055994530941)
    (d := 0.69314718055994530942) (by decide +kernel) (by decide +kernel)
  have e : -Real.log (1 - ((1 / 2 : ℚ) : ℝ)) = Real.log 2 := by
    rw [← Real.log_inv]; norm_num
  rwa [e] at h

theorem btw_log3 : Btw 1.09861228866810969138 1.09861228866810969141 (Real.log 3) := by
  have h := (btw_log2.add ((Btw.rat (1 / 3)).logInv (by decide +kernel) (by decide +kernel) 50)).widen (c := 1.09861228866810969138)
    (d := 1.09861228866810969141) (by decide +kernel) (by decide +kernel)
  have e : Real.log 2 + -Real.log (1 - ((1 / 3 : ℚ) : ℝ)) = Real.log 3 := by
    rw [← Real.log_inv, ← Real.log_mul (by norm_num) (by norm_num)]; norm_num
  rwa [e] at h

theorem btw_log5 : Btw 1.60943791243410037458 1.60943791243410037463 (Real.log 5) := by
  have h := ((btw_log2.add btw_log2).add ((Btw.rat (1 / 5)).logInv (by decide +kernel) (by decide +kernel) 40)).widen
    (c := 1.60943791243410037458) (d := 1.60943791243410037463) (by decide +kernel) (by decide +kernel)
  have e : Real.log 2 + Real.log 2 + -Real.log (1 - ((1 / 5 : ℚ) : ℝ)) = Real.log 5 := by
    rw [← Real.log_inv, ← Real.log_mul (by norm_num) (by norm_num), ← Real.log_mul (by norm_num) (by norm_num)]; norm_num
  rwa [e] at h

/-! ### Multiples and powers of pi -/

/-- **C115**: `pi` is the double nearest to π. -/
theorem C115_pi : Nearest pi Real.pi := nearest_of_btw btw_pi (by decide +kernel) (by decide +kernel)

/-- **C115**: `tau` and `twoPi` are the double nearest to 2π. -/
theorem C115_tau : Nearest tau (2 * Real.pi) ∧ Nearest twoPi (2 * Real.pi) := by
  have h := (Btw.rat 2).mul btw_pi (by decide +kernel) (by decide +kernel)
  have e : ((2 : ℚ) : ℝ) = 2 := by norm_num
  rw [e] at h
  exact ⟨nearest_of_btw h (by decide +kernel) (by decide +kernel), nearest_of_btw h (by decide +kernel) (by decide +kernel)⟩

/-- **C115**: `halfPi` is the double nearest to π/2. -/
theorem C115_halfPi : Nearest halfPi (Real.pi / 2) := by
  have h := btw_pi.div (Btw.rat 2) (by decide +kernel) (by decide +kernel) (by decide +kernel)
  have e : ((2 : ℚ) : ℝ) = 2 := by norm_num
  rw [e] at h
  exact nearest_of_btw h (by decide +kernel) (by decide +kernel)

/-- **C115**: `degToRad` is the double nearest to π/180. -/
theorem C115_degToRad : Nearest degToRad (Real.pi / 180) := by
  have h := btw_pi.div (Btw.rat 180) (by decide +kernel) (by decide +kernel) (by decide +kernel)
  have e : ((180 : ℚ) : ℝ) = 180 := by norm_num
  rw [e] at h
  exact nearest_of_btw h (by decide +kernel) (by decide +kernel)

/-- **C115**: `radToDeg` is the double nearest to 180/π. -/
theorem C115_radToDeg : Nearest radToDeg (180 / Real.pi) := by
  have h := (Btw.rat 180).div btw_pi (by decide +kernel) (by decide +kernel) (by decide +kernel)
  have e : ((180 : ℚ) : ℝ) = 180 := by norm_num
  rw [e] at h
  exact nearest_of_btw h (by decide +kernel) (by decide +kernel)

/-- **C115**: `piSquaredOnSix` is the double nearest to π²/6. -/
theorem C115_piSquaredOnSix : Nearest piSquaredOnSix (Real.pi ^ 2 / 6) := by
  have h := (btw_pi.pow (by decide +kernel) 2).div (Btw.rat 6) (by decide +kernel) (by decide +kernel) (by decide +kernel)
  have e : ((6 : ℚ) : ℝ) = 6 := by norm_num
  rw [e] at h
  exact nearest_of_btw h (by decide +kernel) (by decide +kernel)

/-- **C115**: `sqrtPi` is the double nearest to √π. -/
theorem C115_sqrtPi : Nearest sqrtPi (Real.sqrt Real.pi) :=
  nearest_of_btw (btw_pi.sqrt (c := 1.77245385090551602729) (d := 1.77245385090551602731) (by decide +kernel) (by decide +kernel)
    (by decide +kernel) (by decide +kernel)) (by decide +kernel) (by decide +kernel)

/-! ### Roots -/

/-- **C115**: `sqrt2`, `sqrt3` and `sqrt5` are the doubles nearest to the roots. -/
theorem C115_sqrt : Nearest sqrt2 (Real.sqrt 2) ∧ Nearest sqrt3 (Real.sqrt 3) ∧ Nearest sqrt5 (Real.sqrt 5) :=
  ⟨nearest_of_btw btw_sqrt2 (by decide +kernel) (by decide +kernel), nearest_of_btw btw_sqrt3 (by decide +kernel) (by decide +kernel),
   nearest_of_btw btw_sqrt5 (by decide +kernel) (by decide +kernel)⟩

/-- **C115**: `goldenRatio` is the double nearest to (1 + √5) / 2. -/
theorem C115_goldenRatio : Nearest goldenRatio Real.goldenRatio := by
  have h := ((Btw.rat 1).add btw_sqrt5).div (Btw.rat 2) (by decide +kernel) (by decide +kernel) (by decide +kernel)
  have e1 : ((1 : ℚ) : ℝ) = 1 := by norm_num
  have e2 : ((2 : ℚ) : ℝ) = 2 := by norm_num
  rw [e1, e2] at h
  exact nearest_of_btw h (by decide +kernel) (by decide +kernel)

/-- A number with a given cube lies between two numbers whose cubes enclose it. -/
theorem btw_cube {x : ℝ} {lo hi : ℚ} {k : ℚ} (hx : x ^ 3 = k) (h1 : lo ^ 3 ≤ k) (h2 : k ≤ hi ^ 3) : Btw lo hi x := by
  have h1' : (lo : ℝ) ^ 3 ≤ x ^ 3 := by rw [hx]; exact_mod_cast h1
  have h2' : x ^ 3 ≤ (hi : ℝ) ^ 3 := by rw [hx]; exact_mod_cast h2
  have odd : Odd 3 := by decide
  exact ⟨odd.strictMono_pow.le_iff_le.1 h1', odd.strictMono_pow.le_iff_le.1 h2'⟩

/-- **C115**: `cbrt2` and `cbrt3` are the doubles nearest to the cube roots. -/
theorem C115_cbrt (x y : ℝ) (hx : x ^ 3 = 2) (hy : y ^ 3 = 3) : Nearest cbrt2 x ∧ Nearest cbrt3 y :=
  ⟨nearest_of_btw (btw_cube (k := 2) (lo := 1.2599210498948731647672) (hi := 1.2599210498948731647673) (by push_cast; exact hx)
      (by decide +kernel) (by decide +kernel)) (by decide +kernel) (by decide +kernel),
   nearest_of_btw (btw_cube (k := 3) (lo := 1.4422495703074083823216) (hi := 1.4422495703074083823217) (by push_cast; exact hy)
      (by decide +kernel) (by decide +kernel)) (by decide +kernel) (by decide +kernel)⟩

example : ∃ x : ℝ, x ^ 3 = 2 := ⟨(2 : ℝ) ^ ((3 : ℕ) : ℝ)⁻¹, Real.rpow_inv_natCast_pow (by norm_num) (by norm_num)⟩

/-! ### Exponentials and logarithms -/

/-- **C115**: `e` is the double nearest to e. -/
theorem C115_e : Nearest e (Real.exp 1) := by
  have h := ((Btw.rat 1).exp (by decide +kernel) (by decide +kernel) 24 (by decide)).widen (c := 2.71828182845904523536)
    (d := 2.71828182845904523537) (by decide +kernel) (by decide +kernel)
  have e1 : ((1 : ℚ) : ℝ) = 1 := by norm_num
  rw [e1] at h
  exact nearest_of_btw h (by decide +kernel) (by decide +kernel)

/-- **C115**: `sqrtE` is the double nearest to √e. -/
theorem C115_sqrtE : Nearest sqrtE (Real.sqrt (Real.exp 1)) := by
  have h := ((Btw.rat (1 / 2)).exp (by decide +kernel) (by decide +kernel) 20 (by decide)).widen (c := 1.64872127070012814684)
    (d := 1.64872127070012814685) (by decide +kernel) (by decide +kernel)
  have e1 : Real.exp ((1 / 2 : ℚ) : ℝ) = Real.sqrt (Real.exp 1) := by
    push_cast
    rw [← Real.exp_half]
  rw [e1] at h
  exact nearest_of_btw h (by decide +kernel) (by decide +kernel)

/-- **C115**: `ln2`, `ln3` and `ln5` are the doubles nearest to the logarithms. -/
theorem C115_log : Nearest ln2 (Real.log 2) ∧ Nearest ln3 (Real.log 3) ∧ Nearest ln5 (Real.log 5) :=
  ⟨nearest_of_btw btw_log2 (by decide +kernel) (by decide +kernel), nearest_of_btw btw_log3 (by decide +kernel) (by decide +kernel),
   nearest_of_btw btw_log5 (by decide +kernel) (by decide +kernel)⟩

/-- **C115**: `eToPi` is the double nearest to e^π. -/
theorem C115_eToPi : Nearest eToPi (Real.exp Real.pi) := by
  have h1 := (btw_pi.div (Btw.rat 4) (by decide +kernel) (by decide +kernel) (by decide +kernel)).widen (c := 0.785398163397448309615)
    (d := 0.785398163397448309618) (by decide +kernel) (by decide +kernel)
  have h2 := ((h1.exp (by decide +kernel) (by decide +kernel) 24 (by decide)).widen (c := 2.19328005073801545655)
    (d := 2.19328005073801545657) (by decide +kernel) (by decide +kernel)).pow (by decide +kernel) 4
  have e1 : Real.exp (Real.pi / ((4 : ℚ) : ℝ)) ^ 4 = Real.exp Real.pi := by
    rw [← Real.exp_nat_mul]; push_cast; congr 1; ring
  rw [e1] at h2
  exact nearest_of_btw h2 (by decide +kernel) (by decide +kernel)

/-- **C115**: `piOnLn2` is the double nearest to π / ln 2. -/
theorem C115_piOnLn2 : Nearest piOnLn2 (Real.pi / Real.log 2) :=
  nearest_of_btw (btw_pi.div btw_log2 (by decide +kernel) (by decide +kernel) (by decide +kernel)) (by decide +kernel) (by decide +kernel)

/-- **C115**: `twoToRoot2` is the double nearest to 2^√2. -/
theorem C115_twoToRoot2 : Nearest twoToRoot2 ((2 : ℝ) ^ Real.sqrt 2) := by
  have h := ((btw_log2.mul btw_sqrt2 (by decide +kernel) (by decide +kernel)).widen (c := 0.980258143468547191697)
    (d := 0.980258143468547191730) (by decide +kernel) (by decide +kernel)).exp (by decide +kernel) (by decide +kernel) 24 (by decide)
  rw [← Real.rpow_def_of_pos (by norm_num)] at h
  exact nearest_of_btw h (by decide +kernel) (by decide +kernel)

/-- **C115**: `parabolic2` is the double nearest to √2 + ln (1 + √2). -/
theorem C115_parabolic2 : Nearest parabolic2 (Real.sqrt 2 + Real.log (1 + Real.sqrt 2)) := by
  have hx := (Btw.rat 3).sub ((Btw.rat 2).mul btw_sqrt2 (by decide +kernel) (by decide +kernel))
  have h := btw_sqrt2.add (btw_log2.add (hx.logInv (by decide +kernel) (by decide +kernel) 30))
  have e1 : Real.log 2 + -Real.log (1 - (((3 : ℚ) : ℝ) - ((2 : ℚ) : ℝ) * Real.sqrt 2)) = Real.log (1 + Real.sqrt 2) := by
    have hs : Real.sqrt 2 * Real.sqrt 2 = 2 := Real.mul_self_sqrt (by norm_num)
    have hs1 : 1 < Real.sqrt 2 := by
      have := btw_sqrt2.1
      push_cast at this
      linarith
    have e2 : (1 : ℝ) - (((3 : ℚ) : ℝ) - ((2 : ℚ) : ℝ) * Real.sqrt 2) = 2 * (Real.sqrt 2 - 1) := by push_cast; ring
    rw [e2, ← Real.log_inv, ← Real.log_mul (by norm_num) (by
      apply inv_ne_zero; apply mul_ne_zero (by norm_num); linarith)]
    congr 1
    have : (2 : ℝ) * (Real.sqrt 2 - 1) ≠ 0 := mul_ne_zero (by norm_num) (by linarith)
    rw [← div_eq_mul_inv, div_eq_iff this]
    nlinarith
  rw [e1] at h
  exact nearest_of_btw h (by decide +kernel) (by decide +kernel)

/-- **C115**: `goldenAngle` is the double nearest to π (3 - √5). -/
theorem C115_goldenAngle : Nearest goldenAngle (Real.pi * (3 - Real.sqrt 5)) := by
  have h := btw_pi.mul ((Btw.rat 3).sub btw_sqrt5) (by decide +kernel) (by decide +kernel)
  have e1 : ((3 : ℚ) : ℝ) = 3 := by norm_num
  rw [e1] at h
  exact nearest_of_btw h (by decide +kernel) (by decide +kernel)

/-! ### Roots of equations -/

/-- Bounds of a root of `x^3 = p x + q`. -/
theorem btw_root {x : ℝ} {p q : ℚ} {lo hi : ℚ} (hx : x ^ 3 = p * x + q) (hl : 4 * p ≤ 3 * lo ^ 2) (hh : 4 * p ≤ 3 * hi ^ 2)
    (h1 : lo ^ 3 < p * lo + q) (h2 : p * hi + q < hi ^ 3) : Btw lo hi x := by
  have hl' : 4 * (p : ℝ) ≤ 3 * (lo : ℝ) ^ 2 := by exact_mod_cast hl
  have hh' : 4 * (p : ℝ) ≤ 3 * (hi : ℝ) ^ 2 := by exact_mod_cast hh
  have h1' : (lo : ℝ) ^ 3 < p * lo + q := by exact_mod_cast h1
  have h2' : (p : ℝ) * hi + q < (hi : ℝ) ^ 3 := by exact_mod_cast h2
  constructor
  · by_contra hc
    push Not at hc
    have e : ((lo : ℝ) - x) * ((lo : ℝ) ^ 2 + lo * x + x ^ 2 - p) = (lo ^ 3 - p * lo) - (x ^ 3 - p * x) := by ring
    have hn : 0 ≤ (lo : ℝ) ^ 2 + lo * x + x ^ 2 - p := by nlinarith [sq_nonneg ((lo : ℝ) + 2 * x)]
    have := mul_nonneg (sub_nonneg.2 hc.le) hn
    rw [e] at this
    linarith
  · by_contra hc
    push Not at hc
    have e : (x - (hi : ℝ)) * ((hi : ℝ) ^ 2 + hi * x + x ^ 2 - p) = (x ^ 3 - p * x) - (hi ^ 3 - p * hi) := by ring
    have hn : 0 ≤ (hi : ℝ) ^ 2 + hi * x + x ^ 2 - p := by nlinarith [sq_nonneg ((hi : ℝ) + 2 * x)]
    have := mul_nonneg (sub_nonneg.2 hc.le) hn
    rw [e] at this
    linarith

/-- **C115**: `plasticNumber` is the double nearest to the real root of x³ = x + 1. -/
theorem C115_plasticNumber (x : ℝ) (hx : x ^ 3 = x + 1) : Nearest plasticNumber x :=
  nearest_of_btw (btw_root (p := 1) (q := 1) (lo := 1.3247179572447460259609) (hi := 1.3247179572447460259610)
    (by push_cast; linarith) (by decide +kernel) (by decide +kernel) (by decide +kernel) (by decide +kernel)) (by decide +kernel)
    (by decide +kernel)

/-- **C115**: `wallisConstant` is the double nearest to the real root of x³ = 2 x + 5. -/
theorem C115_wallisConstant (x : ℝ) (hx : x ^ 3 = 2 * x + 5) : Nearest wallisConstant x :=
  nearest_of_btw (btw_root (p := 2) (q := 5) (lo := 2.0945514815423265914823) (hi := 2.0945514815423265914824)
    (by push_cast; linarith) (by decide +kernel) (by decide +kernel) (by decide +kernel) (by decide +kernel)) (by decide +kernel)
    (by decide +kernel)

/-- Such roots exist. -/
example : (∃ x : ℝ, x ^ 3 = x + 1) ∧ ∃ x : ℝ, x ^ 3 = 2 * x + 5 := by
  constructor
  · obtain ⟨x, -, hx⟩ := intermediate_value_Icc (show (1 : ℝ) ≤ 2 by norm_num) (f := fun x => x ^ 3 - x)
      (by fun_prop) (show (1 : ℝ) ∈ Set.Icc _ _ by norm_num)
    exact ⟨x, by simp only at hx; linarith⟩
  · obtain ⟨x, -, hx⟩ := intermediate_value_Icc (show (2 : ℝ) ≤ 3 by norm_num) (f := fun x => x ^ 3 - 2 * x)
      (by fun_prop) (show (5 : ℝ) ∈ Set.Icc _ _ by norm_num)
    exact ⟨x, by simp only at hx; linarith⟩

end Verif.Constants
