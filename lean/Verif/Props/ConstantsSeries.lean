import Verif.Lemmas.ConstantsSeries
import Verif.Props.ConstantsMore

/-! Property theorems for nested roots, Clausen's function and the constants of physics and of floating point (C115). -/

namespace Verif.Constants

open Verif.Ieee

/-- **C115**: `quadRecurrence` is the double nearest to the limit of √1, √(1 √2), √(1 √(2 √3)), … -/
theorem C115_quadRecurrence (l : ℝ) (hl : Filter.Tendsto (fun n => nested 1 n 1) Filter.atTop (nhds l)) :
    Nearest quadRecurrence l :=
  nearest_of_btw (btw_somos hl) (by decide +kernel) (by decide +kernel)

/-- The limit exists. -/
example : ∃ l : ℝ, Filter.Tendsto (fun n => nested 1 n 1) Filter.atTop (nhds l) := by
  refine ⟨_, tendsto_atTop_ciSup ?_ ⟨2, ?_⟩⟩
  · refine monotone_nat_of_le_succ (fun n => ?_)
    rw [nested_add]
    exact nested_mono n 1 (nested_bounds 1 (1 + n) (by omega)).1
  · rintro _ ⟨n, rfl⟩
    have := (nested_bounds n 1 (by decide)).2
    norm_num at this ⊢
    exact this
/-- **C115**: `gieseking` is the double nearest to Gieseking's constant, the value of Clausen's function at π/3 (in Lean 1/0 = 0). -/
theorem C115_gieseking : Nearest gieseking (∑' n : ℕ, Real.sin (n * Real.pi / 3) / (n : ℝ) ^ 2) := by
  have h3 : Btw 1.7320508075688772935274463415 1.7320508075688772935274463416 (Real.sqrt ((3 : ℚ) : ℝ)) :=
    (Btw.rat 3).sqrt (by decide +kernel) (by decide +kernel) (by decide +kernel) (by decide +kernel)
  have h := (btw_gies 150 (by decide)).mul (h3.mul (Btw.rat (1 / 2)) (by decide +kernel) (by decide +kernel)) (by decide +kernel)
    (by decide +kernel)
  have e : (∑' n : ℕ, clausen n) / (Real.sqrt 3 / 2) * (Real.sqrt ((3 : ℚ) : ℝ) * ((1 / 2 : ℚ) : ℝ)) = ∑' n : ℕ, clausen n := by
    push_cast
    rw [show Real.sqrt 3 * (1 / 2) = Real.sqrt 3 / 2 by ring, div_mul_cancel₀ _ (by positivity)]
  rw [e] at h
  exact nearest_of_btw h (by decide +kernel) (by decide +kernel)

/-- **C115**: `lightSpeed` is exactly the speed of light in metres per second. -/
theorem C115_lightSpeed : lightSpeed = 299792458 := by decide +kernel

/-- **C115**: `earthGravity` is the double nearest to standard gravity. -/
theorem C115_earthGravity : Nearest earthGravity ((9.80665 : ℚ) : ℝ) :=
  nearest_of_btw (Btw.rat _) rfl rfl

/-- `x` is a number of the format with all its digits. -/
def Normal (f : Fmt) (x : ℚ) : Prop := ∃ m e : Int, f.emin ≤ e ∧ 2 ^ (f.p - 1) ≤ |m| ∧ |m| < 2 ^ f.p ∧ x = m * (2 : ℚ) ^ e

/-- **C115**: `epsilon32` and `epsilon64`, "float minimum value", are the least positive numbers of their formats. -/
def C115MinimumClaim : Prop :=
  (∀ y, Ieee.Repr binary32 y → 0 < y → epsilon32 ≤ y) ∧ (∀ y, Ieee.Repr binary64 y → 0 < y → epsilon64 ≤ y)

/-- Subnormal numbers are smaller. -/
theorem C115_minimum_false : ¬ C115MinimumClaim := by
  intro h
  have := h.1 (1 / 2 ^ 149) ⟨1, -149, by decide, by decide, by norm_num⟩ (by norm_num)
  exact absurd this (by decide +kernel)

theorem normal_ge (f : Fmt) {y : ℚ} (h : Normal f y) (hy : 0 < y) : (2 : ℚ) ^ (f.p - 1) * (2 : ℚ) ^ f.emin ≤ y := by
  obtain ⟨m, e, he, hm, -, rfl⟩ := h
  have hm0 : (0 : ℚ) < m := by
    by_contra hc
    push Not at hc
    have := mul_nonpos_of_nonpos_of_nonneg hc (zpow_nonneg (by norm_num : (0 : ℚ) ≤ 2) e)
    linarith
  have hm0' : 0 < m := by exact_mod_cast hm0
  rw [abs_of_pos hm0'] at hm
  have hm' : (2 : ℚ) ^ (f.p - 1) ≤ m := by exact_mod_cast hm
  have he' : (2 : ℚ) ^ f.emin ≤ 2 ^ e := zpow_le_zpow_right₀ (by norm_num) he
  exact mul_le_mul hm' he' (zpow_nonneg (by norm_num) _) hm0.le

/-- **C115**: `epsilon32` and `epsilon64` are the least positive normal numbers of their formats. -/
theorem C115_minimum_partial :
    (Normal binary32 epsilon32 ∧ ∀ y, Normal binary32 y → 0 < y → epsilon32 ≤ y) ∧
    (Normal binary64 epsilon64 ∧ ∀ y, Normal binary64 y → 0 < y → epsilon64 ≤ y) := by
  have e32 : epsilon32 = (2 : ℚ) ^ (binary32.p - 1) * (2 : ℚ) ^ binary32.emin := by decide +kernel
  have e64 : epsilon64 = (2 : ℚ) ^ (binary64.p - 1) * (2 : ℚ) ^ binary64.emin := by decide +kernel
  refine ⟨⟨⟨2 ^ 23, -149, by decide, by decide, by decide, by rw [e32]; norm_cast⟩, fun y h hy => ?_⟩,
    ⟨⟨2 ^ 52, -1074, by decide, by decide, by decide, by rw [e64]; norm_cast⟩, fun y h hy => ?_⟩⟩
  · rw [e32]; exact normal_ge _ h hy
  · rw [e64]; exact normal_ge _ h hy

/-- 1 is normal. -/
example : Normal binary32 1 ∧ (0 : ℚ) < 1 := ⟨⟨2 ^ 23, -23, by decide, by decide, by decide, by norm_num⟩, by norm_num⟩

end Verif.Constants
