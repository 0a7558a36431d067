import Verif.Lemmas.Ieee

/-!
# Rounding to nearest even: relative error
-/

namespace Verif.Ieee

variable {f : Fmt} {x : ℚ}

/-- Half a unit in the last place. -/
theorem rnd_close (f : Fmt) (x : ℚ) : |rnd f x - x| ≤ 2 ^ (ulpExp f x) / 2 := by
  have h := rne_close (x / (2 : ℚ) ^ ulpExp f x)
  have hp := two_zpow_pos (ulpExp f x)
  have e : rnd f x - x = ((rne (x / (2 : ℚ) ^ ulpExp f x) : ℚ) - x / 2 ^ ulpExp f x) * 2 ^ ulpExp f x := by
    unfold rnd
    field_simp
  rw [e, abs_mul, abs_of_pos hp]
  calc _ ≤ 1 / 2 * (2 : ℚ) ^ ulpExp f x := mul_le_mul_of_nonneg_right h hp.le
    _ = _ := by ring

/-- In the normal range the relative error is at most `2 ^ -p`. -/
theorem rnd_rel (hx : (2 : ℚ) ^ (f.emin + f.p - 1) ≤ |x|) : |rnd f x - x| ≤ 2 ^ (-(f.p : Int)) * |x| := by
  have hpos : 0 < |x| := lt_of_lt_of_le (two_zpow_pos _) hx
  have h1 := rnd_close f x
  have hl : f.emin + f.p - 1 ≤ Int.log 2 |x| := by
    by_contra hc
    have h2 := lt_log |x|
    have h3 : (2 : ℚ) ^ (Int.log 2 |x| + 1) ≤ 2 ^ (f.emin + f.p - 1) := zpow_le_zpow.mpr (by omega)
    linarith
  have hE : ulpExp f x = Int.log 2 |x| - (f.p - 1) := max_eq_left (by omega)
  have h4 := log_le_self hpos
  rw [hE] at h1
  have e : (2 : ℚ) ^ (Int.log 2 |x| - (f.p - 1) : Int) / 2 = 2 ^ (-(f.p : Int)) * 2 ^ Int.log 2 |x| := by
    rw [zpow_mul]
    have : (2 : ℚ) = 2 ^ (1 : Int) := by norm_num
    conv_lhs => rw [show (2 : ℚ) ^ (Int.log 2 |x| - (f.p - 1) : Int) / 2 = 2 ^ (Int.log 2 |x| - (f.p - 1) : Int) / 2 ^ (1 : Int) by norm_num]
    rw [zpow_div]
    congr 1
    ring
  rw [e] at h1
  exact le_trans h1 (mul_le_mul_of_nonneg_left h4 (two_zpow_pos _).le)

end Verif.Ieee
