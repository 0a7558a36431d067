import Verif.Model.MpConv
import Verif.Lemmas.Ieee
import Verif.Lemmas.IeeeRel
import Verif.Lemmas.ErrFree
import Mathlib.Tactic.Linarith
import Mathlib.Tactic.FieldSimp
import Mathlib.Tactic.Positivity
import Mathlib.Tactic.Ring
import Mathlib.Tactic.NormNum

/-! Lemmas for the conversions between multi-precision types. -/

namespace Verif.MpConv

open Verif.Ieee

theorem short_zero (b : Nat) : Short b 0 := ⟨0, 0, by simp, by simp⟩

theorem short_int {b : Nat} {z : Int} (h : |z| < 2 ^ b) : Short b z := ⟨z, 0, h, by simp⟩

theorem short_mono {b c : Nat} {x : ℚ} (hbc : b ≤ c) (h : Short b x) : Short c x := by
  obtain ⟨m, e, hm, rfl⟩ := h
  exact ⟨m, e, lt_of_lt_of_le hm (pow_le_pow_right₀ (by norm_num) hbc), rfl⟩

theorem store_zero (g : Gmp) : g.store 0 = 0 := g.store_exact 0 (short_zero _)

theorem ten_pos (d : Nat) : (0 : ℚ) < 10 ^ d := by positivity

/-- The text is within half a unit of its last decimal. -/
theorem strMpfr_close (prec : Nat) (x : ℚ) (digits : Int) :
    |strMpfr prec x digits - x| ≤ 1 / (2 * 10 ^ decimals prec digits) := by
  have h := rne_close (x * 10 ^ decimals prec digits)
  have hp := ten_pos (decimals prec digits)
  have e : strMpfr prec x digits - x = (rne (x * 10 ^ decimals prec digits) - x * 10 ^ decimals prec digits) / 10 ^ decimals prec digits := by
    unfold strMpfr; field_simp
  rw [e, abs_div, abs_of_pos hp, div_le_div_iff₀ hp (by positivity)]
  nlinarith

/-- Numbers with no more decimals than the text has are printed exactly. -/
theorem strMpfr_exact (prec : Nat) (digits : Int) (n : Int) :
    strMpfr prec (n / 10 ^ decimals prec digits) digits = n / 10 ^ decimals prec digits := by
  unfold strMpfr
  rw [div_mul_cancel₀ _ (ten_pos _).ne', rne_int]

theorem strMpfr_int (prec : Nat) (digits : Int) (z : Int) : strMpfr prec z digits = z := by
  have h := strMpfr_exact prec digits (z * 10 ^ decimals prec digits)
  push_cast at h
  rwa [mul_div_cancel_right₀ _ (ten_pos _).ne'] at h

theorem strMpfr_small (prec : Nat) (x : ℚ) (digits : Int) (h : |x| < 1 / (2 * 10 ^ decimals prec digits)) :
    strMpfr prec x digits = 0 := by
  have hp := ten_pos (decimals prec digits)
  rw [lt_div_iff₀ (by positivity)] at h
  have h0 : |x * 10 ^ decimals prec digits| < 1 / 2 := by rw [abs_mul, abs_of_pos hp]; linarith
  rw [abs_lt] at h0
  have : rne (x * 10 ^ decimals prec digits) = 0 := by
    rcases le_total 0 (x * 10 ^ decimals prec digits) with hx | hx
    · exact rne_eq_of_lt_half (by simpa using hx) (by push_cast; linarith)
    · exact rne_eq_of_half_lt (by push_cast; linarith) (by simpa using hx)
  simp [strMpfr, this]

/-- A number of `k` bits at least `2 ^ k` is an even integer. -/
theorem short_even {k : Nat} {v : ℚ} (h : Short k v) (hv : (2 : ℚ) ^ k ≤ v) : ∃ n : Int, v = (2 * n : Int) := by
  obtain ⟨m, e, hm, rfl⟩ := h
  rcases le_or_gt 1 e with h1 | h1
  · obtain ⟨n, rfl⟩ := Int.eq_ofNat_of_zero_le (by omega : 0 ≤ e)
    obtain ⟨j, rfl⟩ := Nat.exists_eq_succ_of_ne_zero (by omega : n ≠ 0)
    refine ⟨m * 2 ^ j, ?_⟩
    push_cast
    have : (2 : ℚ) ^ ((j : Int) + 1) = 2 ^ j * 2 := by rw [zpow_add_one₀ (by norm_num), zpow_natCast]
    rw [this]
    ring
  · exfalso
    have h2 : (2 : ℚ) ^ e ≤ 1 := zpow_le_one_of_nonpos₀ (by norm_num) (by omega)
    have h3 : (m : ℚ) < 2 ^ k := by
      have := lt_of_le_of_lt (le_abs_self m) hm
      exact_mod_cast this
    have h4 : (0 : ℚ) < 2 ^ e := zpow_pos (by norm_num) _
    have h5 : (0 : ℚ) < 2 ^ k := by positivity
    rcases le_total (m : ℚ) 0 with hm0 | hm0
    · nlinarith
    · nlinarith

theorem trunc_int (z : Int) : trunc z = z := by
  unfold trunc; split <;> simp

/-- A format that holds the integer `2 ^ k + 1` exactly. -/
theorem repr_wide (f : Fmt) (k : Nat) (hk : k + 1 < f.p) (he : f.emin ≤ 0) : Repr f ((2 : ℚ) ^ k + 1) := by
  refine ⟨2 ^ k + 1, 0, he, ?_, by push_cast; simp⟩
  rw [abs_of_pos (by positivity)]
  have h1 : (2 : Int) ^ (k + 2) ≤ 2 ^ f.p := pow_le_pow_right₀ (by norm_num) (by omega)
  have h2 : (1 : Int) ≤ 2 ^ k := one_le_pow₀ (by norm_num)
  rw [pow_add] at h1
  omega

/-- Rounding to `d` significant digits in base `b` -/
def roundDigits (b d : Nat) (x : ℚ) : ℚ :=
  rne (x / (b : ℚ) ^ (Int.log b |x| - (d - 1))) * (b : ℚ) ^ (Int.log b |x| - ((d : Int) - 1))

theorem roundDigits_exact {b d : Nat} (hb : 1 < b) {x : ℚ} {m e : Int} (hm : |m| < (b : Int) ^ d) (hx : x = m * (b : ℚ) ^ e) :
    roundDigits b d x = x := by
  have hb0 : (0 : ℚ) < b := by exact_mod_cast (by omega : 0 < b)
  by_cases h0 : x = 0
  · rw [h0]; unfold roundDigits; rw [zero_div]; simpa using Or.inl (rne_int 0)
  have hlog : Int.log b |x| - ((d : Int) - 1) ≤ e := by
    have h1 : |x| < (b : ℚ) ^ ((d : Int) + e) := by
      rw [hx, abs_mul, abs_of_pos (zpow_pos hb0 e), zpow_add₀ hb0.ne', zpow_natCast]
      have : (|m| : ℚ) < (b : ℚ) ^ d := by exact_mod_cast hm
      exact mul_lt_mul_of_pos_right this (zpow_pos hb0 e)
    have := (Int.lt_zpow_iff_log_lt hb (abs_pos.2 h0)).1 h1
    omega
  obtain ⟨j, hj⟩ := Int.eq_ofNat_of_zero_le (sub_nonneg.2 hlog)
  have hq : x / (b : ℚ) ^ (Int.log b |x| - ((d : Int) - 1)) = ((m * b ^ j : Int) : ℚ) := by
    rw [div_eq_iff (zpow_pos hb0 _).ne']
    push_cast
    rw [mul_assoc, ← zpow_natCast, ← zpow_add₀ hb0.ne']
    rw [← hj, sub_add_cancel]
    exact hx
  unfold roundDigits
  rw [hq, rne_int, ← hq, div_mul_cancel₀ _ (zpow_pos hb0 _).ne']

theorem roundDigits_close {b d : Nat} (hb : 1 < b) (x : ℚ) : |roundDigits b d x - x| ≤ (b : ℚ) ^ (1 - (d : Int)) * |x| := by
  have hb0 : (0 : ℚ) < b := by exact_mod_cast (by omega : 0 < b)
  by_cases h0 : x = 0
  · subst h0
    have : roundDigits b d 0 = 0 := roundDigits_exact (m := 0) (e := 0) hb (by simp; positivity) (by simp)
    rw [this]; simp
  have hp := zpow_pos hb0 (Int.log b |x| - ((d : Int) - 1))
  have e : roundDigits b d x - x = (rne (x / (b : ℚ) ^ (Int.log b |x| - ((d : Int) - 1))) - x / (b : ℚ) ^ (Int.log b |x| - ((d : Int) - 1)))
      * (b : ℚ) ^ (Int.log b |x| - ((d : Int) - 1)) := by
    rw [sub_mul, div_mul_cancel₀ _ hp.ne']; rfl
  rw [e, abs_mul, abs_of_pos hp]
  have h1 := rne_close (x / (b : ℚ) ^ (Int.log b |x| - ((d : Int) - 1)))
  have h2 : (b : ℚ) ^ (Int.log b |x| - ((d : Int) - 1)) = (b : ℚ) ^ (1 - (d : Int)) * (b : ℚ) ^ Int.log b |x| := by
    rw [← zpow_add₀ hb0.ne']; congr 1; ring
  have h3 := Int.zpow_log_le_self hb (abs_pos.2 h0)
  have h4 := zpow_pos hb0 (1 - (d : Int))
  calc _ ≤ 1 * (b : ℚ) ^ (Int.log b |x| - ((d : Int) - 1)) := mul_le_mul_of_nonneg_right (by linarith) hp.le
    _ = (b : ℚ) ^ (1 - (d : Int)) * (b : ℚ) ^ Int.log b |x| := by rw [one_mul, h2]
    _ ≤ _ := mul_le_mul_of_nonneg_left h3 h4.le

theorem roundDigits_short (d : Nat) (x : ℚ) : Short (d + 1) (roundDigits 2 d x) := by
  by_cases h0 : x = 0
  · subst h0
    have : roundDigits 2 d 0 = 0 := roundDigits_exact (m := 0) (e := 0) (by norm_num) (by simp) (by simp)
    rw [this]; exact short_zero _
  refine ⟨rne (x / ((2 : Nat) : ℚ) ^ (Int.log 2 |x| - ((d : Int) - 1))), _, ?_, by unfold roundDigits; push_cast; rfl⟩
  have hp : (0 : ℚ) < ((2 : Nat) : ℚ) ^ (Int.log 2 |x| - ((d : Int) - 1)) := zpow_pos (by norm_num) _
  have h1 : |x / ((2 : Nat) : ℚ) ^ (Int.log 2 |x| - ((d : Int) - 1))| ≤ 2 ^ d := by
    rw [abs_div, abs_of_pos hp, div_le_iff₀ hp]
    have := (Int.lt_zpow_succ_log_self (b := 2) (by norm_num) |x|).le
    refine this.trans (le_of_eq ?_)
    push_cast
    rw [← zpow_natCast, ← zpow_add₀ (by norm_num)]
    congr 1; ring
  rw [abs_le] at h1
  have h2 : rne (x / ((2 : Nat) : ℚ) ^ (Int.log 2 |x| - ((d : Int) - 1))) ≤ 2 ^ d := rne_le_int (by push_cast; exact_mod_cast h1.2)
  have h3 : -(2 ^ d) ≤ rne (x / ((2 : Nat) : ℚ) ^ (Int.log 2 |x| - ((d : Int) - 1))) := by
    have := rne_mono (x := ((-(2 ^ d) : Int) : ℚ)) (by push_cast; exact_mod_cast h1.1)
    rwa [rne_int] at this
  have h4 : (0 : Int) < 2 ^ d := by positivity
  rw [abs_lt, pow_succ]
  omega

/-- An `mpf` that meets the assumptions: `b` bits, `d` decimal digits -/
def gmp (b d : Nat) (hb : 2 ≤ b) (hd : 1 ≤ d) : Gmp where
  bits := b
  limit := b + 1
  digits := d
  hbits := hb
  hdigits := hd
  store := roundDigits 2 b
  store_exact := fun x ⟨_, _, hm, hx⟩ => roundDigits_exact (by norm_num) (by exact_mod_cast hm) (by exact_mod_cast hx)
  store_short := roundDigits_short b
  store_close := fun x => by exact_mod_cast roundDigits_close (b := 2) (d := b) (by norm_num) x
  text := roundDigits 10 d
  text_exact := fun x ⟨_, _, hm, hx⟩ => roundDigits_exact (by norm_num) (by exact_mod_cast hm) (by exact_mod_cast hx)
  text_close := fun x => by exact_mod_cast roundDigits_close (b := 10) (d := d) (by norm_num) x

end Verif.MpConv
