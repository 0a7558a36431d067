import Verif.Model.MpLog
import Verif.Props.Constants
import Mathlib.Analysis.SpecialFunctions.Log.Base

/-! Property theorems for logarithms to a base in multi-precision (C145). -/

namespace Verif.MpLog

open Verif.Ieee Verif.Constants

/-- C145: the logarithm of a power of the base is the exponent. -/
def C145Claim : Prop := ∀ (f : Fmt) (b k : ℕ), f.emin ≤ -100 → 2 ≤ b → 1 ≤ k → (b : ℝ) ^ k < 2 ^ f.p → logBase f ((b : ℝ) ^ k) b = k

theorem rneR_close (x : ℝ) : |(rneR x : ℝ) - x| ≤ 1 / 2 := by
  have h1 := Int.floor_le x
  have h2 := Int.lt_floor_add_one x
  unfold rneR
  split_ifs <;> rw [abs_le] <;> push_cast <;> constructor <;> linarith

theorem rneR_int (n : Int) : rneR n = n := by
  unfold rneR
  rw [Int.floor_intCast, if_pos (by norm_num)]

theorem rneR_near {x : ℝ} {n : Int} (h : |x - n| < 1 / 2) : rneR x = n := by
  have h1 := rneR_close x
  have h2 : |((rneR x - n : Int) : ℝ)| < 1 := by
    push_cast
    calc |(rneR x : ℝ) - n| ≤ |(rneR x : ℝ) - x| + |x - n| := abs_sub_le _ _ _
      _ < 1 := by linarith
  have h3 : |rneR x - n| < 1 := by exact_mod_cast h2
  have := abs_lt.1 h3
  omega

theorem logR_eq {x : ℝ} {k : Int} (h : (2 : ℝ) ^ k ≤ |x|) (h' : |x| < 2 ^ (k + 1)) : Int.log 2 |x| = k := by
  have hx : 0 < |x| := lt_of_lt_of_le (zpow_pos (by norm_num) _) h
  have h1 : k ≤ Int.log 2 |x| := (Int.zpow_le_iff_le_log (by decide) hx).1 (by exact_mod_cast h)
  have h2 : Int.log 2 |x| < k + 1 := (Int.lt_zpow_iff_log_lt (by decide) hx).1 (by exact_mod_cast h')
  omega

/-- The relative error of a rounding, where numbers are not too small. -/
theorem rndR_rel {f : Fmt} {x : ℝ} (h : (2 : ℝ) ^ (f.emin + f.p - 1) ≤ |x|) : |rndR f x - x| ≤ 2 ^ (-(f.p : Int)) * |x| := by
  have hx : 0 < |x| := lt_of_lt_of_le (zpow_pos (by norm_num) _) h
  have hl : f.emin + f.p - 1 ≤ Int.log 2 |x| := (Int.zpow_le_iff_le_log (by decide) hx).1 (by exact_mod_cast h)
  have hu : ulpR f x = Int.log 2 |x| - (f.p - 1) := max_eq_left (by omega)
  have hlog : (2 : ℝ) ^ Int.log 2 |x| ≤ |x| := by exact_mod_cast Int.zpow_log_le_self (R := ℝ) (b := 2) (by decide) hx
  have hp : (0 : ℝ) < 2 ^ ulpR f x := zpow_pos (by norm_num) _
  have e : rndR f x - x = (rneR (x / 2 ^ ulpR f x) - x / 2 ^ ulpR f x) * 2 ^ ulpR f x := by
    unfold rndR
    field_simp
  have e2 : (2 : ℝ) ^ ulpR f x = 2 * (2 ^ (-(f.p : Int)) * 2 ^ Int.log 2 |x|) := by
    rw [hu, ← zpow_add₀ (by norm_num), ← zpow_one_add₀ (by norm_num)]
    congr 1
    ring
  rw [e, abs_mul, abs_of_pos hp]
  calc _ ≤ 1 / 2 * (2 : ℝ) ^ ulpR f x := mul_le_mul_of_nonneg_right (rneR_close _) hp.le
    _ = 2 ^ (-(f.p : Int)) * 2 ^ Int.log 2 |x| := by rw [e2]; ring
    _ ≤ _ := mul_le_mul_of_nonneg_left hlog (zpow_pos (by norm_num) _).le

/-- Rounding commutes with powers of two. -/
theorem rndR_scale {f : Fmt} {x : ℝ} (j : ℕ) (h : (2 : ℝ) ^ (f.emin + f.p - 1) ≤ |x|) : rndR f (2 ^ j * x) = 2 ^ j * rndR f x := by
  have hx : 0 < |x| := lt_of_lt_of_le (zpow_pos (by norm_num) _) h
  have hl : f.emin + f.p - 1 ≤ Int.log 2 |x| := (Int.zpow_le_iff_le_log (by decide) hx).1 (by exact_mod_cast h)
  have hj : (0 : ℝ) < 2 ^ j := by positivity
  have hlog : Int.log 2 |2 ^ j * x| = Int.log 2 |x| + j := by
    have a1 : (2 : ℝ) ^ Int.log 2 |x| ≤ |x| := by exact_mod_cast Int.zpow_log_le_self (R := ℝ) (b := 2) (by decide) hx
    have a2 : |x| < (2 : ℝ) ^ (Int.log 2 |x| + 1) := by exact_mod_cast Int.lt_zpow_succ_log_self (R := ℝ) (b := 2) (by decide) |x|
    apply logR_eq
    · rw [abs_mul, abs_of_pos hj, zpow_add₀ (by norm_num), zpow_natCast, mul_comm]
      exact mul_le_mul_of_nonneg_left a1 hj.le
    · rw [abs_mul, abs_of_pos hj, add_right_comm, zpow_add₀ (by norm_num) _ (j : Int), zpow_natCast, mul_comm]
      exact mul_lt_mul_of_pos_right a2 hj
  have hu : ulpR f x = Int.log 2 |x| - (f.p - 1) := max_eq_left (by omega)
  have hu' : ulpR f (2 ^ j * x) = ulpR f x + j := by
    rw [hu]
    unfold ulpR
    rw [hlog, max_eq_left (by omega)]
    ring
  unfold rndR
  rw [hu', zpow_add₀ (by norm_num), zpow_natCast]
  have hp : (0 : ℝ) < 2 ^ ulpR f x := zpow_pos (by norm_num) _
  have e : 2 ^ j * x / (2 ^ ulpR f x * 2 ^ j) = x / 2 ^ ulpR f x := by field_simp
  rw [e]
  ring

/-- A number of the format nearer than half its last place. -/
theorem rndR_near (f : Fmt) (k : Int) (x : ℝ) (n : Int) (h1 : (2 : ℝ) ^ k ≤ |x|) (h2 : |x| < 2 ^ (k + 1)) (he : f.emin ≤ k - (f.p - 1))
    (h : |x / 2 ^ (k - ((f.p : Int) - 1)) - n| < 1 / 2) : rndR f x = n * 2 ^ (k - ((f.p : Int) - 1)) := by
  have hu : ulpR f x = k - (f.p - 1) := by
    unfold ulpR
    rw [logR_eq h1 h2, max_eq_left he]
  unfold rndR
  rw [hu, rneR_near h]

theorem rndR_one (f : Fmt) (he : f.emin + f.p - 1 ≤ 0) : rndR f 1 = 1 := by
  have h := rndR_near f 0 1 (2 ^ (f.p - 1)) (by norm_num) (by norm_num) (by omega) ?_
  · rw [h]
    have hp := f.hp
    push_cast
    rw [← zpow_natCast, ← zpow_add₀ (by norm_num), show ((f.p - 1 : ℕ) : Int) + (0 - ((f.p : Int) - 1)) = 0 by omega, zpow_zero]
  · have hp := f.hp
    push_cast
    rw [one_div, ← zpow_neg, ← zpow_natCast (2 : ℝ) (f.p - 1), show -(0 - ((f.p : Int) - 1)) = ((f.p - 1 : ℕ) : Int) by omega, sub_self, abs_zero]
    norm_num

/-- **C145**, accuracy: the relative error is at most four units of the precision, whatever the value and the base. -/
theorem C145_accuracy (f : Fmt) (hf : 3 ≤ f.p) (v b : ℝ) (hv : (2 : ℝ) ^ (f.emin + f.p - 1) ≤ |Real.log v|) (hb : (2 : ℝ) ^ (f.emin + f.p - 1) ≤ |Real.log b|)
    (hr : (2 : ℝ) ^ (f.emin + f.p) ≤ |Real.logb b v|) : |logBase f v b - Real.logb b v| ≤ 4 * 2 ^ (-(f.p : Int)) * |Real.logb b v| := by
  have e1 := rndR_rel hv
  have e2 := rndR_rel hb
  have hu0 : (0 : ℝ) < 2 ^ (-(f.p : Int)) := zpow_pos (by norm_num) _
  have hu : (2 : ℝ) ^ (-(f.p : Int)) ≤ 1 / 8 := by
    calc (2 : ℝ) ^ (-(f.p : Int)) ≤ 2 ^ (-3 : Int) := zpow_le_zpow_right₀ (by norm_num) (by omega)
      _ = 1 / 8 := by norm_num
  have hbp : 0 < |Real.log b| := lt_of_lt_of_le (zpow_pos (by norm_num) _) hb
  have hvp : 0 < |Real.log v| := lt_of_lt_of_le (zpow_pos (by norm_num) _) hv
  unfold logBase mpLog
  unfold Real.logb at hr ⊢
  generalize hudef : (2 : ℝ) ^ (-(f.p : Int)) = u at *
  generalize hV : Real.log v = V at *
  generalize hB : Real.log b = B at *
  generalize rndR f V = V' at *
  generalize rndR f B = B' at *
  have hB0 : B ≠ 0 := abs_pos.1 hbp
  have hB1 : (1 - u) * |B| ≤ |B'| := by
    have := abs_sub_abs_le_abs_sub B B'
    rw [abs_sub_comm] at this
    linarith
  have hV1 : (1 - u) * |V| ≤ |V'| := by
    have := abs_sub_abs_le_abs_sub V V'
    rw [abs_sub_comm] at this
    linarith
  have hB2 : |B'| ≤ (1 + u) * |B| := by
    have := abs_sub_abs_le_abs_sub B' B
    linarith
  have hBp' : 0 < |B'| := lt_of_lt_of_le (mul_pos (by linarith) hbp) hB1
  have hB0' : B' ≠ 0 := abs_pos.1 hBp'
  -- the quotient of the rounded logarithms
  have hq : |V' / B' - V / B| ≤ 2 * u / (1 - u) * |V / B| := by
    have e : V' / B' - V / B = ((V' - V) * B - V * (B' - B)) / (B' * B) := by field_simp; ring
    rw [e, abs_div, abs_mul B' B, div_le_iff₀ (mul_pos hBp' hbp), abs_div]
    calc |(V' - V) * B - V * (B' - B)| ≤ |(V' - V) * B| + |V * (B' - B)| := abs_sub _ _
      _ = |V' - V| * |B| + |V| * |B' - B| := by rw [abs_mul, abs_mul]
      _ ≤ u * |V| * |B| + |V| * (u * |B|) := by gcongr
      _ = 2 * u / (1 - u) * (|V| / |B|) * (((1 - u) * |B|) * |B|) := by
        have : (1 : ℝ) - u ≠ 0 := by linarith
        field_simp
        ring
      _ ≤ 2 * u / (1 - u) * (|V| / |B|) * (|B'| * |B|) := by
        have : 0 < 1 - u := by linarith
        gcongr
  have hqn : (2 : ℝ) ^ (f.emin + f.p - 1) ≤ |V' / B'| := by
    have h1 : (1 - u) / (1 + u) * |V / B| ≤ |V' / B'| := by
      rw [abs_div, abs_div, div_mul_div_comm, div_le_div_iff₀ (by positivity) hBp']
      calc (1 - u) * |V| * |B'| ≤ |V'| * ((1 + u) * |B|) := by
            apply mul_le_mul hV1 hB2 (abs_nonneg _) (abs_nonneg _)
        _ = _ := by ring
    have h2 : (1 : ℝ) / 2 ≤ (1 - u) / (1 + u) := by rw [div_le_div_iff₀ (by norm_num) (by linarith)]; linarith
    have h3 : (2 : ℝ) ^ (f.emin + f.p) = 2 ^ (f.emin + f.p - 1) * 2 := by rw [← zpow_add_one₀ (by norm_num)]; congr 1; ring
    rw [h3] at hr
    have h4 := abs_nonneg (V / B)
    nlinarith
  have e3 := rndR_rel hqn
  rw [hudef] at e3
  have hge : |V' / B'| ≤ (1 + 2 * u / (1 - u)) * |V / B| := by
    have := abs_sub_abs_le_abs_sub (V' / B') (V / B)
    linarith
  generalize rndR f (V' / B') = r at *
  generalize V' / B' = q at *
  generalize V / B = l at *
  have h1u : 0 < 1 - u := by linarith
  have hc : u * (1 + 2 * u / (1 - u)) + 2 * u / (1 - u) ≤ 4 * u := by
    have e : u * (1 + 2 * u / (1 - u)) + 2 * u / (1 - u) = u * (3 + u) / (1 - u) := by field_simp; ring
    rw [e, div_le_iff₀ h1u]
    nlinarith
  calc |r - l| ≤ |r - q| + |q - l| := abs_sub_le _ _ _
    _ ≤ u * ((1 + 2 * u / (1 - u)) * |l|) + 2 * u / (1 - u) * |l| := add_le_add (e3.trans (mul_le_mul_of_nonneg_left hge hu0.le)) hq
    _ = (u * (1 + 2 * u / (1 - u)) + 2 * u / (1 - u)) * |l| := by ring
    _ ≤ 4 * u * |l| := mul_le_mul_of_nonneg_right hc (abs_nonneg _)

/-- **C145**, whole exponents: the nearest whole number to the result is the exponent. -/
theorem C145_nearest (f : Fmt) (hf : 3 ≤ f.p) (he : f.emin + f.p ≤ 0) (b : ℝ) (k : ℕ) (hk : 1 ≤ k) (hk' : k < 2 ^ (f.p - 3))
    (hb : (2 : ℝ) ^ (f.emin + f.p - 1) ≤ |Real.log b|) : round (logBase f (b ^ k) b) = k := by
  have hbp : 0 < |Real.log b| := lt_of_lt_of_le (zpow_pos (by norm_num) _) hb
  have hB0 : Real.log b ≠ 0 := abs_pos.1 hbp
  have hk1 : (1 : ℝ) ≤ k := by exact_mod_cast hk
  have hl : Real.logb b (b ^ k) = k := by
    unfold Real.logb
    rw [Real.log_pow]
    field_simp
  have h := C145_accuracy f hf (b ^ k) b ?_ hb ?_
  · rw [hl, abs_of_nonneg (by positivity : (0 : ℝ) ≤ k)] at h
    have h2 : 4 * (2 : ℝ) ^ (-(f.p : Int)) * k < 1 / 2 := by
      have h3 : (k : ℝ) < 2 ^ (f.p - 3) := by exact_mod_cast hk'
      have h4 : (2 : ℝ) ^ (-(f.p : Int)) * 2 ^ (f.p - 3) = 1 / 8 := by
        rw [← zpow_natCast, ← zpow_add₀ (by norm_num), show -(f.p : Int) + ((f.p - 3 : ℕ) : Int) = -3 by omega]
        norm_num
      have h5 : (0 : ℝ) < 2 ^ (-(f.p : Int)) := zpow_pos (by norm_num) _
      nlinarith
    have h6 := abs_lt.1 (lt_of_le_of_lt h h2)
    rw [round_eq, Int.floor_eq_iff]
    push_cast
    constructor <;> linarith
  · rw [Real.log_pow, abs_mul, abs_of_nonneg (by positivity : (0 : ℝ) ≤ k)]
    nlinarith
  · rw [hl, abs_of_nonneg (by positivity : (0 : ℝ) ≤ k)]
    refine le_trans ?_ hk1
    exact zpow_le_one_of_nonpos₀ (by norm_num) he

/-- **C145** (partial): exponents that are powers of two are exact. -/
theorem C145_partial (f : Fmt) (hf : 3 ≤ f.p) (he : f.emin + f.p ≤ 0) (b : ℝ) (j : ℕ) (hb : (2 : ℝ) ^ (f.emin + f.p - 1) ≤ |Real.log b|) :
    logBase f (b ^ 2 ^ j) b = 2 ^ j := by
  have hbp : 0 < |Real.log b| := lt_of_lt_of_le (zpow_pos (by norm_num) _) hb
  have e2 := rndR_rel hb
  have hu : (2 : ℝ) ^ (-(f.p : Int)) ≤ 1 / 8 := by
    calc (2 : ℝ) ^ (-(f.p : Int)) ≤ 2 ^ (-3 : Int) := zpow_le_zpow_right₀ (by norm_num) (by omega)
      _ = 1 / 8 := by norm_num
  have h0 : rndR f (Real.log b) ≠ 0 := by
    intro h
    rw [h, zero_sub, abs_neg] at e2
    nlinarith
  unfold logBase mpLog
  rw [Real.log_pow, Nat.cast_pow, Nat.cast_ofNat, rndR_scale j hb, mul_div_assoc, div_self h0, rndR_scale j, rndR_one f (by omega), mul_one]
  rw [abs_one]
  exact zpow_le_one_of_nonpos₀ (by norm_num) (by omega)

theorem btw_log10 : Btw 2.30258509299404568399 2.30258509299404568405 (Real.log 10) := by
  have h := (btw_log2.add btw_log5).widen (c := 2.30258509299404568399) (d := 2.30258509299404568405) (by decide +kernel) (by decide +kernel)
  rwa [← Real.log_mul (by norm_num) (by norm_num), show (2 : ℝ) * 5 = 10 by norm_num] at h

/-- **C145 is false**: with 53 bits the logarithm of 1000 to base 10 is less than 3. -/
theorem C145_thousand (emin : Int) (he : emin ≤ -51) : logBase ⟨53, emin, by decide⟩ (10 ^ 3) 10 = 3 - 1 / 2 ^ 51 := by
  obtain ⟨h1, h2⟩ := btw_log10
  push_cast at h1 h2
  have e10 : mpLog ⟨53, emin, by decide⟩ 10 = 5184960683398422 / 2 ^ 51 := by
    unfold mpLog
    have h0 : |Real.log 10| = Real.log 10 := abs_of_pos (by linarith)
    rw [rndR_near _ 1 (Real.log 10) 5184960683398422 (by rw [h0]; norm_num; linarith) (by rw [h0]; norm_num; linarith) (by simp only; omega) ?_]
    · norm_num
    · simp only [Nat.cast_ofNat]
      rw [abs_lt]
      norm_num
      constructor <;> linarith
  have e1000 : mpLog ⟨53, emin, by decide⟩ (10 ^ 3) = 7777441025097632 / 2 ^ 50 := by
    unfold mpLog
    rw [Real.log_pow]
    push_cast
    have h0 : |3 * Real.log 10| = 3 * Real.log 10 := abs_of_pos (by linarith)
    rw [rndR_near _ 2 (3 * Real.log 10) 7777441025097632 (by rw [h0]; norm_num; linarith) (by rw [h0]; norm_num; linarith) (by simp only; omega) ?_]
    · norm_num
    · simp only [Nat.cast_ofNat]
      rw [abs_lt]
      norm_num
      constructor <;> linarith
  unfold logBase
  rw [e10, e1000]
  rw [rndR_near _ 1 _ 6755399441055743 (by rw [abs_of_pos (by norm_num)]; norm_num) (by rw [abs_of_pos (by norm_num)]; norm_num) (by simp only; omega) ?_]
  · norm_num
  · simp only [Nat.cast_ofNat]
    rw [abs_lt]
    norm_num

theorem C145_false : ¬ C145Claim := by
  intro h
  have h1 := h ⟨53, -100, by decide⟩ 10 3 (by decide) (by decide) (by decide) (by norm_num)
  have h2 := C145_thousand (-100) (by decide)
  push_cast at h1
  rw [h2] at h1
  norm_num at h1

example : (2 : ℝ) ^ ((-100 : Int) + (53 : ℕ) - 1) ≤ |Real.log 2| := by
  obtain ⟨h1, h2⟩ := btw_log2
  push_cast at h1
  rw [abs_of_pos (by linarith)]
  refine le_trans ?_ h1
  norm_num

end Verif.MpLog
