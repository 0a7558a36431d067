import Verif.Lemmas.IntSqrt
import Mathlib.Analysis.SpecialFunctions.Sqrt

/-! The model of `std::sqrt` is correctly rounded. -/

namespace Verif.IntSqrt

open Verif.Ieee Verif.Num

/-- The root in units of the last place lies between 2^52 and 2^53. -/
theorem root_range {m : ℚ} (h : 0 < m) :
    (2 : ℚ) ^ (104 : Nat) ≤ m / (4 : ℚ) ^ rootExp m ∧ m / (4 : ℚ) ^ rootExp m < (2 : ℚ) ^ (106 : Nat) := by
  have l1 := log_le_self h
  have l2 := lt_log m
  set L := Int.log 2 m with hL
  have h4 : (4 : ℚ) ^ rootExp m = (2 : ℚ) ^ (2 * rootExp m) := by
    rw [two_mul, zpow_add₀ (by norm_num), ← mul_zpow]
    norm_num
  have he : rootExp m = L / 2 - 52 := by rw [hL]; rfl
  have hp : (0 : ℚ) < (2 : ℚ) ^ (2 * rootExp m) := two_zpow_pos _
  rw [h4, le_div_iff₀ hp, div_lt_iff₀ hp]
  constructor
  · calc (2 : ℚ) ^ (104 : Nat) * (2 : ℚ) ^ (2 * rootExp m) = (2 : ℚ) ^ ((104 : Int) + 2 * rootExp m) := by
          rw [zpow_add₀ (by norm_num)]; norm_cast
      _ ≤ (2 : ℚ) ^ L := zpow_le_zpow.mpr (by omega)
      _ ≤ m := l1
  · calc m < (2 : ℚ) ^ (L + 1) := l2
      _ ≤ (2 : ℚ) ^ ((106 : Int) + 2 * rootExp m) := zpow_le_zpow.mpr (by omega)
      _ = (2 : ℚ) ^ (106 : Nat) * (2 : ℚ) ^ (2 * rootExp m) := by
          rw [zpow_add₀ (by norm_num)]; norm_cast

/-- `rootFloor` is the root rounded down. -/
theorem rootFloor_spec {m : ℚ} (h : 0 < m) :
    (rootFloor m : ℚ) ^ 2 ≤ m / (4 : ℚ) ^ rootExp m ∧ m / (4 : ℚ) ^ rootExp m < ((rootFloor m : ℚ) + 1) ^ 2 ∧
      2 ^ 52 ≤ rootFloor m ∧ rootFloor m < 2 ^ 53 := by
  obtain ⟨r1, r2⟩ := root_range h
  unfold rootFloor
  generalize m / (4 : ℚ) ^ rootExp m = q at *
  have hq : (0 : ℚ) ≤ q := le_trans (by positivity) r1
  obtain ⟨a, ha⟩ := Int.eq_ofNat_of_zero_le (Int.floor_nonneg.mpr hq)
  have f1 : (a : ℚ) ≤ q := by have := Int.floor_le q; rw [ha] at this; exact_mod_cast this
  have f2 : q < a + 1 := by have := Int.lt_floor_add_one q; rw [ha] at this; exact_mod_cast this
  rw [ha, Int.toNat_natCast]
  have s1 : Nat.sqrt a ^ 2 ≤ a := Nat.sqrt_le' a
  have s2 : a + 1 ≤ (Nat.sqrt a + 1) ^ 2 := Nat.lt_succ_sqrt' a
  refine ⟨le_trans (by exact_mod_cast s1) f1, lt_of_lt_of_le f2 (by exact_mod_cast s2), ?_, ?_⟩
  · rw [Nat.le_sqrt']
    have : (2 : ℚ) ^ (104 : Nat) < ((a + 1 : Nat) : ℚ) := by push_cast; linarith
    have : 2 ^ 104 < a + 1 := by exact_mod_cast this
    omega
  · rw [Nat.sqrt_lt']
    have : (a : ℚ) < (2 : ℚ) ^ (106 : Nat) := by linarith
    have : a < 2 ^ 106 := by exact_mod_cast this
    omega

/-- The model of `std::sqrt` gives a number of the format that is nearest to the real square root. -/
theorem sqrtRnd_nearest {m : ℚ} (h : 0 < m) (hs : (-1074 : Int) ≤ rootExp m) :
    Repr binary64 (sqrtRnd m) ∧ ∀ r : ℚ, Repr binary64 r → |(sqrtRnd m : ℝ) - Real.sqrt m| ≤ |(r : ℝ) - Real.sqrt m| := by
  obtain ⟨n1, n2, n3, n4⟩ := rootFloor_spec h
  set n := rootFloor m with hn
  set e := rootExp m with he
  have hu : (0 : ℚ) < (2 : ℚ) ^ e := two_zpow_pos e
  have huR : (0 : ℝ) < (2 : ℝ) ^ e := zpow_pos (by norm_num) e
  have h4 : (4 : ℚ) ^ e = ((2 : ℚ) ^ e) ^ 2 := by
    rw [pow_two, ← mul_zpow]; norm_num
  -- the root in units
  set x : ℝ := Real.sqrt m / (2 : ℝ) ^ e with hx
  have hx2 : x ^ 2 = ((m / (4 : ℚ) ^ e : ℚ) : ℝ) := by
    rw [hx, div_pow, Real.sq_sqrt (by exact_mod_cast h.le), h4]
    push_cast
    rfl
  have hx0 : 0 ≤ x := by positivity
  have hroot : Real.sqrt m = x * (2 : ℝ) ^ e := by rw [hx]; field_simp
  have x1 : (n : ℝ) ≤ x := by
    have : ((n : ℚ) ^ 2 : ℚ) ≤ m / (4 : ℚ) ^ e := n1
    have h' : (n : ℝ) ^ 2 ≤ x ^ 2 := by rw [hx2]; exact_mod_cast this
    exact le_of_sq_le_sq h' hx0
  have x2 : x < (n : ℝ) + 1 := by
    have h' : x ^ 2 < ((n : ℝ) + 1) ^ 2 := by rw [hx2]; exact_mod_cast n2
    exact lt_of_pow_lt_pow_left₀ 2 (by positivity) h'
  -- the rounded number of units
  have hcase : ∃ k : Nat, sqrtRnd m = k * (2 : ℚ) ^ e ∧ k ≤ 2 ^ 53 ∧ |(k : ℝ) - x| ≤ 1 / 2 ∧ (k = n ∨ k = n + 1) := by
    unfold sqrtRnd
    rw [if_neg h.ne', ← hn, ← he]
    split_ifs with hc
    · refine ⟨n, rfl, by omega, ?_, Or.inl rfl⟩
      have h' : x ^ 2 < ((n : ℝ) + 1 / 2) ^ 2 := by
        rw [hx2]
        have := (Rat.cast_lt (K := ℝ)).mpr hc
        push_cast at this ⊢
        exact this
      have := lt_of_pow_lt_pow_left₀ 2 (by positivity) h'
      rw [abs_le]; constructor <;> linarith
    · refine ⟨n + 1, by push_cast; rfl, by omega, ?_, Or.inr rfl⟩
      have h' : ((n : ℝ) + 1 / 2) ^ 2 ≤ x ^ 2 := by
        rw [hx2]
        have := (Rat.cast_le (K := ℝ)).mpr (not_lt.mp hc)
        push_cast at this ⊢
        exact this
      have := le_of_sq_le_sq h' hx0
      push_cast
      rw [abs_le]; constructor <;> linarith
  obtain ⟨k, hk, hk53, hkx, hkn⟩ := hcase
  refine ⟨?_, ?_⟩
  · rw [hk]
    rcases Nat.lt_or_ge k (2 ^ 53) with hlt | hge
    · exact ⟨k, e, hs, by
        show |(k : Int)| < 2 ^ 53
        rw [abs_of_nonneg (by omega)]
        exact_mod_cast hlt, by push_cast; rfl⟩
    · have : k = 2 ^ 53 := by omega
      subst this
      refine ⟨1, e + 53, by show (-1074 : Int) ≤ e + 53; omega, by decide, ?_⟩
      rw [zpow_add₀ (by norm_num)]
      push_cast
      norm_num [mul_comm]
  · intro r hr
    -- the distance in units
    have hs' : ((sqrtRnd m : ℚ) : ℝ) - Real.sqrt m = ((k : ℝ) - x) * (2 : ℝ) ^ e := by
      rw [hk, hroot]
      push_cast
      ring
    rw [hs', abs_mul, abs_of_pos huR]
    set y : ℝ := (r : ℝ) / (2 : ℝ) ^ e with hy
    have hry : (r : ℝ) = y * (2 : ℝ) ^ e := by rw [hy]; field_simp
    rw [hry, hroot, ← sub_mul, abs_mul, abs_of_pos huR]
    refine mul_le_mul_of_nonneg_right ?_ huR.le
    by_cases hsmall : r < (2 : ℚ) ^ (52 : Nat) * (2 : ℚ) ^ e
    · -- below the binade of the root
      have hy52 : y ≤ (2 : ℝ) ^ (52 : Nat) := by
        rw [hy, div_le_iff₀ huR]
        have : r ≤ (2 : ℚ) ^ (52 : Nat) * (2 : ℚ) ^ e := hsmall.le
        have := (Rat.cast_le (K := ℝ)).mpr this
        push_cast at this ⊢
        exact this
      have hn52 : (2 : ℝ) ^ (52 : Nat) ≤ (n : ℝ) := by exact_mod_cast n3
      rw [abs_le] at hkx
      have : |y - x| = x - y := by rw [abs_sub_comm]; exact abs_of_nonneg (by linarith)
      rw [this]
      rcases hkn with rfl | rfl
      · rw [abs_of_nonpos (by linarith)]
        linarith
      · push_cast at hkx ⊢
        rw [abs_of_nonneg (by linarith)]
        linarith [hkx.1, hkx.2]
    · -- a multiple of the unit
      obtain ⟨M, E, hE, hM, rfl⟩ := hr
      have hEe : e ≤ E := by
        by_contra hlt
        have hlt' : E + 1 ≤ e := by omega
        apply hsmall
        have hM' : (M : ℚ) < (2 : ℚ) ^ (53 : Nat) := by
          have : M < 2 ^ 53 := lt_of_le_of_lt (le_abs_self M) hM
          exact_mod_cast this
        calc (M : ℚ) * (2 : ℚ) ^ E < (2 : ℚ) ^ (53 : Nat) * (2 : ℚ) ^ E := mul_lt_mul_of_pos_right hM' (two_zpow_pos E)
          _ = (2 : ℚ) ^ (52 : Nat) * (2 : ℚ) ^ (E + 1) := by rw [zpow_add₀ (by norm_num)]; ring
          _ ≤ (2 : ℚ) ^ (52 : Nat) * (2 : ℚ) ^ e := mul_le_mul_of_nonneg_left (zpow_le_zpow.mpr hlt') (by positivity)
      obtain ⟨N, hN⟩ : ∃ N : Int, y = N := by
        obtain ⟨P, hP⟩ := zpow_int (e := E - e) (by omega)
        refine ⟨M * P, ?_⟩
        have hPR : (2 : ℝ) ^ (E - e) = P := by
          have := congrArg (fun q : ℚ => (q : ℝ)) hP
          push_cast at this
          exact this
        rw [hy]
        push_cast
        rw [mul_div_assoc, ← zpow_sub₀ (by norm_num), hPR]
      rw [hN]
      by_cases hNn : N ≤ n
      · have hNn' : (N : ℝ) ≤ n := by exact_mod_cast hNn
        have : |(N : ℝ) - x| = x - N := by rw [abs_sub_comm]; exact abs_of_nonneg (by linarith)
        rw [this]
        rcases hkn with rfl | rfl
        · rw [abs_sub_comm, abs_of_nonneg (by linarith)]
          linarith
        · push_cast at hkx ⊢
          rw [abs_le] at hkx
          rw [abs_of_nonneg (by linarith)]
          linarith [hkx.1, hkx.2]
      · have hNn' : (n : ℝ) + 1 ≤ N := by
          have : (n : Int) + 1 ≤ N := by omega
          exact_mod_cast this
        have : |(N : ℝ) - x| = N - x := abs_of_nonneg (by linarith)
        rw [this]
        rw [abs_le] at hkx
        rcases hkn with rfl | rfl
        · rw [abs_sub_comm, abs_of_nonneg (by linarith)]
          linarith [hkx.1, hkx.2]
        · push_cast
          rw [abs_of_nonneg (by linarith)]
          linarith

theorem sq_bound (b : Nat) (hb : 27 ≤ b) {a : Nat} (h : 2 * (2 ^ b) ^ 2 < a ^ 2) : 2 ^ (52 - b) + 2 ^ b < a := by
  have h1 : 2 ^ (52 - b) ≤ 2 ^ 25 := Nat.pow_le_pow_right (by decide) (by omega)
  have h2 : 2 ^ 27 ≤ 2 ^ b := Nat.pow_le_pow_right (by decide) hb
  generalize 2 ^ b = x at *
  generalize 2 ^ (52 - b) = y at *
  by_contra hc
  have h3 : a ≤ y + x := by omega
  have h4 : 4 * y ≤ x := by omega
  nlinarith

theorem sq_bound' (b : Nat) (hb : 27 ≤ b) {a : Nat} (h : (2 ^ b) ^ 2 < a ^ 2) : 2 ^ (52 - b) + 2 ^ (b - 1) < a := by
  have h1 : 2 ^ (52 - b) ≤ 2 ^ 25 := Nat.pow_le_pow_right (by decide) (by omega)
  have h2 : 2 ^ 26 ≤ 2 ^ (b - 1) := Nat.pow_le_pow_right (by decide) (by omega)
  have h3 : 2 ^ b = 2 * 2 ^ (b - 1) := by rw [← pow_succ']; congr 1; omega
  have h4 : 2 ^ b < a := lt_of_pow_lt_pow_left₀ 2 (by omega) h
  omega

end Verif.IntSqrt
