import Verif.Model.IntSqrt
import Verif.Lemmas.Num
import Verif.Lemmas.IeeeRel
import Mathlib.Tactic.Linarith
import Mathlib.Tactic.Ring
import Mathlib.Tactic.NormNum
import Mathlib.Tactic.FieldSimp
import Mathlib.Tactic.Positivity
import Mathlib.Data.Nat.Sqrt

/-! Lemmas on the square root of integers computed in `double`. -/

namespace Verif.IntSqrt

open Verif.Ieee Verif.Num

/-- The rounded root in units `1/T`, over the natural numbers. -/
def rootNat (m T : Nat) : Nat := if m * T ^ 2 ≤ Nat.sqrt (m * T ^ 2) ^ 2 + Nat.sqrt (m * T ^ 2) then Nat.sqrt (m * T ^ 2) else Nat.sqrt (m * T ^ 2) + 1

/-- The whole part of the rounded root is the integer root exactly if the next square is far enough away. -/
theorem rootNat_div {m T : Nat} (hT : 0 < T) :
    rootNat m T / T = if Nat.sqrt m + 1 ≤ ((Nat.sqrt m + 1) ^ 2 - m) * T then Nat.sqrt m else Nat.sqrt m + 1 := by
  have k1 : Nat.sqrt m ^ 2 ≤ m := by rw [pow_two]; exact Nat.sqrt_le m
  have k2 : m < (Nat.sqrt m + 1) ^ 2 := by rw [pow_two]; exact Nat.lt_succ_sqrt m
  generalize hk : Nat.sqrt m = k at *
  obtain ⟨d, hd⟩ : ∃ d, (k + 1) ^ 2 = m + d := ⟨(k + 1) ^ 2 - m, by omega⟩
  have hd' : (k + 1) ^ 2 - m = d := by omega
  rw [hd']
  have hdp : 0 < d := by omega
  set n := Nat.sqrt (m * T ^ 2) with hn
  have n1 : n ^ 2 ≤ m * T ^ 2 := Nat.sqrt_le' _
  have n2 : m * T ^ 2 < (n + 1) ^ 2 := Nat.lt_succ_sqrt' _
  have lo : k * T ≤ n := by
    rw [hn, Nat.le_sqrt']
    calc (k * T) ^ 2 = k ^ 2 * T ^ 2 := by ring
      _ ≤ m * T ^ 2 := Nat.mul_le_mul_right _ k1
  have up : n < (k + 1) * T := by
    rw [hn, Nat.sqrt_lt']
    calc m * T ^ 2 < (k + 1) ^ 2 * T ^ 2 := Nat.mul_lt_mul_of_pos_right k2 (by positivity)
      _ = ((k + 1) * T) ^ 2 := by ring
  have key : (m * T ^ 2 + d * T ^ 2) = ((k + 1) * T) ^ 2 := by rw [← Nat.add_mul, ← hd]; ring
  have div_k : ∀ x, k * T ≤ x → x < (k + 1) * T → x / T = k := by
    intro x h1 h2
    exact Nat.div_eq_of_lt_le h1 h2
  unfold rootNat
  rw [← hn]
  split_ifs with h1 h2 h2
  · exact div_k n lo up
  · exfalso
    have h2' : d * T < k + 1 := by omega
    have h3 : d * T ^ 2 < (k + 1) * T := by
      calc d * T ^ 2 = (d * T) * T := by ring
        _ < (k + 1) * T := Nat.mul_lt_mul_of_pos_right h2' hT
    generalize (k + 1) * T = A at *
    -- m T² > A² - A ≥ (A-1)², so n ≥ A - 1
    have h4 : A - 1 ≤ n := by
      rw [hn, Nat.le_sqrt']
      obtain ⟨B, rfl⟩ : ∃ B, A = B + 1 := ⟨A - 1, by omega⟩
      simp only [Nat.add_sub_cancel]
      nlinarith
    have h5 : n = A - 1 := by omega
    obtain ⟨B, rfl⟩ : ∃ B, A = B + 1 := ⟨A - 1, by omega⟩
    simp only [Nat.add_sub_cancel] at h5
    rw [h5] at h1
    nlinarith
  · by_cases h3 : n + 1 < (k + 1) * T
    · exact div_k (n + 1) (by omega) h3
    · exfalso
      have h4 : (k + 1) * T = n + 1 := by omega
      rw [h4] at key
      have h5 : (k + 1) * T ≤ d * T * T := Nat.mul_le_mul_right _ h2
      rw [h4] at h5
      nlinarith
  · have h2' : d * T < k + 1 := by omega
    have h3 : d * T ^ 2 < (k + 1) * T := by
      calc d * T ^ 2 = (d * T) * T := by ring
        _ < (k + 1) * T := Nat.mul_lt_mul_of_pos_right h2' hT
    have h4 : n + 1 = (k + 1) * T := by
      generalize (k + 1) * T = A at *
      have h4 : A - 1 ≤ n := by
        rw [hn, Nat.le_sqrt']
        obtain ⟨B, rfl⟩ : ∃ B, A = B + 1 := ⟨A - 1, by omega⟩
        simp only [Nat.add_sub_cancel]
        nlinarith
      omega
    rw [h4, Nat.mul_div_cancel _ hT]

/-- The number of units per 1 in the root of `m`. -/
def units (m : Nat) : Nat := 2 ^ (52 - Nat.log 2 m / 2)

theorem rootExp_nat {m : Nat} (hm : m < 2 ^ 105) : rootExp (m : ℚ) = -((52 - Nat.log 2 m / 2 : Nat) : Int) := by
  have hl : Nat.log 2 m ≤ 104 := by
    by_cases h0 : m = 0
    · simp [h0]
    · have : Nat.log 2 m < 105 := Nat.log_lt_of_lt_pow h0 hm
      omega
  have : Int.log 2 (m : ℚ) = (Nat.log 2 m : Int) := by
    have := Int.log_natCast (R := ℚ) 2 m
    exact this
  unfold rootExp
  rw [this]
  omega

theorem sqrtRnd_nat {m : Nat} (h0 : 0 < m) (hm : m < 2 ^ 105) : sqrtRnd (m : ℚ) = (rootNat m (units m) : ℚ) / units m := by
  have he := rootExp_nat hm
  generalize ht : 52 - Nat.log 2 m / 2 = t at he
  have hu : units m = 2 ^ t := by unfold units; rw [ht]
  have hq : (m : ℚ) / (4 : ℚ) ^ rootExp (m : ℚ) = ((m * (2 ^ t) ^ 2 : Nat) : ℚ) := by
    rw [he, zpow_neg, div_inv_eq_mul, zpow_natCast]
    push_cast
    congr 1
    rw [← pow_mul, mul_comm, pow_mul]
    norm_num
  have hf : rootFloor (m : ℚ) = Nat.sqrt (m * (2 ^ t) ^ 2) := by
    unfold rootFloor
    rw [hq, Int.floor_natCast, Int.toNat_natCast]
  have h2 : (2 : ℚ) ^ rootExp (m : ℚ) = 1 / ((2 ^ t : Nat) : ℚ) := by
    rw [he, zpow_neg, zpow_natCast]
    push_cast
    rw [one_div]
  unfold sqrtRnd
  have hm0 : ((m : ℚ)) ≠ 0 := by exact_mod_cast h0.ne'
  rw [if_neg hm0, hq, hf, h2, hu]
  unfold rootNat
  have hiff : ((m * (2 ^ t) ^ 2 : Nat) : ℚ) < ((Nat.sqrt (m * (2 ^ t) ^ 2) : ℚ) + 1 / 2) ^ 2 ↔
      m * (2 ^ t) ^ 2 ≤ Nat.sqrt (m * (2 ^ t) ^ 2) ^ 2 + Nat.sqrt (m * (2 ^ t) ^ 2) := by
    generalize m * (2 ^ t) ^ 2 = q
    generalize Nat.sqrt q = n
    constructor
    · intro h
      have h' : (q : ℚ) < ((n ^ 2 + n + 1 : Nat) : ℚ) := by
        push_cast
        nlinarith
      have := Nat.cast_lt.mp h'
      omega
    · intro h
      have h' : (q : ℚ) ≤ ((n ^ 2 + n : Nat) : ℚ) := by exact_mod_cast h
      push_cast at h'
      nlinarith
  by_cases hc : m * (2 ^ t) ^ 2 ≤ Nat.sqrt (m * (2 ^ t) ^ 2) ^ 2 + Nat.sqrt (m * (2 ^ t) ^ 2)
  · rw [if_pos (hiff.mpr hc), if_pos hc, mul_one_div]
  · rw [if_neg (fun h => hc (hiff.mp h)), if_neg hc, mul_one_div]
    push_cast
    rfl

theorem floor_sqrtRnd {m : Nat} (h0 : 0 < m) (hm : m < 2 ^ 105) :
    ⌊sqrtRnd (m : ℚ)⌋ = ((if Nat.sqrt m + 1 ≤ ((Nat.sqrt m + 1) ^ 2 - m) * units m then Nat.sqrt m else Nat.sqrt m + 1 : Nat) : Int) := by
  rw [← rootNat_div (m := m) (T := units m) (by unfold units; positivity), sqrtRnd_nat h0 hm]
  exact Rat.floor_natCast_div_natCast _ _

/-- The conversion to `double` of a number too large to be exact. -/
theorem rnd_nat {m : Nat} (hm : 2 ^ 53 ≤ m) :
    ∃ m' : Nat, rnd binary64 (m : ℚ) = m' ∧ 2 ^ Nat.log 2 m ≤ m' ∧ m' ≤ m + 2 ^ (Nat.log 2 m - 53) ∧
      m ≤ m' + 2 ^ (Nat.log 2 m - 53) := by
  have hm0 : m ≠ 0 := by omega
  have hL : 53 ≤ Nat.log 2 m := Nat.le_log_of_pow_le (by decide) hm
  have hlog : Int.log 2 (m : ℚ) = (Nat.log 2 m : Int) := Int.log_natCast (R := ℚ) 2 m
  have hmp : (0 : ℚ) < m := by exact_mod_cast Nat.pos_of_ne_zero hm0
  have he : ulpExp binary64 (m : ℚ) = ((Nat.log 2 m - 52 : Nat) : Int) := by
    rw [ulpExp_of_pos hmp, hlog]
    show max ((Nat.log 2 m : Int) - ((53 : Nat) - 1)) (-1074) = _
    omega
  have hc := rnd_close binary64 (m : ℚ)
  rw [he] at hc
  have hr : rnd binary64 (m : ℚ) = ((rne ((m : ℚ) / (2 : ℚ) ^ ulpExp binary64 (m : ℚ)) * 2 ^ (Nat.log 2 m - 52) : Int) : ℚ) := by
    unfold rnd
    rw [he]
    push_cast
    rw [zpow_natCast]
  have hlow : (2 : ℚ) ^ (Nat.log 2 m) ≤ rnd binary64 (m : ℚ) := by
    have : (2 : ℚ) ^ ((Nat.log 2 m : Nat) : Int) ≤ rnd binary64 (m : ℚ) := by
      refine two_zpow_le_rnd ?_ ?_
      · rw [zpow_natCast]
        exact_mod_cast Nat.pow_log_le_self 2 hm0
      · rw [he]; omega
    rwa [zpow_natCast] at this
  generalize rne ((m : ℚ) / (2 : ℚ) ^ ulpExp binary64 (m : ℚ)) * 2 ^ (Nat.log 2 m - 52) = r at hr
  rw [hr] at hlow hc ⊢
  have hr0 : 0 ≤ r := by
    have : (0 : ℚ) ≤ (r : ℚ) := le_trans (by positivity) hlow
    exact_mod_cast this
  obtain ⟨m', rfl⟩ := Int.eq_ofNat_of_zero_le hr0
  have hp : (2 : ℚ) ^ ((Nat.log 2 m - 52 : Nat) : Int) / 2 = ((2 ^ (Nat.log 2 m - 53) : Nat) : ℚ) := by
    rw [zpow_natCast, show Nat.log 2 m - 52 = (Nat.log 2 m - 53) + 1 by omega, pow_succ]
    push_cast
    ring
  rw [hp, abs_le] at hc
  obtain ⟨c1, c2⟩ := hc
  push_cast at c1 c2 hlow
  refine ⟨m', by push_cast; rfl, ?_, ?_, ?_⟩
  · exact_mod_cast hlow
  · have : (m' : ℚ) ≤ ((m + 2 ^ (Nat.log 2 m - 53) : Nat) : ℚ) := by push_cast; linarith
    exact_mod_cast this
  · have : (m : ℚ) ≤ ((m' + 2 ^ (Nat.log 2 m - 53) : Nat) : ℚ) := by push_cast; linarith
    exact_mod_cast this

/-- `double` of a nonnegative integer of at most 64 bits. -/
theorem stdSqrt_ofInt {m : Nat} (h0 : 0 < m) (hm : m < 2 ^ 64) :
    ∃ m' : Nat, rnd binary64 (m : ℚ) = m' ∧ 0 < m' ∧ m' < 2 ^ 105 ∧ stdSqrt (ofInt .dbl m) = .fin false (sqrtRnd (m' : ℚ)) := by
  have key : ∀ m' : Nat, rnd binary64 (m : ℚ) = m' → 0 < m' → m' < 2 ^ 105 →
      stdSqrt (ofInt .dbl m) = .fin false (sqrtRnd (m' : ℚ)) := by
    intro m' e hp hl
    have hd : decide ((m : Int) < 0) = false := by simp
    have hlt : ¬ (2 : ℚ) ^ (FTy.dbl.emax) ≤ (m' : ℚ) := by
      rw [not_le]
      calc (m' : ℚ) < ((2 ^ 105 : Nat) : ℚ) := by exact_mod_cast hl
        _ = (2 : ℚ) ^ 105 := by push_cast; rfl
        _ ≤ (2 : ℚ) ^ FTy.dbl.emax := pow_le_pow_right₀ (by norm_num) (by decide)
    have habs : |((m : Int) : ℚ)| = (m : ℚ) := by
      rw [Int.cast_natCast]
      exact abs_of_nonneg (by positivity)
    unfold ofInt toFp
    rw [hd, habs, show FTy.dbl.fmt = binary64 from rfl, e, if_neg hlt]
    have : (m' : ℚ) ≠ 0 := by exact_mod_cast hp.ne'
    simp only [stdSqrt, this, if_false]
    rfl
  by_cases h : m < 2 ^ 53
  · have e : rnd binary64 (m : ℚ) = m := by
      have := rnd_of_repr (f := binary64) (repr_int (f := binary64) (n := (m : Int)) (by decide) (by
        rw [abs_of_nonneg (by omega)]
        show (m : Int) ≤ 2 ^ 53
        omega))
      rwa [Int.cast_natCast] at this
    exact ⟨m, e, h0, by omega, key m e h0 (by omega)⟩
  · obtain ⟨m', e, l1, l2, l3⟩ := rnd_nat (m := m) (by omega)
    have hlog : Nat.log 2 m < 64 := Nat.log_lt_of_lt_pow (by omega) hm
    have hp : 2 ^ (Nat.log 2 m - 53) ≤ 2 ^ 10 := Nat.pow_le_pow_right (by decide) (by omega)
    have hp0 : 0 < 2 ^ Nat.log 2 m := Nat.pow_pos (by decide)
    have hpos : 0 < m' := by omega
    have hlt : m' < 2 ^ 105 := by omega
    exact ⟨m', e, hpos, hlt, key m' e hpos hlt⟩

end Verif.IntSqrt
