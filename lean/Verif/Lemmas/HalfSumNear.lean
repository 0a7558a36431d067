import Mathlib.Data.Nat.Cast.Field
import Verif.Lemmas.HalfSum

/-! # The sum of two finite halves is a nearest half -/

namespace Verif.HalfM

open HalfS

theorem finish_small {ea c e : Nat} (h0 : ea ≠ 0) (h1 : 2 ^ 13 ≤ c) (h2 : c < 2 ^ 14) :
    finish ea c e = e * 2 ^ 10 + ((c + 4) / 8 - 2 ^ 10) := by
  unfold finish
  rw [if_neg (by omega), if_neg (by omega)]
  simp only [h0, false_and, if_false]
  split <;> omega

theorem finish_big {ea c e : Nat} (h0 : ea ≠ 0) (h1 : 2 ^ 14 ≤ c) (h2 : c < 2 ^ 15) :
    finish ea c e = (e + 1) * 2 ^ 10 + ((c + 8) / 16 - 2 ^ 10) := by
  unfold finish
  rw [if_pos h1, if_pos h1]
  simp only [h0, false_and, if_false]
  split <;> omega

theorem finish_zero {c : Nat} (h1 : c % 8 = 0) (h2 : c < 2 ^ 14) : finish 0 c 0 = c / 8 := by
  unfold finish
  rw [if_neg (by omega), if_neg (by omega)]
  simp only [true_and]
  split <;> split <;> omega

theorem finish_low {ea c : Nat} (h0 : ea ≠ 0) (h1 : c % 8 = 0) (h2 : c < 2 ^ 13) : finish ea c 0 = c / 8 := by
  unfold finish
  rw [if_neg (by omega), if_neg (by omega)]
  simp only [h0, false_and, if_false]
  split <;> omega

/-- A normal result, rounded within half a place. -/
theorem assemble (s E V : Nat) (z : ℚ) (hs : s < 2) (hE : 1 ≤ E) (hV : 2 ^ 10 ≤ V) (hV' : V ≤ 2 ^ 11)
    (hz : |(V : ℚ) - z| ≤ 1 / 2) (hz0 : 2 ^ 10 ≤ z) (hq : z * (2 : ℚ) ^ ((E : Int) - 25) < 65520) :
    s * 2 ^ 15 + (E * 2 ^ 10 + (V - 2 ^ 10)) < 2 ^ 16 ∧
    NearestHalf (s * 2 ^ 15 + (E * 2 ^ 10 + (V - 2 ^ 10))) (signed s (z * (2 : ℚ) ^ ((E : Int) - 25))) := by
  have hU : (0 : ℚ) < (2 : ℚ) ^ ((E : Int) - 25) := by positivity
  have hlt : E * 2 ^ 10 + (V - 2 ^ 10) < 31 * 2 ^ 10 := by
    by_contra hc
    by_cases h31 : 31 ≤ E
    · have h1 : (2 : ℚ) ^ (6 : Int) ≤ (2 : ℚ) ^ ((E : Int) - 25) := zpow_le_zpow_right₀ (by norm_num) (by omega)
      have h2 := mul_le_mul hz0 h1 (by positivity) (by linarith)
      norm_num at h2
      linarith
    · have h30 : E = 30 := by omega
      have hV2 : V = 2 ^ 11 := by omega
      subst h30 hV2
      have := (abs_le.1 hz).2
      norm_num at this hq
      linarith
  refine ⟨lt_of_lt_of_le (Nat.add_lt_add_of_le_of_lt (Nat.mul_le_mul_right _ (Nat.le_of_lt_succ hs)) hlt) (by norm_num), ?_⟩
  apply nearest_signed _ s E V _ hE (by positivity) hq
  · exact toRat_of_units s E V hs hE hV hV' hlt
  · rw [← sub_mul, abs_mul, abs_of_pos hU, mul_comm, ← mul_one_div ((2 : ℚ) ^ ((E : Int) - 25)) 2]
    exact mul_le_mul_of_nonneg_left hz hU.le
  · right
    rw [show (E : Int) - 15 = 10 + ((E : Int) - 25) by ring, zpow_add₀ (by norm_num)]
    exact mul_le_mul_of_nonneg_right (by norm_num at hz0 ⊢; exact hz0) hU.le

/-- An exact result with exponent field at most 1. -/
theorem assemble_low (s V : Nat) (hs : s < 2) (hV : V < 2 ^ 11) :
    s * 2 ^ 15 + V < 2 ^ 16 ∧ NearestHalf (s * 2 ^ 15 + V) (signed s ((V : ℚ) * (2 : ℚ) ^ ((1 : Int) - 25))) := by
  refine ⟨by omega, ?_⟩
  have hVq : (V : ℚ) < 2 ^ 11 := by exact_mod_cast hV
  apply nearest_signed _ s 1 V _ le_rfl (by positivity)
  · calc (V : ℚ) * (2 : ℚ) ^ ((1 : Int) - 25) ≤ 2 ^ 11 * 1 := by
          apply mul_le_mul hVq.le _ (by positivity) (by positivity)
          exact zpow_le_one_of_nonpos₀ (by norm_num) (by norm_num)
      _ < 65520 := by norm_num
  · by_cases h : V < 2 ^ 10
    · rw [toRat_sub s V hs h]; norm_num
    · have := toRat_of_units s 1 V hs le_rfl (by omega) (by omega) (by omega)
      rw [show s * 2 ^ 15 + (1 * 2 ^ 10 + (V - 2 ^ 10)) = s * 2 ^ 15 + V by omega] at this
      exact this
  · push_cast
    rw [sub_self, abs_zero]; positivity
  · exact Or.inl rfl

theorem assemble_zero : NearestHalf 0 0 := by
  have := (assemble_low 0 0 (by norm_num) (by norm_num)).2
  simpa [signed] using this

/-- Magnitude by the significand. -/
theorem mag_sig (e m : Nat) : mag e m = (sig e m : ℚ) * (2 : ℚ) ^ (((max e 1 : ℕ) : Int) - 25) := by
  unfold mag sig
  by_cases h : e = 0
  · subst h; norm_num
  · rw [if_neg h, if_neg h, show max e 1 = e by omega]

/-! ## Rounding the jammed sum -/

/-- The operands in units of an eighth of the last place of the larger. -/
theorem jam_bounds (b k : Nat) (lo hi : Nat) : (2 * lo ≤ jam b k → ((2 * lo : ℕ) : ℚ) ≤ (b : ℚ) / 2 ^ k) ∧
    (jam b k ≤ 2 * hi → (b : ℚ) / 2 ^ k ≤ ((2 * hi : ℕ) : ℚ)) := by
  have h0 : (0 : ℚ) < 2 ^ k := by positivity
  constructor
  · intro h
    rw [le_div_iff₀ h0]
    exact_mod_cast (jam_ge b k lo).1 h
  · intro h
    rw [div_le_iff₀ h0]
    exact_mod_cast (jam_le b k hi).1 h

theorem jam_exact {b k : Nat} (h : b % 2 ^ k = 0) : (jam b k : ℚ) = (b : ℚ) / 2 ^ k := by
  rw [jam_eq, if_pos h, eq_div_iff (by positivity)]
  have := Nat.div_mul_cancel (Nat.dvd_of_mod_eq_zero h)
  exact_mod_cast this

/-- Rounding `A + jam` to multiples of `8` is rounding the exact sum. -/
theorem sum_round8 {A b k : Nat} (hA : A % 8 = 0) :
    |(((A + jam b k + 4) / 8 : ℕ) : ℚ) - ((A : ℚ) + (b : ℚ) / 2 ^ k) / 8| ≤ 1 / 2 := by
  set V := (A + jam b k + 4) / 8 with hV
  have h1 : 8 * V ≤ A + jam b k + 4 := by omega
  have h2 : A + jam b k < 8 * V + 4 := by omega
  obtain ⟨a, rfl⟩ : ∃ a, A = 8 * a := ⟨A / 8, by omega⟩
  have y1 : (8 * V : ℚ) ≤ 8 * a + 4 + (b : ℚ) / 2 ^ k := by
    by_cases h : 8 * V ≤ 8 * a + 4
    · have : ((8 * V : ℕ) : ℚ) ≤ ((8 * a + 4 : ℕ) : ℚ) := Nat.cast_le.2 h
      push_cast at this
      have : (0 : ℚ) ≤ (b : ℚ) / 2 ^ k := by positivity
      linarith
    · have := (jam_bounds b k (4 * V - (4 * a + 2)) 0).1 (by omega)
      push_cast [show 4 * a + 2 ≤ 4 * V by omega] at this
      linarith
  have y2 : 8 * a + (b : ℚ) / 2 ^ k ≤ 8 * V + 4 := by
    have := (jam_bounds b k 0 (4 * V + 2 - 4 * a)).2 (by omega)
    push_cast [show 4 * a ≤ 4 * V + 2 by omega] at this
    linarith
  push_cast
  rw [abs_le]
  constructor <;> linarith

theorem sum_round16 {A b k : Nat} (hA : A % 8 = 0) :
    |(((A + jam b k + 8) / 16 : ℕ) : ℚ) - ((A : ℚ) + (b : ℚ) / 2 ^ k) / 16| ≤ 1 / 2 := by
  set V := (A + jam b k + 8) / 16 with hV
  obtain ⟨a, rfl⟩ : ∃ a, A = 8 * a := ⟨A / 8, by omega⟩
  have y1 : (16 * V : ℚ) ≤ 8 * a + 8 + (b : ℚ) / 2 ^ k := by
    by_cases h : 16 * V ≤ 8 * a + 8
    · have : ((16 * V : ℕ) : ℚ) ≤ ((8 * a + 8 : ℕ) : ℚ) := Nat.cast_le.2 h
      push_cast at this
      have : (0 : ℚ) ≤ (b : ℚ) / 2 ^ k := by positivity
      linarith
    · have := (jam_bounds b k (8 * V - (4 * a + 4)) 0).1 (by omega)
      push_cast [show 4 * a + 4 ≤ 8 * V by omega] at this
      linarith
  have y2 : 8 * a + (b : ℚ) / 2 ^ k ≤ 16 * V + 8 := by
    have := (jam_bounds b k 0 (8 * V + 4 - 4 * a)).2 (by omega)
    push_cast [show 4 * a ≤ 8 * V + 4 by omega] at this
    linarith
  push_cast
  rw [abs_le]
  constructor <;> linarith

/-- The same for `A - jam` shifted left by `n - 1`, for `n` at most 2. -/
theorem diff_round {A b k n : Nat} (hA : A % 8 = 0) (hlt : jam b k < A) (hn : n = 1 ∨ n = 2) :
    |((((A - jam b k) * 2 ^ n + 8) / 16 : ℕ) : ℚ) - ((A : ℚ) - (b : ℚ) / 2 ^ k) * 2 ^ n / 16| ≤ 1 / 2 := by
  obtain ⟨a, rfl⟩ : ∃ a, A = 8 * a := ⟨A / 8, by omega⟩
  set V := ((8 * a - jam b k) * 2 ^ n + 8) / 16 with hV
  rcases hn with rfl | rfl
  · have y1 : (8 * V : ℚ) ≤ 8 * a + 4 - (b : ℚ) / 2 ^ k := by
      have := (jam_bounds b k 0 (4 * a + 2 - 4 * V)).2 (by omega)
      push_cast [show 4 * V ≤ 4 * a + 2 by omega] at this
      linarith
    have y2 : 8 * a - (b : ℚ) / 2 ^ k ≤ 8 * V + 4 := by
      by_cases h : 8 * a ≤ 8 * V + 4
      · have : ((8 * a : ℕ) : ℚ) ≤ ((8 * V + 4 : ℕ) : ℚ) := Nat.cast_le.2 h
        push_cast at this
        have : (0 : ℚ) ≤ (b : ℚ) / 2 ^ k := by positivity
        linarith
      · have := (jam_bounds b k (4 * a - (4 * V + 2)) 0).1 (by omega)
        push_cast [show 4 * V + 2 ≤ 4 * a by omega] at this
        linarith
    push_cast
    rw [abs_le]
    constructor <;> linarith
  · have y1 : (4 * V : ℚ) ≤ 8 * a + 2 - (b : ℚ) / 2 ^ k := by
      have := (jam_bounds b k 0 (4 * a + 1 - 2 * V)).2 (by omega)
      push_cast [show 2 * V ≤ 4 * a + 1 by omega] at this
      linarith
    have y2 : 8 * a - (b : ℚ) / 2 ^ k ≤ 4 * V + 2 := by
      by_cases h : 8 * a ≤ 4 * V + 2
      · have : ((8 * a : ℕ) : ℚ) ≤ ((4 * V + 2 : ℕ) : ℚ) := Nat.cast_le.2 h
        push_cast at this
        have : (0 : ℚ) ≤ (b : ℚ) / 2 ^ k := by positivity
        linarith
      · have := (jam_bounds b k (4 * a - (2 * V + 1)) 0).1 (by omega)
        push_cast [show 2 * V + 1 ≤ 4 * a by omega] at this
        linarith
    push_cast
    rw [abs_le]
    constructor <;> linarith

/-- The same without lost bits, for any shift. -/
theorem exact_round (D n : Nat) : |(((D * 2 ^ n + 8) / 16 : ℕ) : ℚ) - (D : ℚ) * 2 ^ n / 16| ≤ 1 / 2 := by
  set V := (D * 2 ^ n + 8) / 16 with hV
  have h1 : 16 * V ≤ D * 2 ^ n + 8 := by omega
  have h2 : D * 2 ^ n ≤ 16 * V + 8 := by omega
  have h1 : ((16 * V : ℕ) : ℚ) ≤ ((D * 2 ^ n + 8 : ℕ) : ℚ) := Nat.cast_le.2 h1
  have h2 : ((D * 2 ^ n : ℕ) : ℚ) ≤ ((16 * V + 8 : ℕ) : ℚ) := Nat.cast_le.2 h2
  push_cast at h1 h2
  rw [abs_le]
  constructor <;> linarith


/-! ## Differences -/

/-- A difference that lost no bits. -/
theorem diff_exact (s e D : Nat) (hs : s < 2) (hD0 : D ≠ 0) (hD : D < 2 ^ 14)
    (h8 : e = 0 → D % 8 = 0) (hlow : e ≠ 0 → e < nsh D → D * 2 ^ (e - 1) % 8 = 0)
    (hq : (D : ℚ) / 8 * (2 : ℚ) ^ (((max e 1 : ℕ) : Int) - 25) < 65520) :
    s * 2 ^ 15 + diffEm e D < 2 ^ 16 ∧
    NearestHalf (s * 2 ^ 15 + diffEm e D) (signed s ((D : ℚ) / 8 * (2 : ℚ) ^ (((max e 1 : ℕ) : Int) - 25))) := by
  unfold diffEm
  by_cases h0 : e = 0
  · subst h0
    rw [if_pos rfl, finish_zero (h8 rfl) hD]
    have hq' : (D : ℚ) / 8 = ((D / 8 : ℕ) : ℚ) := by
      rw [Nat.cast_div (Nat.dvd_of_mod_eq_zero (h8 rfl)) (by norm_num)]; norm_num
    rw [hq']
    have := assemble_low s (D / 8) hs (by omega)
    simpa using this
  · obtain ⟨n1, n2, n3, n4⟩ := nsh_spec hD0 hD
    rw [if_neg h0, show max e 1 = e by omega] at *
    by_cases hlt : e < nsh D
    · rw [if_pos hlt]
      have hm := hlow h0 hlt
      have h2 : 2 ^ (e - 1) * 2 ^ 2 ≤ 2 ^ nsh D := by
        rw [← pow_add]; exact Nat.pow_le_pow_right (by norm_num) (by omega)
      have h3 : D * (2 ^ (e - 1) * 2 ^ 2) ≤ D * 2 ^ nsh D := Nat.mul_le_mul_left _ h2
      rw [← Nat.mul_assoc] at h3
      have h4 : D * 2 ^ (e - 1) < 2 ^ 13 := by omega
      rw [Nat.mod_eq_of_lt (by omega), finish_low h0 hm h4]
      have hq' : (D : ℚ) / 8 * (2 : ℚ) ^ ((e : Int) - 25) =
          ((D * 2 ^ (e - 1) / 8 : ℕ) : ℚ) * (2 : ℚ) ^ ((1 : Int) - 25) := by
        rw [Nat.cast_div (Nat.dvd_of_mod_eq_zero hm) (by norm_num)]
        push_cast
        rw [show (e : Int) - 25 = ((e - 1 : ℕ) : Int) + ((1 : Int) - 25) by push_cast [show 1 ≤ e by omega]; ring,
          zpow_add₀ (by norm_num), zpow_natCast]
        ring
      rw [hq']
      exact assemble_low s _ hs (by omega)
    · rw [if_neg hlt, Nat.mod_eq_of_lt (by omega), finish_big h0 n3 n4]
      have hq' : (D : ℚ) / 8 * (2 : ℚ) ^ ((e : Int) - 25) =
          ((D : ℚ) * 2 ^ nsh D / 16) * (2 : ℚ) ^ (((e - nsh D + 1 : ℕ) : Int) - 25) := by
        rw [show (e : Int) - 25 = ((nsh D : ℕ) : Int) + ((((e - nsh D + 1 : ℕ) : Int) - 25) + (-1)) by
          push_cast [show nsh D ≤ e by omega]; ring,
          zpow_add₀ (by norm_num), zpow_add₀ (by norm_num), zpow_natCast]
        norm_num
        ring
      rw [hq'] at hq ⊢
      refine assemble s (e - nsh D + 1) ((D * 2 ^ nsh D + 8) / 16) _ hs (by omega) (by omega) (by omega)
        (exact_round D (nsh D)) ?_ hq
      have : ((2 ^ 14 : ℕ) : ℚ) ≤ ((D * 2 ^ nsh D : ℕ) : ℚ) := Nat.cast_le.2 n3
      push_cast at this
      linarith

/-- A difference with lost bits: then the first operand is so much larger that at most one leading place is lost. -/
theorem diff_jammed (s e A b k : Nat) (hs : s < 2) (he0 : 2 ≤ e) (hA8 : A % 8 = 0) (hA : 2 ^ 13 ≤ A) (hA' : A < 2 ^ 14)
    (hb : b < 2 ^ 14) (hk : 2 ≤ k) (hq : ((A : ℚ) - (b : ℚ) / 2 ^ k) / 8 * (2 : ℚ) ^ ((e : Int) - 25) < 65520) :
    jam b k < A ∧ s * 2 ^ 15 + diffEm e (A - jam b k) < 2 ^ 16 ∧
    NearestHalf (s * 2 ^ 15 + diffEm e (A - jam b k))
      (signed s (((A : ℚ) - (b : ℚ) / 2 ^ k) / 8 * (2 : ℚ) ^ ((e : Int) - 25))) := by
  have hj : jam b k ≤ 2 * 2 ^ 11 := by
    rw [jam_le]
    have : 2 ^ 2 ≤ 2 ^ k := Nat.pow_le_pow_right (by norm_num) hk
    calc b ≤ 2 * 2 ^ 11 * 2 ^ 2 := by omega
      _ ≤ _ := Nat.mul_le_mul_left _ this
  have hlt : jam b k < A := by omega
  refine ⟨hlt, ?_⟩
  set D := A - jam b k with hD
  have hD0 : D ≠ 0 := by omega
  have hD14 : D < 2 ^ 14 := by omega
  have hD12 : 2 ^ 12 ≤ D := by omega
  obtain ⟨n1, n2, n3, n4⟩ := nsh_spec hD0 hD14
  have hn : nsh D = 1 ∨ nsh D = 2 := by
    by_contra hc
    have h3 : 2 ^ 3 ≤ 2 ^ nsh D := Nat.pow_le_pow_right (by norm_num) (by omega)
    have : 2 ^ 12 * 2 ^ 3 ≤ D * 2 ^ nsh D := Nat.mul_le_mul hD12 h3
    omega
  unfold diffEm
  rw [if_neg (by omega), if_neg (by omega), Nat.mod_eq_of_lt (by omega), finish_big (by omega) n3 n4]
  have hq' : ((A : ℚ) - (b : ℚ) / 2 ^ k) / 8 * (2 : ℚ) ^ ((e : Int) - 25) =
      (((A : ℚ) - (b : ℚ) / 2 ^ k) * 2 ^ nsh D / 16) * (2 : ℚ) ^ (((e - nsh D + 1 : ℕ) : Int) - 25) := by
    rw [show (e : Int) - 25 = ((nsh D : ℕ) : Int) + ((((e - nsh D + 1 : ℕ) : Int) - 25) + (-1)) by
      push_cast [show nsh D ≤ e by omega]; ring,
      zpow_add₀ (by norm_num), zpow_add₀ (by norm_num), zpow_natCast]
    norm_num
    ring
  rw [hq'] at hq ⊢
  refine assemble s (e - nsh D + 1) ((D * 2 ^ nsh D + 8) / 16) _ hs (by omega) (by omega) (by omega)
    (diff_round hA8 hlt hn) ?_ hq
  rcases hn with h | h <;> rw [h] at n3 ⊢
  · have := (jam_bounds b k 0 ((A - 2 ^ 13) / 2)).2 (by omega)
    rw [show 2 * ((A - 2 ^ 13) / 2) = A - 2 ^ 13 by omega, Nat.cast_sub hA] at this
    push_cast at this
    linarith
  · have := (jam_bounds b k 0 ((A - 2 ^ 12) / 2)).2 (by omega)
    rw [show 2 * ((A - 2 ^ 12) / 2) = A - 2 ^ 12 by omega, Nat.cast_sub (by omega)] at this
    push_cast at this
    linarith

/-! ## The sum of two finite halves -/

section core
variable {s e m s' e' m' : Nat} (hs : s < 2) (he : e < 31) (hm : m < 2 ^ 10) (hs' : s' < 2) (hle : e' ≤ e) (hm' : m' < 2 ^ 10)
include hs he hm hs' hle hm'

theorem mag_second : mag e' m' =
    ((8 * sig e' m' : ℕ) : ℚ) / 2 ^ (max e 1 - max e' 1) / 8 * (2 : ℚ) ^ (((max e 1 : ℕ) : Int) - 25) := by
  rw [mag_sig]
  have h : max e' 1 ≤ max e 1 := by omega
  rw [show (((max e 1 : ℕ) : Int) - 25) = ((max e 1 - max e' 1 : ℕ) : Int) + (((max e' 1 : ℕ) : Int) - 25) by
    rw [Nat.cast_sub h]; ring, zpow_add₀ (by norm_num), zpow_natCast]
  have : (0 : ℚ) < 2 ^ (max e 1 - max e' 1) := by positivity
  push_cast
  field_simp

theorem core_nearest {W : Wide} (hW : W ≠ none ∨ e ≠ 0) (hq : |signed s (mag e m) + signed s' (mag e' m')| < 65520) :
    ∃ r, addCore W (s * 2 ^ 15 + e * 2 ^ 10 + m) (s' * 2 ^ 15 + e' * 2 ^ 10 + m') = .ok r ∧ r < 2 ^ 16 ∧
      NearestHalf r (signed s (mag e m) + signed s' (mag e' m')) := by
  obtain ⟨r, hr, hre⟩ := addCore_eq hs he hm hs' hle hm' hW _ _ rfl rfl
  refine ⟨r, hr, ?_⟩
  clear hr hW
  have hma : mag e m = ((8 * sig e m : ℕ) : ℚ) / 8 * (2 : ℚ) ^ (((max e 1 : ℕ) : Int) - 25) := by
    rw [mag_sig]; push_cast; ring
  have hmb := mag_second hs he hm hs' hle hm'
  rw [hma, hmb] at hq ⊢
  clear hma hmb
  have hU : (0 : ℚ) < (2 : ℚ) ^ (((max e 1 : ℕ) : Int) - 25) := by positivity
  have hAlt : 8 * sig e m < 2 ^ 14 := by have := sig_lt (e := e) hm; omega
  have hblt : 8 * sig e' m' < 2 ^ 14 := by have := sig_lt (e := e') hm'; omega
  have hble : 8 * sig e' m' ≤ 8 * 2047 := by have := sig_lt (e := e') hm'; omega
  have hA8 : 8 * sig e m % 8 = 0 := by omega
  have hb8 : 8 * sig e' m' % 8 = 0 := by omega
  have hAge : e ≠ 0 → 2 ^ 13 ≤ 8 * sig e m := by intro h; have := sig_ge (m := m) h; omega
  have hsub : e = 0 → 8 * sig e m < 2 ^ 13 ∧ 8 * sig e' m' < 2 ^ 13 := by
    intro h
    have h' : e' = 0 := by omega
    unfold sig; rw [if_pos h, if_pos h']; omega
  have hk0 : e = 0 → max e 1 - max e' 1 = 0 := by omega
  have hk1 : 1 ≤ max e 1 - max e' 1 → 2 ≤ e := by omega
  generalize 8 * sig e m = A at *
  generalize 8 * sig e' m' = b at *
  generalize max e 1 - max e' 1 = k at *
  have hy : (0 : ℚ) ≤ (b : ℚ) / 2 ^ k := by positivity
  by_cases hss : s = s'
  · -- equal signs
    subst hss
    rw [if_pos rfl] at hre
    have hsum : signed s ((A : ℚ) / 8 * (2 : ℚ) ^ (((max e 1 : ℕ) : Int) - 25)) +
        signed s ((b : ℚ) / 2 ^ k / 8 * (2 : ℚ) ^ (((max e 1 : ℕ) : Int) - 25)) =
        signed s (((A : ℚ) + (b : ℚ) / 2 ^ k) / 8 * (2 : ℚ) ^ (((max e 1 : ℕ) : Int) - 25)) := by
      unfold signed; split <;> ring
    rw [hsum] at hq ⊢
    rw [abs_signed s (by positivity)] at hq
    by_cases h0 : e = 0
    · subst h0
      have := hk0 rfl
      subst this
      have hj : jam b 0 = b := by rw [jam_eq]; simp [Nat.mod_one]
      have hs0 := hsub rfl
      rw [hj, finish_zero (by omega) (by omega)] at hre
      have hcast : ((A : ℚ) + (b : ℚ) / 2 ^ 0) / 8 = (((A + b) / 8 : ℕ) : ℚ) := by
        rw [Nat.cast_div (Nat.dvd_of_mod_eq_zero (by omega)) (by norm_num)]; push_cast; norm_num
      rw [hcast, hre]
      have := assemble_low s ((A + b) / 8) hs (by omega)
      simpa using this
    · rw [show max e 1 = e by omega] at *
      have hA := hAge h0
      have hAq : (2 ^ 13 : ℚ) ≤ A := by exact_mod_cast hA
      have hjle : jam b k ≤ 8 * 2047 := by
        have := (jam_le b k (4 * 2047)).2 (by
          have : 0 < 2 ^ k := Nat.two_pow_pos k
          calc b ≤ 2 * (4 * 2047) * 1 := by omega
            _ ≤ _ := Nat.mul_le_mul_left _ this)
        omega
      by_cases hC : A + jam b k < 2 ^ 14
      · rw [finish_small h0 (by omega) hC] at hre
        rw [hre]
        exact assemble s e _ _ hs (by omega) (by omega) (by omega) (sum_round8 hA8) (by linarith) hq
      · rw [finish_big h0 (by omega) (by omega)] at hre
        rw [hre]
        have hq' : ((A : ℚ) + (b : ℚ) / 2 ^ k) / 8 * (2 : ℚ) ^ ((e : Int) - 25) =
            ((A : ℚ) + (b : ℚ) / 2 ^ k) / 16 * (2 : ℚ) ^ (((e + 1 : ℕ) : Int) - 25) := by
          push_cast
          rw [show (e : Int) + 1 - 25 = ((e : Int) - 25) + 1 by ring, zpow_add₀ (by norm_num)]
          norm_num
          ring
        rw [hq'] at hq ⊢
        refine assemble s (e + 1) _ _ hs (by omega) (by omega) (by omega) (sum_round16 hA8) ?_ hq
        have := (jam_bounds b k ((2 ^ 14 - A) / 2) 0).1 (by omega)
        rw [show 2 * ((2 ^ 14 - A) / 2) = 2 ^ 14 - A by omega, Nat.cast_sub hAlt.le] at this
        push_cast at this
        linarith
  · -- different signs
    rw [if_neg hss] at hre
    have hd1 : signed s ((A : ℚ) / 8 * (2 : ℚ) ^ (((max e 1 : ℕ) : Int) - 25)) +
        signed s' ((b : ℚ) / 2 ^ k / 8 * (2 : ℚ) ^ (((max e 1 : ℕ) : Int) - 25)) =
        signed s (((A : ℚ) - (b : ℚ) / 2 ^ k) / 8 * (2 : ℚ) ^ (((max e 1 : ℕ) : Int) - 25)) := by
      have S : s = 0 ∨ s = 1 := by omega
      have S' : s' = 0 ∨ s' = 1 := by omega
      rcases S with rfl | rfl <;> rcases S' with rfl | rfl <;> simp [signed] at hss ⊢ <;> ring
    have hd2 : signed s (((A : ℚ) - (b : ℚ) / 2 ^ k) / 8 * (2 : ℚ) ^ (((max e 1 : ℕ) : Int) - 25)) =
        signed s' (((b : ℚ) / 2 ^ k - A) / 8 * (2 : ℚ) ^ (((max e 1 : ℕ) : Int) - 25)) := by
      have S : s = 0 ∨ s = 1 := by omega
      have S' : s' = 0 ∨ s' = 1 := by omega
      rcases S with rfl | rfl <;> rcases S' with rfl | rfl <;> simp [signed] at hss ⊢ <;> ring
    rw [hd1] at hq ⊢
    by_cases hAB : A = jam b k
    · rw [if_pos hAB] at hre
      rw [hre]
      have e1 := (jam_bounds b k (A / 2) 0).1 (by omega)
      have e2 := (jam_bounds b k 0 (A / 2)).2 (by omega)
      rw [show 2 * (A / 2) = A by omega] at e1 e2
      have : (A : ℚ) - (b : ℚ) / 2 ^ k = 0 := by linarith
      rw [this, zero_div, zero_mul]
      have hz : signed s 0 = 0 := by simp [signed]
      rw [hz]
      exact ⟨by norm_num, assemble_zero⟩
    · rw [if_neg hAB] at hre
      by_cases hlt : jam b k < A
      · rw [if_pos hlt] at hre
        rw [hre]
        have hle' : (b : ℚ) / 2 ^ k ≤ A := by
          have e2 := (jam_bounds b k 0 (A / 2)).2 (by omega)
          rwa [show 2 * (A / 2) = A by omega] at e2
        rw [abs_signed s (mul_nonneg (by linarith) hU.le)] at hq
        by_cases hk3 : k ≤ 3
        · -- nothing lost
          have hex : b % 2 ^ k = 0 := by
            have : 2 ^ k ∣ 2 ^ 3 := pow_dvd_pow 2 hk3
            exact Nat.mod_eq_zero_of_dvd (this.trans (Nat.dvd_of_mod_eq_zero hb8))
          have hje := jam_exact hex
          have hcast : (A : ℚ) - (b : ℚ) / 2 ^ k = ((A - jam b k : ℕ) : ℚ) := by
            rw [Nat.cast_sub hlt.le, hje]
          rw [hcast] at hq ⊢
          refine diff_exact s e (A - jam b k) hs (by omega) (by omega) ?_ ?_ hq
          · intro h0
            have := hk0 h0
            subst this
            have hj : jam b 0 = b := by rw [jam_eq]; simp [Nat.mod_one]
            rw [hj]; omega
          · intro h0 hn
            by_cases hk2 : 2 ≤ k
            · exfalso
              have he2 := hk1 (by omega)
              have hj : jam b k ≤ 2 * 2 ^ 11 := by
                rw [jam_le]
                have : 2 ^ 2 ≤ 2 ^ k := Nat.pow_le_pow_right (by norm_num) hk2
                calc b ≤ 2 * 2 ^ 11 * 2 ^ 2 := by omega
                  _ ≤ _ := Nat.mul_le_mul_left _ this
              have hA := hAge h0
              obtain ⟨n1, n2, n3, n4⟩ := nsh_spec (d := A - jam b k) (by omega) (by omega)
              have h3 : 2 ^ 3 ≤ 2 ^ nsh (A - jam b k) := Nat.pow_le_pow_right (by norm_num) (by omega)
              have : 2 ^ 12 * 2 ^ 3 ≤ (A - jam b k) * 2 ^ nsh (A - jam b k) := Nat.mul_le_mul (by omega) h3
              omega
            · have hk01 : k = 0 ∨ k = 1 := by omega
              rcases hk01 with rfl | rfl
              · have hj : jam b 0 = b := by rw [jam_eq]; simp [Nat.mod_one]
                rw [hj]
                exact Nat.mod_eq_zero_of_dvd (Dvd.dvd.mul_right (Nat.dvd_of_mod_eq_zero (by omega)) _)
              · have he2 := hk1 le_rfl
                have hj : jam b 1 = b / 2 := by rw [jam_eq, if_pos (by omega), pow_one]
                rw [hj]
                have h4 : 4 ∣ A - b / 2 := Nat.dvd_of_mod_eq_zero (by omega)
                have h2 : 2 ∣ 2 ^ (e - 1) := dvd_pow_self 2 (by omega)
                exact Nat.mod_eq_zero_of_dvd (Nat.mul_dvd_mul h4 h2)
        · have he2 := hk1 (by omega)
          rw [show max e 1 = e by omega] at *
          exact (diff_jammed s e A b k hs he2 hA8 (hAge (by omega)) hAlt hblt (by omega) hq).2
      · rw [if_neg hlt] at hre
        rw [hre, hd2]
        have hk : k = 0 := by
          by_contra hk
          have he2 := hk1 (by omega)
          have hA := hAge (by omega)
          have hj : jam b k ≤ 2 * (2 * 2047) := by
            rw [jam_le]
            have : 2 ^ 1 ≤ 2 ^ k := Nat.pow_le_pow_right (by norm_num) (by omega)
            calc b ≤ 2 * (2 * 2047) * 2 ^ 1 := by omega
              _ ≤ _ := Nat.mul_le_mul_left _ this
          omega
        subst hk
        have hj : jam b 0 = b := by rw [jam_eq]; simp [Nat.mod_one]
        rw [hj] at hlt hAB ⊢
        have hcast : (b : ℚ) / 2 ^ 0 - A = ((b - A : ℕ) : ℚ) := by
          rw [Nat.cast_sub (by omega)]; simp
        rw [hd2, hcast, abs_signed s' (by positivity)] at hq
        rw [hcast]
        refine diff_exact s' e (b - A) hs' (by omega) (by omega) (fun _ => by omega) (fun _ _ => ?_) hq
        exact Nat.mod_eq_zero_of_dvd (Dvd.dvd.mul_right (Nat.dvd_of_mod_eq_zero (by omega)) _)

end core

theorem toRat_fields {s e m : Nat} (hs : s < 2) (he : e < 32) (hm : m < 2 ^ 10) {v : ℚ}
    (hv : (halfVal (s * 2 ^ 15 + e * 2 ^ 10 + m)).toRat? = some v) : e < 31 ∧ v = signed s (mag e m) := by
  have hn : halfVal (s * 2 ^ 15 + e * 2 ^ 10 + m) ≠ .nan := by
    intro h; rw [h] at hv; cases hv
  rcases halfVal_cases s e m hs he hm hn with ⟨-, -, h⟩ | ⟨h31, h⟩
  · rw [h] at hv; cases hv
  · rw [h] at hv
    refine ⟨h31, ?_⟩
    simp only [FV.toRat?, Option.some.injEq] at hv
    rw [← hv]; simp [signed]

theorem exp_field {s e m : Nat} (hs : s < 2) (he : e < 32) (hm : m < 2 ^ 10) :
    (s * 2 ^ 15 + e * 2 ^ 10 + m) / 2 ^ 10 % 2 ^ 5 = e := by
  have : s = 0 ∨ s = 1 := by omega
  rcases this with rfl | rfl <;> omega

/-- The sum of two finite halves, below the overflow threshold. -/
theorem halfAdd_nearest (W : Wide) (x y : Nat) (hx : x < 2 ^ 16) (hy : y < 2 ^ 16) (vx vy : ℚ)
    (hvx : (halfVal x).toRat? = some vx) (hvy : (halfVal y).toRat? = some vy) (hq : |vx + vy| < 65520)
    (hW : W ≠ none ∨ x / 2 ^ 10 % 2 ^ 5 ≠ 0 ∨ y / 2 ^ 10 % 2 ^ 5 ≠ 0) :
    ∃ r, halfAdd W x y = .ok r ∧ r < 2 ^ 16 ∧ NearestHalf r (vx + vy) := by
  obtain ⟨s, e, m, hs, he, hm, rfl⟩ := half_fields x hx
  obtain ⟨s', e', m', hs', he', hm', rfl⟩ := half_fields y hy
  obtain ⟨h31, rfl⟩ := toRat_fields hs he hm hvx
  obtain ⟨h31', rfl⟩ := toRat_fields hs' he' hm' hvy
  have e1 := exp_field hs he hm
  have e2 := exp_field hs' he' hm'
  rw [e1, e2] at hW
  rw [halfAdd_core, expBits_eq hs he hm, expBits_eq hs' he' hm', sels16, sels16,
    Nat.mod_eq_of_lt hx, Nat.mod_eq_of_lt hy]
  clear hvx hvy hx hy e1 e2
  by_cases h : e < e'
  · have hlt : 2 ^ 15 ≤ sub16 (e * 2 ^ 10) (e' * 2 ^ 10) := by unfold sub16; omega
    rw [if_pos hlt, if_pos hlt]
    rw [add_comm (signed s _)] at hq ⊢
    exact core_nearest hs' h31' hm' hs (by omega) hm (by rcases hW with h | h | h; exacts [Or.inl h, Or.inr (by omega), Or.inr (by omega)]) hq
  · have hlt : ¬ 2 ^ 15 ≤ sub16 (e * 2 ^ 10) (e' * 2 ^ 10) := by unfold sub16; omega
    rw [if_neg hlt, if_neg hlt]
    exact core_nearest hs h31 hm hs' (by omega) hm' (by rcases hW with h | h | h; exacts [Or.inl h, Or.inr (by omega), Or.inr (by omega)]) hq

end Verif.HalfM
