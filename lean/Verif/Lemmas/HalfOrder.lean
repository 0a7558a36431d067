import Verif.Lemmas.HalfFloat

/-! # The order of halves is the order of sign and magnitude bits -/

namespace Verif.HalfM

open HalfS

/-- The magnitude of a finite half by its fields. -/
def mag (e m : Nat) : ℚ := if e = 0 then m * (2 : ℚ) ^ (-24 : Int) else (2 ^ 10 + m : ℕ) * (2 : ℚ) ^ ((e : Int) - 25)

theorem mag_nonneg (e m : Nat) : 0 ≤ mag e m := by unfold mag; split <;> positivity

theorem mag_lt_of_exp {e e' m m' : Nat} (hm : m < 2 ^ 10) (h : e < e') : mag e m < mag e' m' := by
  have z2 : (2 : ℚ) ≠ 0 := by norm_num
  have lo : (2 : ℚ) ^ ((e' : Int) - 15) ≤ mag e' m' := by
    unfold mag
    rw [if_neg (by omega), show (e' : Int) - 15 = 10 + ((e' : Int) - 25) by ring, zpow_add₀ z2]
    apply mul_le_mul_of_nonneg_right _ (by positivity)
    push_cast
    norm_num
  refine lt_of_lt_of_le ?_ lo
  unfold mag
  by_cases he : e = 0
  · rw [if_pos he]
    have h1 : (m : ℚ) < (2 : ℚ) ^ (10 : Int) := by norm_num; exact_mod_cast hm
    calc (m : ℚ) * (2 : ℚ) ^ (-24 : Int) < (2 : ℚ) ^ (10 : Int) * (2 : ℚ) ^ (-24 : Int) :=
          mul_lt_mul_of_pos_right h1 (by positivity)
      _ = (2 : ℚ) ^ (-14 : Int) := by rw [← zpow_add₀ z2]; norm_num
      _ ≤ _ := zpow_le_zpow_right₀ (by norm_num) (by omega)
  · rw [if_neg he]
    have h1 : ((2 ^ 10 + m : ℕ) : ℚ) < (2 : ℚ) ^ (11 : Int) := by
      have : 2 ^ 10 + m < 2 ^ 11 := by omega
      have : ((2 ^ 10 + m : ℕ) : ℚ) < ((2 ^ 11 : ℕ) : ℚ) := Nat.cast_lt.2 this
      refine lt_of_lt_of_eq this ?_
      norm_num
    calc ((2 ^ 10 + m : ℕ) : ℚ) * (2 : ℚ) ^ ((e : Int) - 25) < (2 : ℚ) ^ (11 : Int) * (2 : ℚ) ^ ((e : Int) - 25) :=
          mul_lt_mul_of_pos_right h1 (by positivity)
      _ = (2 : ℚ) ^ ((e : Int) - 14) := by rw [← zpow_add₀ z2]; congr 1; ring
      _ ≤ _ := zpow_le_zpow_right₀ (by norm_num) (by omega)

theorem mag_lt_of_frac {e m m' : Nat} (h : m < m') : mag e m < mag e m' := by
  unfold mag
  split
  · exact mul_lt_mul_of_pos_right (by exact_mod_cast h) (by positivity)
  · exact mul_lt_mul_of_pos_right (by push_cast; have : (m : ℚ) < m' := (by exact_mod_cast h); linarith) (by positivity)

theorem mag_lt_iff {e e' m m' : Nat} (hm : m < 2 ^ 10) (hm' : m' < 2 ^ 10) :
    mag e m < mag e' m' ↔ e * 2 ^ 10 + m < e' * 2 ^ 10 + m' := by
  constructor
  · intro h
    by_contra hn
    rcases lt_trichotomy e e' with h1 | h1 | h1
    · omega
    · subst h1
      rcases Nat.lt_or_ge m' m with h2 | h2
      · exact absurd h (not_lt.2 (mag_lt_of_frac h2).le)
      · have : m = m' := by omega
        subst this; exact lt_irrefl _ h
    · exact absurd h (not_lt.2 (mag_lt_of_exp hm' h1).le)
  · intro h
    rcases lt_trichotomy e e' with h1 | h1 | h1
    · exact mag_lt_of_exp hm h1
    · subst h1; exact mag_lt_of_frac (by omega)
    · omega

theorem mag_eq_iff {e e' m m' : Nat} (hm : m < 2 ^ 10) (hm' : m' < 2 ^ 10) :
    mag e m = mag e' m' ↔ e * 2 ^ 10 + m = e' * 2 ^ 10 + m' := by
  have a := mag_lt_iff (e := e) (e' := e') hm hm'
  have b := mag_lt_iff (e := e') (e' := e) hm' hm
  constructor
  · intro h
    rw [h] at a b
    have := a.not.1 (lt_irrefl _)
    have := b.not.1 (lt_irrefl _)
    omega
  · intro h
    have := a.not.2 (by omega)
    have := b.not.2 (by omega)
    exact le_antisymm (by linarith) (by linarith)

theorem mag_zero_iff {e m : Nat} (hm : m < 2 ^ 10) : mag e m = 0 ↔ e * 2 ^ 10 + m = 0 := by
  have := mag_eq_iff (e := e) (e' := 0) hm (by norm_num : 0 < 2 ^ 10)
  have h0 : mag 0 0 = 0 := by simp [mag]
  rw [h0] at this
  rw [this]; simp

/-- Sign and magnitude bits as a signed number. -/
def key (s k : Nat) : Int := if s = 1 then -(k : Int) else k

/-- The value of a half that is no NaN, by its fields. -/
theorem halfVal_cases (s e m : Nat) (hs : s < 2) (he : e < 32) (hm : m < 2 ^ 10)
    (hn : halfVal (s * 2 ^ 15 + e * 2 ^ 10 + m) ≠ .nan) :
    (e = 31 ∧ m = 0 ∧ halfVal (s * 2 ^ 15 + e * 2 ^ 10 + m) = .inf (decide (s = 1))) ∨
    (e < 31 ∧ halfVal (s * 2 ^ 15 + e * 2 ^ 10 + m) = .fin (decide (s = 1)) (mag e m)) := by
  rw [halfVal_eq s e m hs he hm] at hn ⊢
  by_cases h : e = 31
  · left
    rw [if_pos h] at hn ⊢
    by_cases h0 : m = 0
    · exact ⟨h, h0, by rw [if_pos h0]⟩
    · rw [if_neg h0] at hn; exact absurd rfl hn
  · right
    refine ⟨by omega, ?_⟩
    rw [if_neg h]
    unfold mag
    split <;> rfl

section
variable {s e m s' e' m' : Nat} (hs : s < 2) (he : e < 32) (hm : m < 2 ^ 10) (hs' : s' < 2) (he' : e' < 32) (hm' : m' < 2 ^ 10)
  (hn : halfVal (s * 2 ^ 15 + e * 2 ^ 10 + m) ≠ .nan) (hn' : halfVal (s' * 2 ^ 15 + e' * 2 ^ 10 + m') ≠ .nan)
include hs he hm hs' he' hm' hn hn'

theorem valLt_iff : (halfVal (s * 2 ^ 15 + e * 2 ^ 10 + m)).lt (halfVal (s' * 2 ^ 15 + e' * 2 ^ 10 + m')) ↔
    key s (e * 2 ^ 10 + m) < key s' (e' * 2 ^ 10 + m') := by
  have S : s = 0 ∨ s = 1 := by omega
  have S' : s' = 0 ∨ s' = 1 := by omega
  have l1 := mag_lt_iff (e := e) (e' := e') hm hm'
  have l2 := mag_lt_iff (e := e') (e' := e) hm' hm
  have z1 := mag_zero_iff (e := e) hm
  have z2 := mag_zero_iff (e := e') hm'
  have p1 := mag_nonneg e m
  have p2 := mag_nonneg e' m'
  rcases halfVal_cases s e m hs he hm hn with ⟨rfl, rfl, h⟩ | ⟨h31, h⟩ <;>
    rcases halfVal_cases s' e' m' hs' he' hm' hn' with ⟨rfl, rfl, h'⟩ | ⟨h31', h'⟩ <;> rw [h, h']
  · rcases S with rfl | rfl <;> rcases S' with rfl | rfl <;> simp [FV.lt, key]
  · rcases S with rfl | rfl <;> rcases S' with rfl | rfl <;> simp [FV.lt, key] <;> omega
  · rcases S with rfl | rfl <;> rcases S' with rfl | rfl <;> simp [FV.lt, key] <;> omega
  · clear h h' hn hn'
    generalize mag e m = x at l1 l2 z1 z2 p1 p2 ⊢
    generalize mag e' m' = y at l1 l2 z1 z2 p1 p2 ⊢
    rcases S with rfl | rfl <;> rcases S' with rfl | rfl <;> simp only [FV.lt, key, decide_true, decide_false, if_true,
      zero_ne_one, Bool.false_eq_true, if_false]
    · rw [l1]; omega
    · constructor
      · intro h; linarith
      · intro h; omega
    · constructor
      · intro h
        have : ¬ (x = 0 ∧ y = 0) := by rintro ⟨rfl, rfl⟩; simp at h
        rw [z1, z2] at this; omega
      · intro h
        have : ¬ (x = 0 ∧ y = 0) := by rw [z1, z2]; omega
        by_contra hc
        exact this ⟨by linarith, by linarith⟩
    · rw [neg_lt_neg_iff, l2]; omega

theorem valEq_iff : (halfVal (s * 2 ^ 15 + e * 2 ^ 10 + m)).eq (halfVal (s' * 2 ^ 15 + e' * 2 ^ 10 + m')) ↔
    key s (e * 2 ^ 10 + m) = key s' (e' * 2 ^ 10 + m') := by
  have S : s = 0 ∨ s = 1 := by omega
  have S' : s' = 0 ∨ s' = 1 := by omega
  have l1 := mag_eq_iff (e := e) (e' := e') hm hm'
  have z1 := mag_zero_iff (e := e) hm
  have z2 := mag_zero_iff (e := e') hm'
  have p1 := mag_nonneg e m
  have p2 := mag_nonneg e' m'
  rcases halfVal_cases s e m hs he hm hn with ⟨rfl, rfl, h⟩ | ⟨h31, h⟩ <;>
    rcases halfVal_cases s' e' m' hs' he' hm' hn' with ⟨rfl, rfl, h'⟩ | ⟨h31', h'⟩ <;> rw [h, h']
  · rcases S with rfl | rfl <;> rcases S' with rfl | rfl <;> simp [FV.eq, key]
  · rcases S with rfl | rfl <;> rcases S' with rfl | rfl <;> simp [FV.eq, key] <;> omega
  · rcases S with rfl | rfl <;> rcases S' with rfl | rfl <;> simp [FV.eq, key] <;> omega
  · clear h h' hn hn'
    generalize mag e m = x at l1 z1 z2 p1 p2 ⊢
    generalize mag e' m' = y at l1 z1 z2 p1 p2 ⊢
    rcases S with rfl | rfl <;> rcases S' with rfl | rfl <;> simp only [FV.eq, key, decide_true, decide_false, if_true,
      zero_ne_one, Bool.false_eq_true, if_false]
    · rw [l1]; omega
    · constructor
      · intro h
        have h1 := z1.1 (by linarith)
        have h2 := z2.1 (by linarith)
        omega
      · intro h
        have h1 := z1.2 (by omega)
        have h2 := z2.2 (by omega)
        rw [h1, h2, neg_zero]
    · constructor
      · intro h
        have h1 := z1.1 (by linarith)
        have h2 := z2.1 (by linarith)
        omega
      · intro h
        have h1 := z1.2 (by omega)
        have h2 := z2.2 (by omega)
        rw [h1, h2, neg_zero]
    · rw [neg_inj, l1]; omega

end

theorem fields (s e m : Nat) (hs : s < 2) (he : e < 32) (hm : m < 2 ^ 10) :
    sign (s * 2 ^ 15 + e * 2 ^ 10 + m) = s ∧ exp (s * 2 ^ 15 + e * 2 ^ 10 + m) = e ∧
      frac (s * 2 ^ 15 + e * 2 ^ 10 + m) = m := by
  unfold sign exp frac
  refine ⟨by omega, by omega, by omega⟩

theorem lt_iff {s e m s' e' m' : Nat} (hs : s < 2) (he : e < 32) (hm : m < 2 ^ 10) (hs' : s' < 2) (he' : e' < 32)
    (hm' : m' < 2 ^ 10) :
    lt (s * 2 ^ 15 + e * 2 ^ 10 + m) (s' * 2 ^ 15 + e' * 2 ^ 10 + m') = true ↔
      (key s (e * 2 ^ 10 + m) < key s' (e' * 2 ^ 10 + m') ∨
        (s = 1 ∧ s' = 0 ∧ e * 2 ^ 10 + m = 0 ∧ e' * 2 ^ 10 + m' = 0)) := by
  obtain ⟨f1, f2, f3⟩ := fields s e m hs he hm
  obtain ⟨g1, g2, g3⟩ := fields s' e' m' hs' he' hm'
  unfold lt key
  rw [f1, f2, f3, g1, g2, g3]
  have S : s = 0 ∨ s = 1 := by omega
  have S' : s' = 0 ∨ s' = 1 := by omega
  rcases S with rfl | rfl <;> rcases S' with rfl | rfl <;> simp only [if_true, zero_ne_one, one_ne_zero, if_false] <;>
    (repeat' split) <;> simp <;> omega

end Verif.HalfM
