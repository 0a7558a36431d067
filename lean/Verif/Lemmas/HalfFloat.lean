import Verif.Lemmas.HalfConv
import Verif.Lemmas.HalfNearest
import Mathlib.Tactic.FieldSimp

/-! # What `floatToHalf` returns -/

namespace Verif.HalfM

open HalfS

/-- The signed number of a magnitude. -/
def signed (s : Nat) (q : ℚ) : ℚ := if s = 1 then -q else q

theorem abs_signed (s : Nat) {q : ℚ} (h : 0 ≤ q) : |signed s q| = q := by
  unfold signed; split
  · rw [abs_neg, abs_of_nonneg h]
  · exact abs_of_nonneg h

theorem signed_sub (s : Nat) (p q : ℚ) : signed s p - signed s q = signed s (p - q) := by
  unfold signed; split <;> ring

theorem signed_neg (s : Nat) {q : ℚ} (h : 0 < q) : decide (signed s q < 0) = decide (s = 1) := by
  unfold signed
  by_cases hs : s = 1
  · rw [if_pos hs]; simp [hs, h]
  · rw [if_neg hs]; simp [hs, h.le]

/-- The magnitude `V` units of `2^(E-25)` is a nearest half. -/
theorem nearest_signed (r s E V : Nat) (q : ℚ) (hE : 1 ≤ E) (hq0 : 0 ≤ q) (hq1 : q < 65520)
    (hr : (halfVal r).toRat? = some (signed s (V * (2 : ℚ) ^ ((E : Int) - 25))))
    (hclose : |(V : ℚ) * (2 : ℚ) ^ ((E : Int) - 25) - q| ≤ (2 : ℚ) ^ ((E : Int) - 25) / 2)
    (hq : E = 1 ∨ (2 : ℚ) ^ ((E : Int) - 15) ≤ q) : NearestHalf r (signed s q) := by
  unfold NearestHalf
  rw [abs_signed s hq0, if_neg (not_le.2 hq1)]
  refine ⟨_, hr, fun h hh w hw => ?_⟩
  have key := nearest_of_close E hE (if s = 1 then -(V : Int) else V) (signed s q)
  have e1 : (((if s = 1 then -(V : Int) else V : Int)) : ℚ) * (2 : ℚ) ^ ((E : Int) - 25) =
      signed s (V * (2 : ℚ) ^ ((E : Int) - 25)) := by
    unfold signed; split <;> push_cast <;> ring
  rw [e1] at key
  refine key ?_ ?_ h hh w hw
  · rw [signed_sub]
    unfold signed
    split
    · rwa [abs_neg]
    · exact hclose
  · rwa [abs_signed s hq0]

theorem nearest_inf (r s : Nat) (q : ℚ) (hq : 65520 ≤ q) (hr : halfVal r = .inf (decide (s = 1))) :
    NearestHalf r (signed s q) := by
  unfold NearestHalf
  have h0 : 0 < q := lt_of_lt_of_le (by norm_num) hq
  rw [abs_signed s h0.le, if_pos hq, signed_neg s h0, hr]

/-! ## The halves by fields -/

theorem toRat_norm (s e m : Nat) (hs : s < 2) (he : e < 31) (he0 : e ≠ 0) (hm : m < 2 ^ 10) :
    (halfVal (s * 2 ^ 15 + e * 2 ^ 10 + m)).toRat? = some (signed s ((2 ^ 10 + m : ℕ) * (2 : ℚ) ^ ((e : Int) - 25))) := by
  rw [halfVal_eq s e m hs (by omega) hm, if_neg (by omega), if_neg he0]
  simp [FV.toRat?, signed]

theorem toRat_sub (s m : Nat) (hs : s < 2) (hm : m < 2 ^ 10) :
    (halfVal (s * 2 ^ 15 + m)).toRat? = some (signed s (m * (2 : ℚ) ^ (-24 : Int))) := by
  have := halfVal_eq s 0 m hs (by omega) hm
  rw [show s * 2 ^ 15 + 0 * 2 ^ 10 + m = s * 2 ^ 15 + m by omega] at this
  rw [this]
  simp [FV.toRat?, signed]

/-- A significand `V` between `2^10` and `2^11` at exponent `E`; at `2^11` the exponent has moved on. -/
theorem toRat_of_units (s E V : Nat) (hs : s < 2) (hE : 1 ≤ E) (hV : 2 ^ 10 ≤ V) (hV' : V ≤ 2 ^ 11)
    (hlt : E * 2 ^ 10 + (V - 2 ^ 10) < 31 * 2 ^ 10) :
    (halfVal (s * 2 ^ 15 + (E * 2 ^ 10 + (V - 2 ^ 10)))).toRat? = some (signed s (V * (2 : ℚ) ^ ((E : Int) - 25))) := by
  by_cases h : V = 2 ^ 11
  · have e1 : s * 2 ^ 15 + (E * 2 ^ 10 + (V - 2 ^ 10)) = s * 2 ^ 15 + (E + 1) * 2 ^ 10 + 0 := by omega
    rw [e1, toRat_norm s (E + 1) 0 hs (by omega) (by omega) (by omega)]
    have e2 : ((2 ^ 10 + 0 : ℕ) : ℚ) * (2 : ℚ) ^ (((E + 1 : ℕ) : Int) - 25) = V * (2 : ℚ) ^ ((E : Int) - 25) := by
      rw [h]
      push_cast
      rw [show (E : Int) + 1 - 25 = (E - 25) + 1 by ring, zpow_add₀ (by norm_num : (2 : ℚ) ≠ 0)]
      ring
    rw [e2]
  · have e1 : s * 2 ^ 15 + (E * 2 ^ 10 + (V - 2 ^ 10)) = s * 2 ^ 15 + E * 2 ^ 10 + (V - 2 ^ 10) := by omega
    rw [e1, toRat_norm s E (V - 2 ^ 10) hs (by omega) (by omega) (by omega)]
    rw [show 2 ^ 10 + (V - 2 ^ 10) = V from Nat.add_sub_cancel' hV]

/-! ## The exponent ranges -/

theorem floatToHalf_ok (w : Nat → Nat → Nat) (s e m : Nat) (hs : s < 2) (he : e < 256) (hm : m < 2 ^ 23) :
    ∃ d, floatToHalf (some w) (s * 2 ^ 31 + e * 2 ^ 23 + m) = .ok ((s * 2 ^ 15 ||| halfBody e m d % 2 ^ 32) % 2 ^ 16) := by
  obtain ⟨d, hd⟩ := shr_some w (rounded m ||| 2 ^ 23) (sub32 1 (sub32 e 112))
  exact ⟨d, by rw [floatToHalf_eq _ s e m hs he hm, hd, Out.ok_bind]⟩

theorem pack (s b : Nat) (hs : s < 2) (hb : b < 2 ^ 15) : (s * 2 ^ 15 ||| b % 2 ^ 32) % 2 ^ 16 = s * 2 ^ 15 + b := by
  rw [Nat.mod_eq_of_lt (by omega : b < 2 ^ 32), or_add 15 hb, Nat.mod_eq_of_lt (by omega)]

theorem rounded_div (m : Nat) : rounded m / 2 ^ 13 = (m + 2 ^ 12) / 2 ^ 13 := by
  unfold rounded
  omega

theorem zpow_e (e : Nat) (h : 112 ≤ e) : (2 : ℚ) ^ ((e : Int) - 150) = (2 : ℚ) ^ (((e - 112 : ℕ) : Int) - 25) / 2 ^ 13 := by
  rw [eq_div_iff (by norm_num), ← zpow_natCast, ← zpow_add₀ (by norm_num)]
  congr 1
  push_cast [h]
  ring

theorem normal_body (e m d : Nat) (he : 113 ≤ e) (he' : e ≤ 142) (hm : m < 2 ^ 23) :
    halfBody e m d = (e - 112) * 2 ^ 10 + (m + 2 ^ 12) / 2 ^ 13 := by
  unfold halfBody
  rw [if_neg (by omega), if_neg (by omega), if_neg (by omega), rounded_div]
  have := rounded_le m hm
  have := rounded_div m
  by_cases h : 2 ^ 23 ≤ rounded m
  · rw [if_pos h]; omega
  · rw [if_neg h]

theorem normal (w : Nat → Nat → Nat) (s e m : Nat) (hs : s < 2) (he : 113 ≤ e) (he' : e ≤ 142) (hm : m < 2 ^ 23) :
    ∃ r, floatToHalf (some w) (s * 2 ^ 31 + e * 2 ^ 23 + m) = .ok r ∧ r < 2 ^ 16 ∧ r / 2 ^ 15 = s ∧
      NearestHalf r (signed s ((2 ^ 23 + m : ℕ) * (2 : ℚ) ^ ((e : Int) - 150))) := by
  obtain ⟨d, hd⟩ := floatToHalf_ok w s e m hs (by omega) hm
  rw [normal_body e m d he he' hm] at hd
  have hc : (m + 2 ^ 12) / 2 ^ 13 ≤ 2 ^ 10 := by omega
  rw [pack s _ hs (by omega)] at hd
  refine ⟨_, hd, by omega, top15 s _ (by omega), ?_⟩
  clear hd
  generalize hk : (m + 2 ^ 12) / 2 ^ 13 = k at hc ⊢
  have hlo : k * 2 ^ 13 ≤ m + 2 ^ 12 := by omega
  have hhi : m + 2 ^ 12 < (k + 1) * 2 ^ 13 := by omega
  by_cases hov : (e - 112) * 2 ^ 10 + k = 31 * 2 ^ 10
  · -- rounding reached the infinity
    have e1 : e = 142 := by omega
    have e2 : k = 2 ^ 10 := by omega
    subst e1
    apply nearest_inf
    · have : (2 ^ 24 - 2 ^ 12 : ℚ) ≤ (2 ^ 23 + m : ℕ) := by
        have : 2 ^ 24 - 2 ^ 12 ≤ 2 ^ 23 + m := by omega
        have : ((2 ^ 24 - 2 ^ 12 : ℕ) : ℚ) ≤ (2 ^ 23 + m : ℕ) := Nat.cast_le.2 this
        refine le_trans (le_of_eq ?_) this
        norm_num
      norm_num at this ⊢
      linarith
    · have := halfVal_eq s 31 0 hs (by omega) (by omega)
      rw [Nat.add_zero] at this
      rw [hov, this, if_pos rfl, if_pos rfl]
  · have hU : (0 : ℚ) < (2 : ℚ) ^ (((e - 112 : ℕ) : Int) - 25) := by positivity
    have hm' : (m : ℚ) < 2 ^ 23 := by exact_mod_cast hm
    have h1 : (k : ℚ) * 2 ^ 13 ≤ m + 2 ^ 12 := by exact_mod_cast hlo
    have h2 : (m : ℚ) + 2 ^ 12 ≤ (k + 1) * 2 ^ 13 := by exact_mod_cast hhi.le
    apply nearest_signed _ s (e - 112) (2 ^ 10 + k) _ (by omega) (by positivity)
    · rw [zpow_e e (by omega)]
      by_cases e1 : e = 142
      · subst e1
        have hk' : k < 2 ^ 10 := by omega
        have : m < 2 ^ 23 - 2 ^ 12 := by omega
        have h8 : (m : ℚ) < (8384512 : ℕ) := Nat.cast_lt.2 (by simpa using this)
        have h9 : (m : ℚ) < 8384512 := h8
        push_cast
        norm_num
        linarith
      · have h3 : (2 : ℚ) ^ (((e - 112 : ℕ) : Int) - 25) ≤ (2 : ℚ) ^ (4 : Int) :=
          zpow_le_zpow_right₀ (by norm_num) (by omega)
        norm_num at h3
        have h4 : (((2 ^ 23 + m : ℕ) : ℚ)) < 2 ^ 24 := by push_cast; linarith
        have h5 : (((2 ^ 23 + m : ℕ) : ℚ)) * (2 : ℚ) ^ (((e - 112 : ℕ) : Int) - 25) ≤ 2 ^ 24 * 16 := by
          apply mul_le_mul h4.le h3 hU.le (by norm_num)
        rw [← mul_div_assoc, div_lt_iff₀ (by norm_num)]
        linarith
    · have := toRat_of_units s (e - 112) (2 ^ 10 + k) hs (by omega) (by omega) (by omega) (by omega)
      rw [show 2 ^ 10 + k - 2 ^ 10 = k by omega] at this
      exact this
    · rw [zpow_e e (by omega)]
      rw [show ((2 ^ 10 + k : ℕ) : ℚ) * (2 : ℚ) ^ (((e - 112 : ℕ) : Int) - 25) -
          ((2 ^ 23 + m : ℕ) : ℚ) * ((2 : ℚ) ^ (((e - 112 : ℕ) : Int) - 25) / 2 ^ 13) =
        ((k : ℚ) * 2 ^ 13 - m) / 2 ^ 13 * (2 : ℚ) ^ (((e - 112 : ℕ) : Int) - 25) by push_cast; ring]
      rw [abs_mul, abs_of_pos hU, mul_comm, ← mul_one_div ((2 : ℚ) ^ (((e - 112 : ℕ) : Int) - 25)) 2]
      apply mul_le_mul_of_nonneg_left _ hU.le
      rw [abs_le]
      constructor
      · rw [le_div_iff₀ (by norm_num)]; norm_num at h2 ⊢; linarith
      · rw [div_le_iff₀ (by norm_num)]; norm_num at h1 ⊢; linarith
    · right
      rw [zpow_e e (by omega), show (((e - 112 : ℕ) : Int) - 15) = (((e - 112 : ℕ) : Int) - 25) + 10 by ring,
        zpow_add₀ (by norm_num)]
      have : (0 : ℚ) ≤ m := by positivity
      push_cast
      rw [← mul_div_assoc, le_div_iff₀ (by norm_num)]
      have hge : (2 : ℚ) ^ 23 ≤ 2 ^ 23 + m := by linarith
      have := mul_le_mul_of_nonneg_right hge hU.le
      norm_num at this ⊢
      linarith

theorem big_body (e m d : Nat) (he : 144 ≤ e) (hn : ¬ (e = 255 ∧ 2 ^ 22 ≤ m)) : halfBody e m d = 31 * 2 ^ 10 := by
  unfold halfBody
  rw [if_neg hn, if_neg (by omega), if_pos he]
  norm_num

theorem big (w : Nat → Nat → Nat) (s e m : Nat) (hs : s < 2) (he : 144 ≤ e) (he' : e ≤ 254) (hm : m < 2 ^ 23) :
    ∃ r, floatToHalf (some w) (s * 2 ^ 31 + e * 2 ^ 23 + m) = .ok r ∧ r < 2 ^ 16 ∧ r / 2 ^ 15 = s ∧
      NearestHalf r (signed s ((2 ^ 23 + m : ℕ) * (2 : ℚ) ^ ((e : Int) - 150))) := by
  obtain ⟨d, hd⟩ := floatToHalf_ok w s e m hs (by omega) hm
  rw [big_body e m d he (by omega), pack s _ hs (by omega)] at hd
  refine ⟨_, hd, by omega, top15 s _ (by omega), ?_⟩
  apply nearest_inf
  · have h1 : (2 : ℚ) ^ (23 : ℕ) ≤ (2 ^ 23 + m : ℕ) := by push_cast; norm_num
    have h2 : (2 : ℚ) ^ (-6 : Int) ≤ (2 : ℚ) ^ ((e : Int) - 150) := zpow_le_zpow_right₀ (by norm_num) (by omega)
    have h3 := mul_le_mul h1 h2 (by positivity) (by positivity)
    norm_num at h3 ⊢
    linarith
  · have := halfVal_eq s 31 0 hs (by omega) (by omega)
    rw [Nat.add_zero] at this
    rw [this, if_pos rfl, if_pos rfl]

theorem infinite (w : Nat → Nat → Nat) (s : Nat) (hs : s < 2) :
    ∃ r, floatToHalf (some w) (s * 2 ^ 31 + 255 * 2 ^ 23 + 0) = .ok r ∧ r < 2 ^ 16 ∧ r / 2 ^ 15 = s ∧
      halfVal r = .inf (decide (s = 1)) := by
  obtain ⟨d, hd⟩ := floatToHalf_ok w s 255 0 hs (by omega) (by omega)
  rw [big_body 255 0 d (by omega) (by omega), pack s _ hs (by omega)] at hd
  refine ⟨_, hd, by omega, top15 s _ (by omega), ?_⟩
  have := halfVal_eq s 31 0 hs (by omega) (by omega)
  rw [Nat.add_zero] at this
  rw [this, if_pos rfl, if_pos rfl]

theorem quiet (w : Nat → Nat → Nat) (s m : Nat) (hs : s < 2) (hm : m < 2 ^ 23) (hq : 2 ^ 22 ≤ m) :
    ∃ r, floatToHalf (some w) (s * 2 ^ 31 + 255 * 2 ^ 23 + m) = .ok r ∧ r < 2 ^ 16 ∧ r / 2 ^ 15 = s ∧
      halfVal r = .nan := by
  obtain ⟨d, hd⟩ := floatToHalf_ok w s 255 m hs (by omega) hm
  have hb : halfBody 255 m d = 31 * 2 ^ 10 + 2 ^ 9 := by
    unfold halfBody
    rw [if_pos ⟨rfl, hq⟩]
    norm_num
  rw [hb, pack s _ hs (by omega)] at hd
  refine ⟨_, hd, by omega, top15 s _ (by omega), ?_⟩
  have := halfVal_eq s 31 (2 ^ 9) hs (by omega) (by omega)
  rw [← Nat.add_assoc, this]
  rfl

/-- Below `2^-14`, without a carry: truncation to multiples of `2^-24`. -/
theorem small (W : Wide) (s e m : Nat) (hs : s < 2) (he : 82 ≤ e) (he' : e ≤ 112) (hm : m < 2 ^ 23)
    (hc : m < 2 ^ 23 - 2 ^ 12) :
    ∃ r, floatToHalf W (s * 2 ^ 31 + e * 2 ^ 23 + m) = .ok (s * 2 ^ 15 + r) ∧ r ≤ 2 ^ 10 ∧
      r = (2 ^ 23 + rounded m) / 2 ^ (126 - e) := by
  have hr : rounded m < 2 ^ 23 := by
    have := rounded_div m
    have : (m + 2 ^ 12) / 2 ^ 13 < 2 ^ 10 := by omega
    omega
  rw [floatToHalf_eq W s e m hs (by omega) hm, or_hidden hr]
  have hsa : sub32 1 (sub32 e 112) = 113 - e := by
    simp only [sub32]; omega
  rw [hsa, shr, if_pos (by omega), Out.ok_bind, Nat.shiftRight_eq_div_pow]
  have hb : halfBody e m ((rounded m + 2 ^ 23) / 2 ^ (113 - e)) = (2 ^ 23 + rounded m) / 2 ^ (126 - e) := by
    unfold halfBody
    rw [if_neg (by omega), if_pos he', Nat.div_div_eq_div_mul, ← pow_add, Nat.add_comm,
      show 113 - e + 13 = 126 - e by omega]
  have hle : (2 ^ 23 + rounded m) / 2 ^ (126 - e) ≤ 2 ^ 10 := by
    have h1 : 2 ^ 14 ≤ 2 ^ (126 - e) := Nat.pow_le_pow_right (by norm_num) (by omega)
    calc (2 ^ 23 + rounded m) / 2 ^ (126 - e) ≤ (2 ^ 23 + rounded m) / 2 ^ 14 := Nat.div_le_div_left h1 (by norm_num)
      _ ≤ 2 ^ 10 := by omega
  rw [hb, pack s _ hs (by omega)]
  exact ⟨_, rfl, hle, rfl⟩

theorem small_value (s r : Nat) (hs : s < 2) (hr : r ≤ 2 ^ 10) :
    (halfVal (s * 2 ^ 15 + r)).toRat? = some (signed s (r * (2 : ℚ) ^ (-24 : Int))) := by
  by_cases h : r = 2 ^ 10
  · subst h
    have := toRat_norm s 1 0 hs (by omega) (by omega) (by omega)
    rw [show s * 2 ^ 15 + 1 * 2 ^ 10 + 0 = s * 2 ^ 15 + 2 ^ 10 by omega] at this
    rw [this]
    norm_num
  · exact toRat_sub s r hs (by omega)

theorem small_error (e m r : Nat) (he' : e ≤ 112) (hr : r = (2 ^ 23 + rounded m) / 2 ^ (126 - e)) :
    |(r : ℚ) * (2 : ℚ) ^ (-24 : Int) - (2 ^ 23 + m : ℕ) * (2 : ℚ) ^ ((e : Int) - 150)| < (2 : ℚ) ^ (-24 : Int) := by
  set P : ℕ := 2 ^ (126 - e) with hP
  have hP0 : 0 < P := Nat.two_pow_pos _
  have hP14 : 2 ^ 14 ≤ P := Nat.pow_le_pow_right (by norm_num) (by omega)
  have h1 : r * P ≤ 2 ^ 23 + rounded m := by rw [hr]; exact Nat.div_mul_le_self _ _
  have h2 : 2 ^ 23 + rounded m < (r + 1) * P := by
    rw [hr, Nat.add_mul, Nat.one_mul]; exact Nat.lt_div_mul_add hP0
  have h3 : m ≤ rounded m ∧ rounded m ≤ m + 2 ^ 13 := by unfold rounded; omega
  have eP : (2 : ℚ) ^ ((e : Int) - 150) = (2 : ℚ) ^ (-24 : Int) / P := by
    rw [eq_div_iff (by exact_mod_cast hP0.ne'), hP]
    push_cast
    rw [← zpow_natCast, ← zpow_add₀ (by norm_num)]
    congr 1
    push_cast [show e ≤ 126 by omega]
    ring
  have hPq : (0 : ℚ) < P := by exact_mod_cast hP0
  rw [eP, show (r : ℚ) * (2 : ℚ) ^ (-24 : Int) - (2 ^ 23 + m : ℕ) * ((2 : ℚ) ^ (-24 : Int) / P) =
    (((r : ℚ) * P - (2 ^ 23 + m : ℕ)) / P) * (2 : ℚ) ^ (-24 : Int) by field_simp]
  rw [abs_mul, abs_of_pos (by positivity : (0 : ℚ) < (2 : ℚ) ^ (-24 : Int))]
  have : |((r : ℚ) * P - (2 ^ 23 + m : ℕ)) / P| < 1 := by
    rw [abs_div, abs_of_pos hPq, div_lt_one hPq, abs_lt]
    have a1 : ((r * P : ℕ) : ℚ) ≤ ((2 ^ 23 + m + 2 ^ 13 : ℕ) : ℚ) := by exact_mod_cast (by omega)
    have a2 : ((2 ^ 23 + m : ℕ) : ℚ) < ((r + 1) * P : ℕ) := by exact_mod_cast (by omega)
    have a3 : ((2 ^ 14 : ℕ) : ℚ) ≤ P := by exact_mod_cast hP14
    push_cast at a1 a2 a3 ⊢
    constructor <;> linarith
  calc _ < 1 * (2 : ℚ) ^ (-24 : Int) := mul_lt_mul_of_pos_right this (by positivity)
    _ = _ := one_mul _

end Verif.HalfM
