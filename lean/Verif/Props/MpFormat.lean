import Verif.Model.MpFormat
import Mathlib.Data.Nat.Digits.Lemmas

/-! Property theorems for the formatting of multi-precision integers (C144). -/

namespace Verif.MpFormat

/-- C144: a multi-precision integer is formatted like an `int64_t` of the same value. -/
def C144Claim : Prop := ∀ (s : Spec) (n : Int), -2 ^ 63 ≤ n → n < 2 ^ 63 → fmtMpz s n = fmtInt s n

theorem pad_length (s : Spec) (t : List Char) : (pad s t).length = max s.width t.length := by
  unfold pad
  split <;> simp only [List.length_append, List.length_replicate] <;> omega

theorem fmtInt_length (s : Spec) (n : Int) :
    (fmtInt s n).length = max s.width (signText s.sign n ++ altText s n ++ text s.ty.base n.natAbs).length := by
  unfold fmtInt
  split
  · simp only [List.length_append, List.length_replicate]
    omega
  · exact pad_length _ _

/-- With no room to fill, the text is what it would be without a width. -/
theorem fmtInt_narrow (s : Spec) (n : Int) (h : s.width ≤ (signText s.sign n ++ altText s n ++ text s.ty.base n.natAbs).length) :
    fmtInt s n = signText s.sign n ++ altText s n ++ text s.ty.base n.natAbs := by
  unfold fmtInt
  split
  · rw [Nat.sub_eq_zero_of_le h, List.replicate_zero, List.append_nil]
  · unfold pad
    rw [Nat.sub_eq_zero_of_le h]
    split <;> simp

theorem sign_same (s : Sign) (n : Int) (h : s = .minus ∨ n < 0) : signText s n = if n < 0 then ['-'] else [] := by
  unfold signText
  rcases h with rfl | h
  · rfl
  · rw [if_pos h, if_pos h]

theorem sign_more (s : Sign) (n : Int) (h : ¬ (s = .minus ∨ n < 0)) : (signText s n).length = 1 ∧ ¬ n < 0 := by
  push Not at h
  refine ⟨?_, by omega⟩
  unfold signText
  rw [if_neg (by omega)]
  cases s with
  | minus => exact absurd rfl h.1
  | plus => rfl
  | space => rfl

/-- **C144**, decimal: the texts agree exactly if the width is not larger than the number needs and no sign is asked for (or there is one). -/
theorem C144_decimal (s : Spec) (n : Int) (hd : s.ty = .dec) :
    fmtMpz s n = fmtInt s n ↔ s.width ≤ (fmtMpz s n).length ∧ (s.sign = .minus ∨ n < 0) := by
  have ha : altText s n = [] := by unfold altText; rw [hd]; simp
  have hb : s.ty.base = 10 := by rw [hd]; rfl
  constructor
  · intro h
    have hl := congrArg List.length h
    rw [fmtInt_length, ha, hb, List.append_nil] at hl
    refine ⟨by omega, ?_⟩
    by_contra hs
    obtain ⟨h1, h2⟩ := sign_more _ _ hs
    unfold fmtMpz at hl
    rw [if_neg h2] at hl
    simp only [List.length_append, List.length_nil, h1] at hl
    omega
  · rintro ⟨hw, hs⟩
    have e : fmtMpz s n = signText s.sign n ++ altText s n ++ text s.ty.base n.natAbs := by
      rw [ha, hb, List.append_nil, sign_same _ _ hs]
      rfl
    rw [e] at hw ⊢
    exact (fmtInt_narrow s n hw).symm

theorem ofDigits_lt {a b : Nat} (h : a < b) : ∀ l : List Nat, 2 ≤ l.length → (∀ hl : l ≠ [], l.getLast hl ≠ 0) → Nat.ofDigits a l < Nat.ofDigits b l
  | [], h2, _ => by simp at h2
  | [x], h2, _ => by simp at h2
  | [x, y], _, hy => by
    have : 0 < y := Nat.pos_of_ne_zero (hy (by simp))
    simp only [Nat.ofDigits_cons, Nat.ofDigits_nil]
    push_cast
    nlinarith
  | x :: y :: z :: l, _, hy => by
    have ih := ofDigits_lt h (y :: z :: l) (by simp) (fun _ => by have := hy (by simp); simpa using this)
    have e : ∀ c : Nat, Nat.ofDigits c (x :: y :: z :: l) = x + c * Nat.ofDigits c (y :: z :: l) := fun c => by rw [Nat.ofDigits_cons]
    rw [e a, e b]
    have := Nat.mul_lt_mul'' h ih
    omega

theorem digs_lt {b n x : Nat} (hb : 2 ≤ b) (h : x ∈ digs b n) : x < b := by
  unfold digs at h
  split at h
  · simp at h; omega
  · exact Nat.digits_lt_base hb (List.mem_reverse.1 h)

theorem digitChar_inj : ∀ x < 16, ∀ y < 16, Nat.digitChar x = Nat.digitChar y → x = y := by decide

theorem map_inj_lt (f : Nat → Char) (N : Nat) (hf : ∀ x < N, ∀ y < N, f x = f y → x = y) :
    ∀ l m : List Nat, (∀ x ∈ l, x < N) → (∀ x ∈ m, x < N) → l.map f = m.map f → l = m
  | [], [], _, _, _ => rfl
  | [], _ :: _, _, _, h => by simp at h
  | _ :: _, [], _, _, h => by simp at h
  | x :: l, y :: m, h1, h2, h => by
    simp only [List.map_cons, List.cons.injEq] at h
    rw [hf x (h1 x (by simp)) y (h2 y (by simp)) h.1, map_inj_lt f N hf l m (fun x hx => h1 x (by simp [hx])) (fun x hx => h2 x (by simp [hx])) h.2]

/-- The texts of a number in two bases are equal only for numbers with one digit. -/
theorem text_eq_iff {a b n : Nat} (ha : 2 ≤ a) (hb : b ≤ 16) (hab : a < b) : text a n = text b n ↔ n < a := by
  constructor
  · intro h
    have hd := map_inj_lt _ 16 digitChar_inj _ _ (fun x hx => (digs_lt ha hx).trans_le (by omega)) (fun x hx => (digs_lt (by omega) hx).trans_le hb) h
    unfold digs at hd
    by_contra hn
    rw [if_neg (by omega), if_neg (by omega)] at hd
    have hd' : Nat.digits a n = Nat.digits b n := List.reverse_injective hd
    have h2 : 2 ≤ (Nat.digits a n).length := by
      by_contra hl
      have := Nat.lt_base_pow_length_digits (b := a) (m := n) (by omega)
      have h3 : a ^ (Nat.digits a n).length ≤ a ^ 1 := Nat.pow_le_pow_right (by omega) (by omega)
      rw [pow_one] at h3
      omega
    have hlt := ofDigits_lt hab (Nat.digits a n) h2 (fun hl => Nat.getLast_digit_ne_zero a (by omega))
    rw [Nat.ofDigits_digits, hd', Nat.ofDigits_digits] at hlt
    omega
  · intro h
    unfold text digs
    by_cases h0 : n = 0
    · rw [if_pos h0, if_pos h0]
    · rw [if_neg h0, if_neg h0, Nat.digits_of_lt a n h0 h, Nat.digits_of_lt b n h0 (by omega)]

/-- **C144**, other bases without a width: the texts agree exactly for numbers with one digit. -/
theorem C144_bases (n : Int) : (fmtMpz { ty := .bin } n = fmtInt { ty := .bin } n ↔ |n| < 2) ∧ (fmtMpz { ty := .oct } n = fmtInt { ty := .oct } n ↔ |n| < 8) ∧
    (fmtMpz { ty := .hex } n = fmtInt { ty := .hex } n ↔ |n| < 10) := by
  have key : ∀ t : Ty, fmtMpz { ty := t } n = fmtInt { ty := t } n ↔ text 10 n.natAbs = text t.base n.natAbs := by
    intro t
    rw [fmtInt_narrow { ty := t } n (Nat.zero_le _)]
    have h1 : signText Sign.minus n = if n < 0 then ['-'] else [] := sign_same _ _ (.inl rfl)
    have h2 : altText { ty := t } n = [] := by simp [altText]
    simp only [h1, h2, List.append_nil]
    unfold fmtMpz
    rw [List.append_cancel_left_eq]
  refine ⟨(key .bin).trans ?_, (key .oct).trans ?_, (key .hex).trans ?_⟩
  · rw [eq_comm, show Ty.bin.base = 2 from rfl, text_eq_iff (by decide) (by decide) (by decide), ← Int.natCast_natAbs]
    omega
  · rw [eq_comm, show Ty.oct.base = 8 from rfl, text_eq_iff (by decide) (by decide) (by decide), ← Int.natCast_natAbs]
    omega
  · rw [show Ty.hex.base = 16 from rfl, text_eq_iff (by decide) (by decide) (by decide), ← Int.natCast_natAbs]
    omega

theorem C144_false : ¬ C144Claim := by
  intro h
  have := (C144_decimal { width := 2 } 7 rfl).1 (h { width := 2 } 7 (by decide) (by decide))
  exact absurd this.1 (by decide)

/-- **C144** (partial): the empty specification, whatever the number. -/
theorem C144_partial (n : Int) : fmtInt {} n = fmtMpz {} n := ((C144_decimal {} n rfl).2 ⟨Nat.zero_le _, .inl rfl⟩).symm

example : String.ofList (fmtInt { width := 6, sign := .plus } 42) = "   +42" ∧ String.ofList (fmtMpz { width := 6, sign := .plus } 42) = "42" ∧
    String.ofList (fmtInt { ty := .hex, alt := true } 255) = "0xff" ∧ String.ofList (fmtMpz { ty := .hex, alt := true } (-255)) = "-255" ∧
    String.ofList (fmtInt { zero := true, width := 5 } (-42)) = "-0042" := by decide +kernel

end Verif.MpFormat
