import Verif.Model.Multiprec
import Verif.Spec.Multiprec
import Mathlib.Tactic.Ring
import Mathlib.Tactic.FieldSimp
import Mathlib.Tactic.NormNum

/-!
# C57: text of a multi-precision float
-/

namespace Verif.Mpf

open MpfS

theorem whole_append (b : ℚ) (dv : Char → ℚ) (s t : List Char) :
    whole b dv (s ++ t) = whole b dv s * b ^ t.length + whole b dv t := by
  unfold whole
  rw [List.foldl_append]
  generalize s.foldl (fun a c => a * b + dv c) 0 = a
  have : ∀ (t : List Char) (a : ℚ), t.foldl (fun a c => a * b + dv c) a =
      a * b ^ t.length + t.foldl (fun a c => a * b + dv c) 0 := by
    intro t
    induction t with
    | nil => intro a; simp
    | cons c t ih =>
      intro a
      rw [List.foldl_cons, List.foldl_cons, ih, ih (0 * b + dv c), List.length_cons, pow_succ]
      ring
  exact this t a

theorem whole_zeros (b : ℚ) (dv : Char → ℚ) (h0 : dv '0' = 0) (n : Nat) : whole b dv (List.replicate n '0') = 0 := by
  unfold whole
  induction n with
  | zero => rfl
  | succ n ih => rw [List.replicate_succ, List.foldl_cons, h0]; simpa using ih

theorem unsigned_point (b : ℚ) (dv : Char → ℚ) (i f : List Char) (hi : '.' ∉ i) :
    unsigned b dv (i ++ ['.'] ++ f) = whole b dv i + whole b dv f / b ^ f.length := by
  unfold unsigned
  have h1 : (i ++ ['.'] ++ f).takeWhile (· != '.') = i := by
    rw [List.append_assoc, List.takeWhile_append_of_pos (by intro a ha; simp; rintro rfl; exact hi ha)]
    simp
  have h2 : (i ++ ['.'] ++ f).dropWhile (· != '.') = '.' :: f := by
    rw [List.append_assoc, List.dropWhile_append_of_pos (by intro a ha; simp; rintro rfl; exact hi ha)]
    simp
  rw [h1, h2]
  simp

/-- The part after the sign. -/
def body (res : List Char) (exp : Int) : List Char × List Char :=
  if 0 < exp then
    let res := if res.length ≤ exp.toNat then res ++ List.replicate (exp.toNat - res.length + 1) '0' else res
    (res.take exp.toNat, res.drop exp.toNat)
  else (['0'], List.replicate (-exp).toNat '0' ++ res)

theorem str_body (neg : Bool) (d : List Char) (hd : '-' ∉ d) (exp : Int) :
    str ((if neg then ['-'] else []) ++ d) exp =
      (if neg then ['-'] else []) ++ ((body d exp).1 ++ ['.'] ++ (body d exp).2) := by
  have hr : ∀ n : Int, ¬ 0 < n → (-n + 1).toNat = (-n).toNat + 1 := by intro n hn; omega
  unfold str body
  cases neg with
  | true =>
    by_cases he : 0 < exp
    · simp [he]
    · simp [he, hr exp he, List.replicate_succ]
  | false =>
    have hh : (d.head? == some '-') = false := by
      cases d with
      | nil => rfl
      | cons c d =>
        simp only [List.mem_cons, not_or] at hd
        simp [Ne.symm hd.1]
    by_cases he : 0 < exp
    · simp [he, hh]
    · simp [he, hh, hr exp he, List.replicate_succ]

theorem body_value (b : ℚ) (hb : b ≠ 0) (dv : Char → ℚ) (h0 : dv '0' = 0) (d : List Char) (exp : Int) :
    whole b dv (body d exp).1 + whole b dv (body d exp).2 / b ^ (body d exp).2.length =
      whole b dv d / b ^ d.length * b ^ exp := by
  by_cases he : 0 < exp
  · obtain ⟨e, rfl⟩ := Int.eq_ofNat_of_zero_le he.le
    have key : ∀ r : List Char, e ≤ r.length →
        whole b dv (r.take e) + whole b dv (r.drop e) / b ^ (r.drop e).length = whole b dv r / b ^ r.length * b ^ (e : Int) := by
      intro r hr
      have h1 := whole_append b dv (r.take e) (r.drop e)
      rw [List.take_append_drop] at h1
      have h2 : r.length = (r.drop e).length + e := by simp; omega
      rw [h1, h2, pow_add, zpow_natCast]
      field_simp
    unfold body
    rw [if_pos he]
    dsimp only
    by_cases hl : d.length ≤ e
    · rw [if_pos (show d.length ≤ (e : Int).toNat by simpa using hl)]
      have h3 := key (d ++ List.replicate (e - d.length + 1) '0') (by simp; omega)
      simp only [Int.ofNat_eq_natCast, Int.toNat_natCast] at h3 ⊢
      rw [h3, whole_append, whole_zeros b dv h0, List.length_append, pow_add]
      have h4 : b ^ (List.replicate (e - d.length + 1) '0').length ≠ 0 := pow_ne_zero _ hb
      field_simp
      simp
    · rw [if_neg (show ¬ d.length ≤ (e : Int).toNat by simpa using hl)]
      exact key d (by omega)
  · obtain ⟨e, rfl⟩ : ∃ e : Nat, exp = -(e : Int) := ⟨(-exp).toNat, by omega⟩
    unfold body
    rw [if_neg he]
    simp only [neg_neg, Int.toNat_natCast]
    rw [whole_append, whole_zeros b dv h0]
    have : whole b dv ['0'] = 0 := whole_zeros b dv h0 1
    rw [this, List.length_append, List.length_replicate, pow_add, zpow_neg, zpow_natCast]
    field_simp
    ring

/-- **C57.** For every sign, digits, exponent and base (and whatever the digits are worth), the text denotes
`± 0.digits · base ^ exp`, it is an optional sign followed by digits, one point and digits, and there is a digit before the point. -/
theorem C57_mpf_text (neg : Bool) (d : List Char) (hd : '-' ∉ d) (hp : '.' ∉ d) (exp : Int) (b : ℚ) (hb : b ≠ 0)
    (dv : Char → ℚ) (h0 : dv '0' = 0) :
    let text := str ((if neg then ['-'] else []) ++ d) exp
    value b dv text = (if neg then -1 else 1) * (whole b dv d / b ^ d.length) * b ^ exp ∧
    ∃ i f, text = (if neg then ['-'] else []) ++ (i ++ ['.'] ++ f) ∧ i ≠ [] ∧ ∀ c ∈ i ++ f, c = '0' ∨ c ∈ d := by
  intro text
  have ht : text = (if neg then ['-'] else []) ++ ((body d exp).1 ++ ['.'] ++ (body d exp).2) := str_body neg d hd exp
  have hmem : ∀ c ∈ (body d exp).1 ++ (body d exp).2, c = '0' ∨ c ∈ d := by
    intro c hc
    unfold body at hc
    split at hc
    · simp only [List.take_append_drop] at hc
      split at hc
      · rcases List.mem_append.1 hc with h | h
        · exact Or.inr h
        · exact Or.inl (List.eq_of_mem_replicate h)
      · exact Or.inr hc
    · simp only [List.cons_append, List.nil_append, List.mem_cons, List.mem_append] at hc
      rcases hc with h | h | h
      · exact Or.inl h
      · exact Or.inl (List.eq_of_mem_replicate h)
      · exact Or.inr h
  have hne : (body d exp).1 ≠ [] := by
    unfold body
    split
    · rename_i he
      intro hc
      have := congrArg List.length hc
      dsimp only at this
      rw [List.length_take] at this
      split at this
      · rw [List.length_append, List.length_replicate, List.length_nil] at this; omega
      · rw [List.length_nil] at this; omega
    · simp
  have hdot : '.' ∉ (body d exp).1 := by
    intro hc
    rcases hmem '.' (List.mem_append_left _ hc) with h | h
    · exact absurd h (by decide)
    · exact hp h
  refine ⟨?_, (body d exp).1, (body d exp).2, ht, hne, hmem⟩
  rw [ht]
  cases neg with
  | true =>
    show -unsigned b dv ((body d exp).1 ++ ['.'] ++ (body d exp).2) = _
    rw [unsigned_point b dv _ _ hdot, body_value b hb dv h0]
    simp only [if_true]
    ring
  | false =>
    have hm : ∀ s : List Char, s.head? ≠ some '-' → value b dv s = unsigned b dv s := by
      intro s hs
      unfold value
      split
      · simp at hs
      · rfl
    simp only [Bool.false_eq_true, if_false, List.nil_append]
    rw [hm, unsigned_point b dv _ _ hdot, body_value b hb dv h0]
    · ring
    · intro hc
      cases hb1 : (body d exp).1 with
      | nil => exact hne hb1
      | cons c i =>
        rw [hb1] at hc
        simp only [List.cons_append, List.head?_cons, Option.some.injEq] at hc
        subst hc
        rcases hmem '-' (by rw [hb1]; simp) with h | h
        · exact absurd h (by decide)
        · exact hd h

/-- Padding on either side, a point inside, and zero. -/
example : str "-314".toList 1 = "-3.14".toList ∧ str "25".toList 4 = "2500.0".toList ∧ str "5".toList (-2) = "0.005".toList ∧
    str [] 0 = "0.".toList ∧ str "12".toList 2 = "12.0".toList := by decide

/-- The hypotheses are met by decimal digits. -/
example : '-' ∉ "314".toList ∧ '.' ∉ "314".toList ∧ (10 : ℚ) ≠ 0 ∧ (fun c : Char => ((c.toNat : ℚ) - 48)) '0' = 0 := by
  refine ⟨by decide, by decide, by norm_num, ?_⟩
  have : '0'.toNat = 48 := rfl
  simp only [this]
  norm_num

end Verif.Mpf
