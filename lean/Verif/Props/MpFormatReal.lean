import Verif.Model.MpFormatReal
import Verif.Props.MpFormat
import Verif.Props.Multiprec
import Verif.Lemmas.MpConv
import Mathlib.Data.Nat.Prime.Basic
import Mathlib.Algebra.Order.Archimedean.Basic
import Mathlib.Tactic.Linarith
import Mathlib.Tactic.Positivity

/-! Property theorems for the formatting of multi-precision numbers (C148). -/

namespace Verif.MpFormat

open Verif.Ieee Verif.MpConv MpfS

/-- The value of a decimal digit. -/
def dv (c : Char) : ℚ := (c.toNat - 48 : Nat)

/-- The decimals of a text. -/
def decs (t : List Char) : List Char := (t.dropWhile (· != '.')).drop 1

/-- What `{:.kf}` is documented to write, with a width and a sign: decimal digits of a number nearest to `x` with `k` decimals, a point only if
there are decimals, a `+` if asked for, and as many characters as the width says. -/
def Fixed (s : RSpec) (k : Nat) (x : ℚ) (t : List Char) : Prop :=
  (∀ c ∈ t, c.isDigit ∨ c = '.' ∨ c = '-' ∨ c = '+' ∨ c = ' ') ∧ ('.' ∈ t ↔ k ≠ 0) ∧ (decs t).length = k ∧ |value 10 dv t - x| ≤ 1 / (2 * 10 ^ k) ∧
  s.width ≤ t.length ∧ (s.sign = .plus → 0 ≤ x → '+' ∈ t)

/-- C148: with the precision `k`, numbers of the three types are written with `k` decimals, correctly rounded, in the width and with the sign asked
for. -/
def C148Claim : Prop := ∀ (L : Lib) (s : RSpec) (k : Nat) (x : ℚ), s.precision = k →
  Fixed s k x (fmtMpf L s x) ∧ Fixed s k x (fmtMpq L s x) ∧ ∀ prec, Fixed s k x (fmtMpfr prec s x)

theorem dv_digit : ∀ n < 10, dv (Nat.digitChar n) = n := by
  intro n hn
  have : (Nat.digitChar n).toNat - 48 = n := by interval_cases n <;> decide
  unfold dv
  rw [this]

theorem whole_digits (l : List Nat) (h : ∀ d ∈ l, d < 10) : whole 10 dv (l.reverse.map Nat.digitChar) = (Nat.ofDigits 10 l : Nat) := by
  induction l with
  | nil => rfl
  | cons a l ih =>
    rw [List.reverse_cons, List.map_append, Mpf.whole_append, ih fun d hd => h d (by simp [hd]), Nat.ofDigits_cons]
    have := dv_digit a (h a (by simp))
    simp only [List.map_cons, List.map_nil, List.length_singleton, whole, List.foldl_cons, List.foldl_nil, this]
    push_cast
    ring

theorem whole_text (n : Nat) : whole 10 dv (text 10 n) = n := by
  unfold text digs
  split
  · next h => subst h; exact whole_digits [0] (by simp)
  · rw [whole_digits _ fun d hd => Nat.digits_lt_base (by norm_num) hd, Nat.ofDigits_digits]

theorem text_digit (n : Nat) : ∀ c ∈ text 10 n, c.isDigit := by
  intro c hc
  unfold text at hc
  obtain ⟨d, hd, rfl⟩ := List.mem_map.1 hc
  have := digs_lt (by norm_num) hd
  interval_cases d <;> decide

theorem text_length_le {k n : Nat} (hk : k ≠ 0) (h : n < 10 ^ k) : (text 10 n).length ≤ k := by
  unfold text digs
  rw [List.length_map]
  split
  · simp; omega
  · next hn =>
    rw [List.length_reverse]
    exact (Nat.digits_length_le_iff (by norm_num) _).2 h

theorem places_length {k n : Nat} (hk : k ≠ 0) (h : n < 10 ^ k) : (places k n).length = k := by
  have := text_length_le hk h
  unfold places
  rw [List.length_append, List.length_replicate]
  omega

theorem places_digit (k n : Nat) : ∀ c ∈ places k n, c.isDigit := by
  intro c hc
  unfold places at hc
  rcases List.mem_append.1 hc with h | h
  · rw [List.eq_of_mem_replicate h]; decide
  · exact text_digit _ c h

theorem whole_places (k n : Nat) : whole 10 dv (places k n) = n := by
  unfold places
  rw [Mpf.whole_append, Mpf.whole_zeros _ _ (by show ((('0'.toNat - 48 : Nat)) : ℚ) = 0; rw [show '0'.toNat - 48 = 0 by decide]; rfl), whole_text]
  simp

theorem point_not (l : List Char) (h : ∀ c ∈ l, c.isDigit) : '.' ∉ l := fun hc => absurd (h _ hc) (by decide)
theorem minus_not (l : List Char) (h : ∀ c ∈ l, c.isDigit) : '-' ∉ l := fun hc => absurd (h _ hc) (by decide)

theorem text_ne (n : Nat) : text 10 n ≠ [] := by
  unfold text digs
  split
  · simp
  · next h => simp [Nat.digits_eq_nil_iff_eq_zero, h]

/-- A text of digits does not begin with a minus sign. -/
theorem value_unsigned (i r : List Char) (hi : ∀ c ∈ i, c.isDigit) (h0 : i ≠ []) : value 10 dv (i ++ r) = unsigned 10 dv (i ++ r) := by
  obtain ⟨a, l, rfl⟩ := List.exists_cons_of_ne_nil h0
  have ha : a ≠ '-' := fun h => absurd (h ▸ hi a (by simp)) (by decide)
  unfold value
  rw [List.cons_append]
  split
  · next h => exact absurd (List.cons.inj h).1 ha
  · rfl

theorem decs_point (i f : List Char) (hi : '.' ∉ i) : decs (i ++ ['.'] ++ f) = f := by
  unfold decs
  have h2 : (i ++ ['.'] ++ f).dropWhile (· != '.') = '.' :: f := by
    rw [List.append_assoc, List.dropWhile_append_of_pos (by intro a ha; simp; rintro rfl; exact hi ha)]
    simp
  rw [h2]
  rfl

/-- Fixed notation: its characters, its decimals and its value. -/
theorem fixedText_spec (neg : Bool) (k a : Nat) (hk : k ≠ 0) :
    (∀ c ∈ fixedText neg k a, c.isDigit ∨ c = '.' ∨ c = '-') ∧ '.' ∈ fixedText neg k a ∧ (decs (fixedText neg k a)).length = k ∧
    value 10 dv (fixedText neg k a) = (if neg then -1 else 1) * (a : ℚ) / 10 ^ k := by
  have hm : a % 10 ^ k < 10 ^ k := Nat.mod_lt _ (by positivity)
  have hl := places_length hk hm
  have hu : unsigned 10 dv (text 10 (a / 10 ^ k) ++ (['.'] ++ places k (a % 10 ^ k))) = (a : ℚ) / 10 ^ k := by
    rw [← List.append_assoc, Mpf.unsigned_point _ _ _ _ (point_not _ (text_digit _)), whole_text, whole_places, hl]
    have h10 : ((10 : ℚ) ^ k) ≠ 0 := by positivity
    field_simp
    have := Nat.div_add_mod a (10 ^ k)
    rw [mul_comm] at this
    exact_mod_cast this
  refine ⟨?_, ?_, ?_, ?_⟩
  · intro c hc
    unfold fixedText at hc
    rw [if_neg hk] at hc
    rcases List.mem_append.1 hc with h | h
    · cases neg <;> simp at h
      exact .inr (.inr h)
    · rcases List.mem_append.1 h with h | h
      · exact .inl (text_digit _ c h)
      · rcases List.mem_append.1 h with h | h
        · exact .inr (.inl (by simpa using h))
        · exact .inl (places_digit _ _ c h)
  · unfold fixedText
    rw [if_neg hk]
    simp
  · unfold fixedText
    rw [if_neg hk, ← List.append_assoc, ← List.append_assoc, decs_point, hl]
    intro h
    rcases List.mem_append.1 h with h | h
    · cases neg <;> simp at h
    · exact point_not _ (text_digit _) h
  · unfold fixedText
    rw [if_neg hk]
    cases neg with
    | false =>
      simp only [Bool.false_eq_true, if_false, List.nil_append, one_mul]
      rw [value_unsigned _ _ (text_digit _) (text_ne _), hu]
    | true =>
      simp only [if_true, List.cons_append, List.nil_append]
      show -unsigned _ _ _ = _
      have := hu
      simp only [List.cons_append, List.nil_append] at this
      rw [this]
      ring

/-- What the streams write in fixed notation. -/
theorem stream_spec (near : ℚ → Int) (hc : ∀ x, |(near x : ℚ) - x| ≤ 1 / 2) (hp : ∀ x, 0 ≤ x → 0 ≤ near x) (hn : ∀ x, x ≤ 0 → near x ≤ 0)
    (k : Nat) (hk : k ≠ 0) (x : ℚ) :
    (∀ c ∈ stream near k x, c.isDigit ∨ c = '.' ∨ c = '-') ∧ '.' ∈ stream near k x ∧ (decs (stream near k x)).length = k ∧
    |value 10 dv (stream near k x) - x| ≤ 1 / (2 * 10 ^ k) := by
  obtain ⟨h1, h2, h3, h4⟩ := fixedText_spec (decide (x < 0)) k (near (x * 10 ^ k)).natAbs hk
  refine ⟨h1, h2, h3, ?_⟩
  have h10 : (0 : ℚ) < 10 ^ k := by positivity
  have e : value 10 dv (stream near k x) = (near (x * 10 ^ k) : ℚ) / 10 ^ k := by
    unfold stream
    rw [h4]
    congr 1
    by_cases h : x < 0
    · have := hn (x * 10 ^ k) (by nlinarith)
      rw [decide_eq_true h, if_pos rfl, Nat.cast_natAbs, abs_of_nonpos this]
      push_cast
      ring
    · have := hp (x * 10 ^ k) (by nlinarith)
      rw [decide_eq_false h, if_neg (by simp), Nat.cast_natAbs, abs_of_nonneg this]
      ring
  rw [e]
  have := hc (x * 10 ^ k)
  have e2 : (near (x * 10 ^ k) : ℚ) / 10 ^ k - x = (near (x * 10 ^ k) - x * 10 ^ k) / 10 ^ k := by field_simp
  rw [e2, abs_div, abs_of_pos h10, div_le_div_iff₀ h10 (by positivity)]
  nlinarith

/-- **C148**, `mpf` and `mpfr`: with a precision of one or more the text has that many decimals and is a number nearest to `x`. Missing: the width,
the sign and the precision 0, see below. -/
theorem C148_partial (L : Lib) (s : RSpec) (prec k : Nat) (x : ℚ) (hs : s.precision = k) (hk : k ≠ 0) (t : List Char)
    (ht : t = fmtMpf L s x ∨ t = fmtMpfr prec s x) :
    (∀ c ∈ t, c.isDigit ∨ c = '.' ∨ c = '-') ∧ '.' ∈ t ∧ (decs t).length = k ∧ |value 10 dv t - x| ≤ 1 / (2 * 10 ^ k) := by
  have h1 : ¬ s.precision < 1 := by omega
  have h2 : s.precision.toNat = k := by omega
  rcases ht with rfl | rfl
  · unfold fmtMpf
    rw [if_neg h1, h2]
    exact stream_spec _ L.near_close L.near_pos L.near_neg k hk x
  · unfold fmtMpfr
    rw [if_neg h1, h2]
    exact stream_spec _ rne_close (fun x h => int_le_rne (by exact_mod_cast h)) (fun x h => rne_le_int (by exact_mod_cast h)) k hk x

/-- **C148**, `mpq` and expressions: as much, but the error is that of the `mpf` made of the number besides; there is none if `mpf` holds the number. -/
theorem C148_mpq_partial (L : Lib) (s : RSpec) (k : Nat) (x : ℚ) (hs : s.precision = k) (hk : k ≠ 0) (t : List Char)
    (ht : t = fmtMpq L s x ∨ t = fmtExpr L s x) :
    (∀ c ∈ t, c.isDigit ∨ c = '.' ∨ c = '-') ∧ '.' ∈ t ∧ (decs t).length = k ∧
    |value 10 dv t - x| ≤ 1 / (2 * 10 ^ k) + (2 : ℚ) ^ (1 - (L.gmp.bits : Int)) * |x| ∧
    (Short L.gmp.bits x → |value 10 dv t - x| ≤ 1 / (2 * 10 ^ k)) := by
  have h1 : ¬ s.precision < 1 := by omega
  have h2 : s.precision.toNat = k := by omega
  have e : t = stream L.near k (L.gmp.store x) := by
    rcases ht with rfl | rfl
    · unfold fmtMpq; rw [if_neg h1, h2]
    · unfold fmtExpr fmtMpf; rw [if_neg h1, h2]
  subst e
  obtain ⟨a, b, c, d⟩ := stream_spec _ L.near_close L.near_pos L.near_neg k hk (L.gmp.store x)
  refine ⟨a, b, c, ?_, fun h => ?_⟩
  · have := L.gmp.store_close x
    have h3 := abs_sub_le (value 10 dv (stream L.near k (L.gmp.store x))) (L.gmp.store x) x
    linarith
  · rw [L.gmp.store_exact x h] at d ⊢
    exact d

/-- A third is not a sum of powers of two. -/
theorem third_ne {b : Nat} {y : ℚ} (h : Short b y) : y ≠ 1 / 3 := by
  rintro rfl
  obtain ⟨m, e, _, h⟩ := h
  rcases le_or_gt 0 e with he | he
  · lift e to Nat using he
    rw [zpow_natCast] at h
    have : (1 : ℚ) = (m * 2 ^ e * 3 : Int) := by push_cast; linarith
    have : (1 : Int) = m * 2 ^ e * 3 := by exact_mod_cast this
    omega
  · obtain ⟨n, rfl⟩ : ∃ n : Nat, e = -n := ⟨e.natAbs, by omega⟩
    rw [zpow_neg, zpow_natCast, ← div_eq_mul_inv, div_eq_div_iff (by norm_num) (by positivity), one_mul] at h
    have h' : (2 : Int) ^ n = m * 3 := by exact_mod_cast h
    have : (3 : Int) ∣ 2 ^ n := ⟨m, by rw [h']; ring⟩
    have h3 : (3 : Nat) ∣ 2 ^ n := by exact_mod_cast this
    have := Nat.Prime.dvd_of_dvd_pow Nat.prime_three h3
    omega

/-- **C148** fails for the later decimals of an `mpq`: whatever the precision of `mpf`, there is a number of decimals from which on the text of a
third is not the nearest one. -/
theorem C148_mpq_false (L : Lib) : ∃ K : Nat, ∀ k : Nat, K ≤ k → ∀ s : RSpec, s.precision = k → ¬ |value 10 dv (fmtMpq L s (1 / 3)) - 1 / 3| ≤ 1 / (2 * 10 ^ k) := by
  have hne := third_ne (L.gmp.store_short (1 / 3))
  have hpos : 0 < |L.gmp.store (1 / 3) - 1 / 3| := abs_pos.2 (sub_ne_zero.2 hne)
  obtain ⟨K, hK⟩ := exists_nat_gt (1 / |L.gmp.store (1 / 3) - 1 / 3|)
  refine ⟨K + 1, fun k hk s hs h => ?_⟩
  have h1 : ¬ s.precision < 1 := by omega
  have h2 : s.precision.toNat = k := by omega
  unfold fmtMpq at h
  rw [if_neg h1, h2] at h
  obtain ⟨-, -, -, d⟩ := stream_spec _ L.near_close L.near_pos L.near_neg k (by omega) (L.gmp.store (1 / 3))
  have h3 := abs_sub_le (L.gmp.store (1 / 3)) (value 10 dv (stream L.near k (L.gmp.store (1 / 3)))) (1 / 3)
  rw [abs_sub_comm (L.gmp.store (1 / 3)) (value _ _ _)] at h3
  have h4 : |L.gmp.store (1 / 3) - 1 / 3| ≤ 1 / 10 ^ k := by
    have e : (1 : ℚ) / (2 * 10 ^ k) + 1 / (2 * 10 ^ k) = 1 / 10 ^ k := by field_simp; norm_num
    linarith
  have h5 : (K : ℚ) < 10 ^ k := by
    have : K < 10 ^ k := lt_of_lt_of_le (Nat.lt_pow_self (by norm_num)) (Nat.pow_le_pow_right (by norm_num) (by omega))
    exact_mod_cast this
  have h6 : 1 / |L.gmp.store (1 / 3) - 1 / 3| < 10 ^ k := hK.trans h5
  rw [div_lt_iff₀ hpos] at h6
  rw [le_div_iff₀ (by positivity)] at h4
  linarith [mul_comm ((10 : ℚ) ^ k) |L.gmp.store (1 / 3) - 1 / 3|]

theorem str_point (r : List Char) (e : Int) : '.' ∈ Mpf.str r e := by
  unfold Mpf.str
  dsimp only
  split_ifs <;> simp

/-- **C148** fails for the precision 0, which rounds to integers: an `mpf` is written with a point, an `mpq` that is not an integer as a fraction,
an `mpfr` of four bits or more with as many decimals as if no precision were given. -/
theorem C148_zero_false (L : Lib) (s : RSpec) (hs : s.precision = 0) (x : ℚ) :
    '.' ∈ fmtMpf L s x ∧ ('/' ∈ fmtMpq L s x ↔ x.den ≠ 1) ∧ ∀ prec ≥ 4, (decs (fmtMpfr prec s x)).length = decimals prec (-1) ∧ decimals prec (-1) ≠ 0 := by
  have h1 : s.precision < 1 := by omega
  refine ⟨?_, ?_, fun prec hp => ?_⟩
  · unfold fmtMpf; rw [if_pos h1]; exact str_point _ _
  · unfold fmtMpq strMpq
    rw [if_pos h1]
    have h0 : ∀ n, '/' ∉ text 10 n := fun n hc => absurd (text_digit n _ hc) (by decide)
    constructor
    · intro h hd
      rw [if_pos hd, List.append_nil] at h
      rcases List.mem_append.1 h with h | h
      · split at h <;> simp at h
      · exact h0 _ h
    · intro hd
      rw [if_neg hd]
      simp
  · have hd : decimals prec (-1) ≠ 0 := by
      have e : decimals prec (-1) = prec * 30102999566398119521 / 10 ^ 20 := rfl
      omega
    refine ⟨?_, hd⟩
    unfold fmtMpfr strOfMpfr
    rw [if_pos h1]
    exact (fixedText_spec _ _ _ hd).2.2.1

/-- **C148** fails for widths: there is one that the text does not fill. -/
theorem C148_width_false (L : Lib) (p : Int) (prec : Nat) (x : ℚ) :
    ∃ w, (fmtMpf L { precision := p, width := w } x).length < w ∧ (fmtMpq L { precision := p, width := w } x).length < w ∧
      (fmtMpfr prec { precision := p, width := w } x).length < w :=
  ⟨(fmtMpf L { precision := p } x).length + (fmtMpq L { precision := p } x).length + (fmtMpfr prec { precision := p } x).length + 1,
    by show (fmtMpf L { precision := p } x).length < _; omega, by show (fmtMpq L { precision := p } x).length < _; omega,
    by show (fmtMpfr prec { precision := p } x).length < _; omega⟩

/-- **C148** fails for signs: with a precision no text has a plus sign. -/
theorem C148_sign_false (L : Lib) (s : RSpec) (k prec : Nat) (x : ℚ) (hs : s.precision = k) (hk : k ≠ 0) :
    '+' ∉ fmtMpf L s x ∧ '+' ∉ fmtMpq L s x ∧ '+' ∉ fmtMpfr prec s x := by
  refine ⟨fun h => ?_, fun h => ?_, fun h => ?_⟩
  · exact absurd ((C148_partial L s prec k x hs hk _ (.inl rfl)).1 _ h) (by decide)
  · exact absurd ((C148_mpq_partial L s k x hs hk _ (.inl rfl)).1 _ h) (by decide)
  · exact absurd ((C148_partial L s prec k x hs hk _ (.inr rfl)).1 _ h) (by decide)

/-- Libraries that meet the assumptions. -/
def lib (b d : Nat) (hb : 2 ≤ b) (hd : 1 ≤ d) : Lib where
  gmp := gmp b d hb hd
  near := rne
  near_close := rne_close
  near_pos := fun _ h => int_le_rne (by exact_mod_cast h)
  near_neg := fun _ h => rne_le_int (by exact_mod_cast h)
  getStr := fun x => ((if x < 0 then ['-'] else []) ++ text 10 (rne x).natAbs, (text 10 (rne x).natAbs).length)

theorem C148_false : ¬ C148Claim := fun h => by
  obtain ⟨K, hK⟩ := C148_mpq_false (lib 64 19 (by decide) (by decide))
  exact hK K le_rfl { precision := K } rfl (h (lib 64 19 (by decide) (by decide)) { precision := K } K (1 / 3) rfl).2.1.2.2.2.1

/-- The hypotheses of the partial theorems are met, also by a negative number that is rounded to zero. -/
example : |value 10 dv (fmtMpfr 53 { precision := 2 } (-1 / 1000)) - (-1 / 1000)| ≤ 1 / (2 * 10 ^ 2) ∧
    String.ofList (fmtMpfr 53 { precision := 2 } (-1 / 1000)) = "-0.00" ∧ String.ofList (fmtMpfr 53 { precision := 2 } (1999 / 1000)) = "2.00" ∧
    String.ofList (fmtMpfr 53 { precision := 0 } (5 / 2)) = "2.500000000000000" ∧ String.ofList (strMpq (-7 / 2)) = "-7/2" :=
  ⟨(C148_partial (lib 64 19 (by decide) (by decide)) _ 53 2 _ rfl (by decide) _ (.inr rfl)).2.2.2, by decide +kernel, by decide +kernel, by decide +kernel,
    by decide +kernel⟩

/-- An expression over integers that `mpf` holds, formatted without a precision: the text has a point, which no text of an integer has. -/
theorem C148_expr_false (L : Lib) (z : Int) : '.' ∈ fmtExpr L {} z ∧ '.' ∉ fmtMpz {} z := by
  refine ⟨str_point _ _, fun h => ?_⟩
  unfold fmtMpz at h
  rcases List.mem_append.1 h with h | h
  · split at h <;> simp at h
  · exact point_not _ (text_digit _) h

end Verif.MpFormat
