import Verif.Model.MpScan
import Verif.Props.MpFormatReal

/-! Property theorems for the reading of multi-precision numbers (C149). -/

namespace Verif.MpScan

open Verif.MpFormat (text fmtMpz digs dv text_digit text_ne)
open MpfS (value whole)

/-- Text that ends a word. -/
def Ends (rest : List Char) : Prop := rest = [] ∨ ∃ c cs, rest = c :: cs ∧ isSpace c

/-- Texts of decimal digits, with or without a sign. -/
def Decimal (w : List Char) : Prop := ∃ neg : Bool, ∃ d, w = (if neg then ['-'] else []) ++ d ∧ d ≠ [] ∧ ∀ c ∈ d, c.isDigit

/-- C149: scanning the decimal digits of a number gives that number; text that is no number is reported as an error; fractions of the same value are
equal. -/
def C149Claim : Prop :=
  (∀ ws w rest : List Char, (∀ c ∈ ws, isSpace c) → Ends rest → Decimal w → ∃ z : Int, value 10 dv w = z ∧ scanMpz (ws ++ w ++ rest) = .value z rest) ∧
  (∀ t, scanMpz t ≠ .throws) ∧
  ∀ s t p q, scanMpq s = .value p [] → scanMpq t = .value q [] → p.2 ≠ 0 → q.2 ≠ 0 → (p.1 : ℚ) / p.2 = q.1 / q.2 → eqMpq p q

theorem digit_isDigit (b : Nat) (hb : b ≤ 10) (c : Char) (h : c.isDigit) : digit b c = if c.toNat - 48 < b then some (c.toNat - 48) else none := by
  have h1 : '0' ≤ c ∧ c ≤ '9' := by
    simp only [Char.isDigit, ge_iff_le, Bool.and_eq_true, decide_eq_true_eq] at h
    exact ⟨h.1, h.2⟩
  unfold digit
  dsimp only
  rw [if_pos h1]

theorem isDigit_lt (c : Char) (h : c.isDigit) : c.toNat - 48 < 10 := by
  simp only [Char.isDigit, ge_iff_le, Bool.and_eq_true, decide_eq_true_eq] at h
  have h2 : c.val.toNat ≤ '9'.val.toNat := h.2
  have h3 : ('9' : Char).val.toNat = 57 := by decide
  have : c.toNat = c.val.toNat := rfl
  omega

/-- Digits of a base up to ten are read as the positional notation says. -/
theorem digits_value (b : Nat) (hb : b ≤ 10) (cs : List Char) (h : ∀ c ∈ cs, c.isDigit ∧ c.toNat - 48 < b) (a : Nat) :
    digits b a cs = some (cs.foldl (fun a c => a * b + (c.toNat - 48)) a) := by
  induction cs generalizing a with
  | nil => rfl
  | cons c cs ih =>
    obtain ⟨h1, h2⟩ := h c (by simp)
    unfold digits
    rw [digit_isDigit b hb c h1, if_pos h2]
    exact ih (fun c hc => h c (by simp [hc])) _

theorem fold_cast (b : Nat) (cs : List Char) (a : Nat) :
    ((cs.foldl (fun a c => a * b + (c.toNat - 48)) a : Nat) : ℚ) = cs.foldl (fun x c => x * (b : ℚ) + dv c) (a : ℚ) := by
  induction cs generalizing a with
  | nil => rfl
  | cons c cs ih =>
    rw [List.foldl_cons, List.foldl_cons, ih]
    congr 1
    unfold dv
    push_cast
    ring

theorem digits_whole (b : Nat) (hb : b ≤ 10) (cs : List Char) (h : ∀ c ∈ cs, c.isDigit ∧ c.toNat - 48 < b) :
    ∃ n : Nat, digits b 0 cs = some n ∧ (n : ℚ) = whole b dv cs :=
  ⟨_, digits_value b hb cs h 0, by rw [fold_cast]; simp [whole]⟩

/-- A text of digits without a leading zero is read in base ten. -/
theorem unsignedZ_ten (d : List Char) (h0 : d.head? ≠ some '0') (hne : d ≠ []) : unsignedZ d = digits 10 0 d := by
  obtain ⟨c, cs, rfl⟩ := List.exists_cons_of_ne_nil hne
  have hc : c ≠ '0' := fun h => h0 (by simp [h])
  unfold unsignedZ
  split <;> first | rfl | (next h => exact absurd (List.cons.inj h).1 hc)

/-- A text of digits with a leading zero is read in base eight. -/
theorem unsignedZ_eight (d : List Char) (hd : ∀ c ∈ d, c.isDigit) : unsignedZ ('0' :: d) = digits 8 0 d := by
  have hx : ∀ c, c.isDigit = false → ∀ cs, d ≠ c :: cs := fun c hc cs h => by
    have := hd c (by rw [h]; simp)
    rw [hc] at this
    exact absurd this (by simp)
  unfold unsignedZ
  split
  · next h => exact absurd (List.cons.inj h).2 (hx 'x' (by decide) _)
  · next h => exact absurd (List.cons.inj h).2 (hx 'X' (by decide) _)
  · next h => exact absurd (List.cons.inj h).2 (hx 'b' (by decide) _)
  · next h => exact absurd (List.cons.inj h).2 (hx 'B' (by decide) _)
  · next h => rw [(List.cons.inj h).2]
  · next h => exact absurd rfl (h d)

theorem isDigit_not_space (c : Char) (h : c.isDigit ∨ c = '-' ∨ c = '/') : isSpace c = false := by
  by_contra hs
  rw [Bool.not_eq_false] at hs
  unfold isSpace at hs
  simp only [Bool.or_eq_true, beq_iff_eq] at hs
  rcases hs with (rfl | rfl) | rfl <;> exact absurd h (by decide)

theorem drop_spaces (ws t : List Char) (h : ∀ c ∈ ws, isSpace c) (ht : ∀ c, t.head? = some c → isSpace c = false) : (ws ++ t).dropWhile isSpace = t := by
  rw [List.dropWhile_append_of_pos (by simpa using h)]
  cases t with
  | nil => rfl
  | cons c cs => rw [List.dropWhile_cons_of_neg (by simp [ht c rfl])]

/-- A word between white space is what the number is made of. -/
theorem scan_word {α : Type} (make : List Char → Option α) (ws w rest : List Char) (hws : ∀ c ∈ ws, isSpace c) (hr : Ends rest) (hw : w ≠ [])
    (hs : ∀ c ∈ w, isSpace c = false) :
    scan make (ws ++ w ++ rest) = match make w with
      | some v => .value v rest
      | none => .throws := by
  obtain ⟨c, cs, rfl⟩ := List.exists_cons_of_ne_nil hw
  unfold scan
  have h1 : (ws ++ (c :: cs) ++ rest).dropWhile isSpace = c :: (cs ++ rest) := by
    rw [List.append_assoc]
    exact drop_spaces _ _ hws (fun x hx => by simp at hx; subst hx; exact hs _ (by simp))
  have h2 : (c :: (cs ++ rest)).takeWhile (! isSpace ·) = c :: cs := by
    rw [← List.cons_append, List.takeWhile_append_of_pos (by intro x hx; simp [hs x hx])]
    rcases hr with rfl | ⟨x, xs, rfl, hx⟩
    · simp
    · simp [hx]
  have h3 : (c :: (cs ++ rest)).dropWhile (! isSpace ·) = rest := by
    rw [← List.cons_append, List.dropWhile_append_of_pos (by intro x hx; simp [hs x hx])]
    rcases hr with rfl | ⟨x, xs, rfl, hx⟩
    · rfl
    · simp [hx]
  rw [h1]
  simp only [h2, h3]
  cases make (c :: cs) <;> rfl

theorem take_all (p : Char → Bool) (l : List Char) (h : ∀ c ∈ l, p c = true) : l.takeWhile p = l := by
  have := List.takeWhile_append_of_pos (l₂ := []) h
  simpa using this

theorem drop_all (p : Char → Bool) (l : List Char) (h : ∀ c ∈ l, p c = true) : l.dropWhile p = [] := by
  have := List.dropWhile_append_of_pos (l₂ := []) h
  simpa using this

theorem setStrZ_sign (neg : Bool) (d : List Char) (hd : ∀ c ∈ d, c.isDigit) :
    setStrZ ((if neg then ['-'] else []) ++ d) = (unsignedZ d).map fun n => if neg then -(n : Int) else n := by
  cases neg with
  | true => rfl
  | false =>
    simp only [Bool.false_eq_true, if_false, List.nil_append]
    unfold setStrZ
    split
    · exact absurd (hd '-' (by simp)) (by decide)
    · rfl

theorem value_sign (neg : Bool) (d : List Char) (hd : ∀ c ∈ d, c.isDigit) (hne : d ≠ []) :
    value 10 dv ((if neg then ['-'] else []) ++ d) = (if neg then -1 else 1) * whole 10 dv d := by
  have hu : MpfS.unsigned 10 dv d = whole 10 dv d := by
    unfold MpfS.unsigned
    have hp : ∀ c ∈ d, (c != '.') = true := fun c hc => by
      simp only [bne_iff_ne, ne_eq]
      rintro rfl
      exact absurd (hd _ hc) (by decide)
    have h1 : d.takeWhile (· != '.') = d := take_all _ _ hp
    have h2 : d.dropWhile (· != '.') = [] := drop_all _ _ hp
    rw [h1, h2]
    simp [whole]
  cases neg with
  | true => show -MpfS.unsigned _ _ d = _; rw [hu]; simp
  | false =>
    have := Verif.MpFormat.value_unsigned d [] hd hne
    rw [List.append_nil] at this
    simp only [Bool.false_eq_true, if_false, List.nil_append, one_mul]
    rw [this, hu]

/-- **C149** (partial): decimal digits, with a minus sign or without, of which the first is not zero, are read as the number they denote, and the
rest of the text is left. Missing: leading zeros (`C149_octal_false`) and plus signs (`C149_throws_false`). -/
theorem C149_partial (ws d rest : List Char) (neg : Bool) (hws : ∀ c ∈ ws, isSpace c) (hr : Ends rest) (hd : ∀ c ∈ d, c.isDigit) (hne : d ≠ [])
    (h0 : d.head? ≠ some '0') :
    ∃ z : Int, value 10 dv ((if neg then ['-'] else []) ++ d) = z ∧ scanMpz (ws ++ ((if neg then ['-'] else []) ++ d) ++ rest) = .value z rest := by
  obtain ⟨n, h1, h2⟩ := digits_whole 10 le_rfl d (fun c hc => ⟨hd c hc, isDigit_lt c (hd c hc)⟩)
  refine ⟨if neg then -(n : Int) else n, ?_, ?_⟩
  · rw [value_sign neg d hd hne]
    push_cast at h2
    rw [← h2]
    cases neg <;> simp
  · unfold scanMpz
    rw [scan_word _ _ _ _ hws hr, setStrZ_sign neg d hd, unsignedZ_ten d h0 hne, h1]
    · rfl
    · simp [hne]
    · intro c hc
      rcases List.mem_append.1 hc with h | h
      · cases neg <;> simp at h
        exact isDigit_not_space c (.inr (.inl h))
      · exact isDigit_not_space c (.inl (hd c h))

theorem text_head (n : Nat) (hn : n ≠ 0) : (text 10 n).head? ≠ some '0' := by
  intro h
  unfold text digs at h
  rw [if_neg hn, List.head?_map] at h
  have hl : (Nat.digits 10 n) ≠ [] := by rw [Ne, Nat.digits_eq_nil_iff_eq_zero]; exact hn
  rw [List.head?_reverse, List.getLast?_eq_some_getLast hl] at h
  have h1 := Nat.getLast_digit_ne_zero 10 hn
  have h2 : (Nat.digits 10 n).getLast hl < 10 := Nat.digits_lt_base (by norm_num) (List.getLast_mem hl)
  simp only [Option.map_some, Option.some.injEq] at h
  exact h1 (Verif.MpFormat.digitChar_inj _ (by omega) 0 (by norm_num) (h.trans rfl))

/-- **C149**: what the formatter of `mpz` writes is read back, whatever white space stands before it and whatever stands behind the next. -/
theorem C149_roundtrip (z : Int) (ws rest : List Char) (hws : ∀ c ∈ ws, isSpace c) (hr : Ends rest) :
    scanMpz (ws ++ fmtMpz {} z ++ rest) = .value z rest := by
  have e : fmtMpz {} z = (if decide (z < 0) then ['-'] else []) ++ text 10 z.natAbs := by unfold fmtMpz; simp
  rcases eq_or_ne z 0 with rfl | hz
  · unfold scanMpz
    have : fmtMpz {} 0 = ['0'] := by decide
    rw [this, scan_word _ _ _ _ hws hr (by simp) (by decide)]
    rfl
  · obtain ⟨y, h1, h2⟩ := C149_partial ws (text 10 z.natAbs) rest (decide (z < 0)) hws hr (text_digit _) (text_ne _) (text_head _ (by omega))
    rw [e, h2]
    rw [value_sign _ _ (text_digit _) (text_ne _), Verif.MpFormat.whole_text] at h1
    have : y = z := by
      by_cases h : z < 0
      · rw [decide_eq_true h, if_pos rfl] at h1
        rw [Nat.cast_natAbs, abs_of_neg h] at h1
        have h4 : -1 * -z = y := by exact_mod_cast h1
        omega
      · rw [decide_eq_false h, if_neg (by simp), one_mul] at h1
        rw [Nat.cast_natAbs, abs_of_nonneg (by omega)] at h1
        have h4 : z = y := by exact_mod_cast h1
        omega
    rw [this]

/-- **C149** fails for leading zeros: digits behind a zero are read in base eight, or, if there is an 8 or a 9, are no number at all. -/
theorem C149_octal_false (d : List Char) (hd : ∀ c ∈ d, c.isDigit) :
    ((∀ c ∈ d, c.toNat - 48 < 8) → ∃ n : Nat, scanMpz ('0' :: d) = .value n [] ∧ (n : ℚ) = whole 8 dv d) ∧
    (('8' ∈ d ∨ '9' ∈ d) → scanMpz ('0' :: d) = .throws) := by
  have hs : ∀ c ∈ '0' :: d, isSpace c = false := by
    intro c hc
    rcases List.mem_cons.1 hc with rfl | h
    · decide
    · exact isDigit_not_space c (.inl (hd c h))
  have hw := scan_word setStrZ [] ('0' :: d) [] (by simp) (.inl rfl) (by simp) hs
  rw [List.nil_append, List.append_nil] at hw
  have hz : setStrZ ('0' :: d) = (digits 8 0 d).map fun n => (n : Int) := by
    have := setStrZ_sign false ('0' :: d) (by intro c hc; rcases List.mem_cons.1 hc with rfl | h; decide; exact hd c h)
    simp only [Bool.false_eq_true, if_false, List.nil_append] at this
    rw [this, unsignedZ_eight d hd]
  constructor
  · intro h8
    obtain ⟨n, h1, h2⟩ := digits_whole 8 (by norm_num) d fun c hc => ⟨hd c hc, h8 c hc⟩
    refine ⟨n, ?_, by exact_mod_cast h2⟩
    unfold scanMpz
    rw [hw, hz, h1]
    rfl
  · intro h9
    have key : ∀ (l : List Char) (a : Nat), (∀ c ∈ l, c.isDigit) → ('8' ∈ l ∨ '9' ∈ l) → digits 8 a l = none := by
      intro l
      induction l with
      | nil => intro a _ h; simp at h
      | cons c l ih =>
        intro a hl h
        unfold digits
        rw [digit_isDigit 8 (by norm_num) c (hl c (by simp))]
        split
        · rfl
        · next v hv =>
          apply ih _ fun c hc => hl c (by simp [hc])
          rcases h with h | h
          · rcases List.mem_cons.1 h with rfl | h
            · rw [if_neg (by decide)] at hv
              exact absurd hv (by simp)
            · exact .inl h
          · rcases List.mem_cons.1 h with rfl | h
            · rw [if_neg (by decide)] at hv
              exact absurd hv (by simp)
            · exact .inr h
    unfold scanMpz
    rw [hw, hz, key d 0 hd h9]
    rfl

/-- **C149** fails for errors: a plus sign or a letter that is no digit ends the scan with an exception, not with an error. -/
theorem C149_throws_false (d : List Char) (hd : ∀ c ∈ d, isSpace c = false) (c : Char) (hc : c = '+' ∨ ('g' ≤ c ∧ c ≤ 'z')) :
    scanMpz (c :: d) = .throws := by
  have h0 : digit 10 c = none ∧ c ≠ '0' ∧ c ≠ '-' ∧ isSpace c = false := by
    rcases hc with rfl | ⟨h1, h2⟩
    · decide
    · have g1 : 103 ≤ c.toNat := h1
      have g2 : c.toNat ≤ 122 := h2
      refine ⟨?_, ?_, ?_, ?_⟩
      · unfold digit
        have a1 : ¬ (c ≤ '9') := fun h => by have : c.toNat ≤ 57 := h; omega
        have a2 : ¬ (c ≤ 'f') := fun h => by have : c.toNat ≤ 102 := h; omega
        have a3 : ¬ (c ≤ 'F') := fun h => by have : c.toNat ≤ 70 := h; omega
        simp [a1, a2, a3]
      · rintro rfl; exact absurd g1 (by decide)
      · rintro rfl; exact absurd g1 (by decide)
      · by_contra hs
        rw [Bool.not_eq_false] at hs
        unfold isSpace at hs
        simp only [Bool.or_eq_true, beq_iff_eq] at hs
        rcases hs with (rfl | rfl) | rfl <;> exact absurd g1 (by decide)
  obtain ⟨h1, h2, h3, h4⟩ := h0
  have hw := scan_word setStrZ [] (c :: d) [] (by simp) (.inl rfl) (by simp) (by
    intro x hx
    rcases List.mem_cons.1 hx with rfl | h
    · exact h4
    · exact hd x h)
  rw [List.nil_append, List.append_nil] at hw
  unfold scanMpz
  rw [hw]
  have : setStrZ (c :: d) = none := by
    unfold setStrZ
    split
    · next h => exact absurd (List.cons.inj h).1 h3
    · rw [unsignedZ_ten _ (by simp [h2]) (by simp)]
      unfold digits
      rw [h1]
      rfl
  rw [this]

/-- **C149** (partial), text without any character is an error that is returned. -/
theorem C149_empty (ws : List Char) (h : ∀ c ∈ ws, isSpace c) : scanMpz ws = .error ∧ scanMpq ws = .error := by
  have : ws.dropWhile isSpace = [] := drop_all _ _ h
  unfold scanMpz scanMpq scan
  rw [this]
  exact ⟨rfl, rfl⟩

theorem setStrZ_text (z : Int) : setStrZ (fmtMpz {} z) = some z ∧ ∀ c ∈ fmtMpz {} z, c.isDigit ∨ c = '-' := by
  have hc : ∀ c ∈ fmtMpz {} z, c.isDigit ∨ c = '-' := by
    intro c hc
    unfold fmtMpz at hc
    rcases List.mem_append.1 hc with h | h
    · split at h <;> simp at h
      exact .inr h
    · exact .inl (text_digit _ c h)
  refine ⟨?_, hc⟩
  have h := C149_roundtrip z [] [] (by simp) (.inl rfl)
  unfold scanMpz at h
  rw [scan_word _ _ _ _ (by simp) (.inl rfl) (by unfold fmtMpz; simp [text_ne])
    (fun c h => isDigit_not_space c (by rcases hc c h with h | h; exact .inl h; exact .inr (.inl h)))] at h
  split at h
  · next v hv => rw [hv]; injection h with h1; rw [h1]
  · exact absurd h (by simp)

/-- Fractions are read as they are written. -/
theorem C149_mpq (a : Int) (b : Nat) (ws rest : List Char) (hws : ∀ c ∈ ws, isSpace c) (hr : Ends rest) :
    scanMpq (ws ++ (fmtMpz {} a ++ ['/'] ++ fmtMpz {} b) ++ rest) = .value (a, (b : Int)) rest := by
  have hz := setStrZ_text
  obtain ⟨ha, hac⟩ := hz a
  obtain ⟨hb, hbc⟩ := hz b
  have hsl : ∀ c ∈ fmtMpz {} a, (c != '/') = true := fun c hc => by
    simp only [bne_iff_ne, ne_eq]
    rintro rfl
    exact absurd (hac _ hc) (by decide)
  unfold scanMpq
  rw [scan_word _ _ _ _ hws hr (by simp)]
  · unfold setStrQ
    have h1 : (fmtMpz {} a ++ ['/'] ++ fmtMpz {} b).takeWhile (· != '/') = fmtMpz {} a := by
      rw [List.append_assoc, List.takeWhile_append_of_pos hsl]
      simp
    have h2 : (fmtMpz {} a ++ ['/'] ++ fmtMpz {} b).dropWhile (· != '/') = '/' :: fmtMpz {} b := by
      rw [List.append_assoc, List.dropWhile_append_of_pos hsl]
      simp
    rw [h1, h2]
    simp only [ha, hb]
  · intro c hc
    apply isDigit_not_space
    simp only [List.append_assoc, List.mem_append, List.mem_singleton] at hc
    rcases hc with h | h | h
    · rcases hac c h with h | h
      · exact .inl h
      · exact .inr (.inl h)
    · exact .inr (.inr h)
    · rcases hbc c h with h | h
      · exact .inl h
      · exact .inr (.inl h)

/-- C149, fractions: the text of a whole number is read as that number over one. -/
theorem C149_mpq_whole (a : Int) (ws rest : List Char) (hws : ∀ c ∈ ws, isSpace c) (hr : Ends rest) :
    scanMpq (ws ++ fmtMpz {} a ++ rest) = .value (a, 1) rest := by
  obtain ⟨ha, hac⟩ := setStrZ_text a
  have hsl : ∀ c ∈ fmtMpz {} a, (c != '/') = true := fun c hc => by
    simp only [bne_iff_ne, ne_eq]
    rintro rfl
    exact absurd (hac _ hc) (by decide)
  unfold scanMpq
  rw [scan_word _ _ _ _ hws hr (by unfold fmtMpz; simp [text_ne])]
  · unfold setStrQ
    have h1 : (fmtMpz {} a).takeWhile (· != '/') = fmtMpz {} a := by
      have := List.takeWhile_append_of_pos (l₂ := []) hsl
      simpa using this
    have h2 : (fmtMpz {} a).dropWhile (· != '/') = [] := by
      have := List.dropWhile_append_of_pos (l₂ := []) hsl
      simpa using this
    rw [h1, h2]
    simp only [ha, Option.map_some]
  · intro c hc
    apply isDigit_not_space
    rcases hac c hc with h | h
    · exact .inl h
    · exact .inr (.inl h)

/-- **C149** fails for fractions that are not reduced: extended by a common factor, the same fraction is read as a number that is not equal. -/
theorem C149_mpq_false (a : Int) (b k : Nat) (hb : b ≠ 0) (hk : 2 ≤ k) :
    ∃ p q, scanMpq (fmtMpz {} a ++ ['/'] ++ fmtMpz {} b) = .value p [] ∧ scanMpq (fmtMpz {} (k * a) ++ ['/'] ++ fmtMpz {} ((k * b : Nat) : Int)) = .value q [] ∧
      (p.1 : ℚ) / p.2 = q.1 / q.2 ∧ eqMpq p q = false := by
  have h1 := C149_mpq a b [] [] (by simp) (.inl rfl)
  have h2 := C149_mpq (k * a) (k * b) [] [] (by simp) (.inl rfl)
  rw [List.nil_append, List.append_nil] at h1 h2
  refine ⟨_, _, h1, h2, ?_, ?_⟩
  · have hk' : (k : ℚ) ≠ 0 := by exact_mod_cast (by omega : k ≠ 0)
    push_cast
    rw [mul_div_mul_left _ _ hk']
  · unfold eqMpq
    rw [decide_eq_false_iff_not]
    intro h
    have := (Prod.mk.inj h).2
    have : b = k * b := by exact_mod_cast this
    have h3 : 1 * b < k * b := Nat.mul_lt_mul_of_pos_right (by omega) (by omega)
    omega

theorem C149_false : ¬ C149Claim := fun h => h.2.1 ['x'] (C149_throws_false [] (by simp) 'x' (.inr ⟨by decide, by decide⟩))

/-- `010` is read as 8, `08` and `+5` throw, ` -17 4` gives -17. -/
example : scanMpz "010".toList = .value 8 [] ∧ scanMpz "08".toList = .throws ∧ scanMpz "+5".toList = .throws ∧
    scanMpz " -17 4".toList = .value (-17) " 4".toList ∧ scanMpq "2/4".toList = .value (2, 4) [] := ⟨rfl, rfl, rfl, rfl, rfl⟩

end Verif.MpScan
