import Verif.Model.Log
import Mathlib.Analysis.Complex.ExponentialBounds
import Mathlib.Data.Nat.Digits.Lemmas
import Mathlib.Tactic.Linarith

/-!
# C128: diagnostics
-/

namespace Verif.LogM

/-! ### Messages -/

/-- A text without braces. -/
abbrev Plain (s : Text) : Prop := '{' ∉ s ∧ '}' ∉ s

/-- A message with a place for a value after each text but the last. -/
def message : Text → List Text → Text
  | s, [] => s
  | s, t :: ts => s ++ '{' :: '}' :: message t ts

/-- The message with the values in their places. -/
def filled : Text → List (Text × Text) → Text
  | s, [] => s
  | s, (v, t) :: l => s ++ (v ++ filled t l)

theorem vformat_plain {s r : Text} (hs : Plain s) (a : List Text) : vformat (s ++ r) a = (vformat r a).map (s ++ ·) := by
  induction s with
  | nil => simp
  | cons c s ih =>
    have h1 : c ≠ '{' := fun h => hs.1 (by simp [h])
    have h2 : c ≠ '}' := fun h => hs.2 (by simp [h])
    have ih := ih ⟨fun h => hs.1 (by simp [h]), fun h => hs.2 (by simp [h])⟩
    rw [List.cons_append, vformat]
    · simp [h1, h2, ih, Function.comp_def]
    all_goals (intros; simp_all)

theorem vformat_message {s : Text} {l : List (Text × Text)} (hs : Plain s) (hl : ∀ p ∈ l, Plain p.2) :
    vformat (message s (l.map (·.2))) (l.map (·.1)) = some (filled s l) := by
  induction l generalizing s with
  | nil =>
    have := vformat_plain (r := []) hs []
    simpa [message, filled, vformat] using this
  | cons p l ih =>
    obtain ⟨v, t⟩ := p
    simp only [List.map_cons, message, filled]
    rw [vformat_plain hs, vformat, ih (hl (v, t) (by simp)) (fun p hp => hl p (by simp [hp]))]
    simp

/-- A text with every brace doubled. -/
def doubled : Text → Text
  | [] => []
  | c :: s => if c = '{' ∨ c = '}' then c :: c :: doubled s else c :: doubled s

theorem vformat_doubled (s : Text) (a : List Text) : vformat (doubled s) a = some s := by
  induction s with
  | nil => simp [doubled, vformat]
  | cons c s ih =>
    unfold doubled
    split
    · next h => rcases h with rfl | rfl <;> simp [vformat, ih]
    · next h =>
      push Not at h
      have := vformat_plain (s := [c]) (r := doubled s) ⟨by simpa using h.1.symm, by simpa using h.2.symm⟩ a
      rw [List.singleton_append] at this
      rw [this, ih]
      rfl

/-- C128: any text, its braces doubled, is thrown as it is by a failed assertion, whatever further values are given. -/
theorem C128_braces (print : Bool) (p : Place) (cond s : Text) (args : List Text) :
    (assert print false (doubled s) p cond args).2 = .throws s := by
  simp [assert, vformat_doubled]

/-- C128: a single brace, at the end of a message, is not printed: formatting fails. -/
theorem C128_single_brace (print : Bool) (p : Place) (cond s : Text) (args : List Text) (c : Char) (hc : c = '{' ∨ c = '}') :
    assert print false (doubled s ++ [c]) p cond args = ([], .formatError) := by
  have h : ∀ s : Text, vformat (doubled s ++ [c]) args = none := by
    intro s
    induction s with
    | nil => rcases hc with rfl | rfl <;> cases args <;> simp [doubled, vformat]
    | cons d s ih =>
      unfold doubled
      split
      · next h => rcases h with rfl | rfl <;> simp [vformat, ih]
      · next h =>
        push Not at h
        have := vformat_plain (s := [d]) (r := doubled s ++ [c]) ⟨by simpa using h.1.symm, by simpa using h.2.symm⟩ args
        rw [List.singleton_append] at this
        rw [List.cons_append, this, ih]
        rfl
  simp [assert, h]

example : doubled "a{b}".toList = "a{{b}}".toList := by decide

/-- C128: a failed assertion throws the exception asked for with the text of the message, its values in their places; one that holds does nothing. -/
theorem C128_assert (print : Bool) (p : Place) (cond s : Text) (l : List (Text × Text)) (hs : Plain s) (hl : ∀ q ∈ l, Plain q.2) :
    (assert print false (message s (l.map (·.2))) p cond (l.map (·.1))).2 = .throws (filled s l) ∧
      assert print true (message s (l.map (·.2))) p cond (l.map (·.1)) = ([], .returns) := by
  constructor
  · simp [assert, vformat_message hs hl]
  · simp [assert]

example (p : Place) : (assert true false "Index {} is out of range for {} dimensions".toList p [] ["7".toList, "2".toList]).2 =
    .throws "Index 7 is out of range for 2 dimensions".toList :=
  (C128_assert true p [] "Index ".toList [("7".toList, " is out of range for ".toList), ("2".toList, " dimensions".toList)] (by decide)
    (by decide)).1

/-- C128: the exception of an error has the text of the message, with its values in their places. -/
def C128ErrorClaim : Prop :=
  ∀ (p : Place) (s : Text) (l : List (Text × Text)), Plain s → (∀ q ∈ l, Plain q.2) →
    (error (message s (l.map (·.2))) p (l.map (·.1))).2 = .throws (filled s l)

/-- The exception of an error has the message as it was written, places instead of values. -/
theorem C128_error_raw (p : Place) (s : Text) (l : List (Text × Text)) (hs : Plain s) (hl : ∀ q ∈ l, Plain q.2) :
    (error (message s (l.map (·.2))) p (l.map (·.1))).2 = .throws (message s (l.map (·.2))) := by
  simp [error, generic, vformat_message hs hl]

/-- bitset.hpp 53: "Invalid character in BitSet string: {}". -/
theorem C128_error_false : ¬ C128ErrorClaim := by
  intro h
  have h1 := h ⟨53, [], []⟩ "Invalid character in BitSet string: ".toList [(['2'], [])] (by decide) (by decide)
  rw [C128_error_raw _ _ _ (by decide) (by decide)] at h1
  simp [message, filled] at h1

/-- C128 (partial: messages without values): the exception of an error has the text of the message. -/
theorem C128_error_partial (p : Place) (s : Text) (hs : Plain s) : (error s p []).2 = .throws s :=
  C128_error_raw p s [] hs (by simp)

/-! ### The printed text -/

theorem internalMax_ge (v : Int) (l : List Int) : v ≤ internalMax v l ∧ ∀ w ∈ l, w ≤ internalMax v l := by
  induction l generalizing v with
  | nil => simp [internalMax]
  | cons w ws ih =>
    obtain ⟨a, b⟩ := ih w
    simp only [internalMax]
    split
    · rename_i h
      refine ⟨h.le, ?_⟩
      intro x hx
      rcases List.mem_cons.1 hx with rfl | hx
      · exact a
      · exact b x hx
    · rename_i h
      refine ⟨le_refl _, ?_⟩
      intro x hx
      rcases List.mem_cons.1 hx with rfl | hx
      · omega
      · have := b x hx; omega

theorem right_length {w : Int} {s : Text} (h : (s.length : Int) ≤ w) : ((right w s).length : Int) = w := by
  simp [right]
  omega

theorem centre_length {w : Int} {s : Text} (h : (s.length : Int) ≤ w) : ((centre w s).length : Int) = w := by
  simp [centre]
  omega

theorem decimal_length (n : Nat) (h : 0 < n) : ((decimal n).length : Int) ≤ logLine n + 1 := by
  have h0 : n ≠ 0 := by omega
  simp only [decimal, h0, if_false, List.length_map, List.length_reverse]
  rw [Nat.digits_len 10 n (by decide) h0]
  have h1 : 10 ^ Nat.log 10 n ≤ n := Nat.pow_log_le_self 10 h0
  have h2 : (Nat.log 10 n : ℝ) ≤ Real.log n := by
    have h3 : Real.log ((10 : ℝ) ^ Nat.log 10 n) ≤ Real.log n := by
      apply Real.log_le_log (by positivity)
      exact_mod_cast h1
    rw [Real.log_pow] at h3
    have h4 : (1 : ℝ) ≤ Real.log 10 := by
      rw [Real.le_log_iff_exp_le (by norm_num)]
      have := Real.exp_one_lt_d9
      linarith
    nlinarith [Nat.cast_nonneg (α := ℝ) (Nat.log 10 n)]
  have h5 : ((Nat.log 10 n : Int) : ℝ) ≤ (⌈Real.log n⌉ : ℝ) := le_trans (by exact_mod_cast h2) (Int.le_ceil _)
  have h6 : (Nat.log 10 n : Int) ≤ ⌈Real.log n⌉ := by exact_mod_cast h5
  unfold logLine
  push_cast
  omega

/-- The lines before the message are of one length. -/
def Box (out : List Text) : Prop := ∀ l ∈ out.dropLast, ∀ l' ∈ out.dropLast, l.length = l'.length

theorem truncate_length (s : Text) : (truncate s).length ≤ 70 := by
  unfold truncate
  split
  · simp
  · omega

theorem boxed_length (s : Text) : (boxed s).length = s.length + 2 := by simp [boxed]

/-- C128: the lines of the box printed by a failed assertion are of one length, whatever the names. -/
theorem C128_assert_box (p : Place) (hp : 0 < p.line) (cond msg : Text) : Box (assertLines p cond msg) := by
  obtain ⟨h1, h2⟩ := internalMax_ge (logLine p.line) [p.file.length, cond.length, (truncate p.signature).length, "ASSERTION FAILED".toList.length]
  have a := h2 p.file.length (by simp)
  have b := h2 cond.length (by simp)
  have c := h2 (truncate p.signature).length (by simp)
  have d := h2 "ASSERTION FAILED".toList.length (by simp)
  have e := decimal_length p.line hp
  have key : ∀ l ∈ (assertLines p cond msg).dropLast, (l.length : Int) = assertWidth p cond + 16 := by
    intro l hl
    simp only [assertLines, List.dropLast, List.mem_cons, List.not_mem_nil, or_false] at hl
    rw [show internalMax (logLine p.line) _ = assertWidth p cond from rfl] at a b c d h1
    have hk : ((['A', 'S', 'S', 'E', 'R', 'T', 'I', 'O', 'N', ' ', 'F', 'A', 'I', 'L', 'E', 'D'] : Text).length : Int) = 16 := rfl
    have d : (16 : Int) ≤ assertWidth p cond := d
    rcases hl with rfl | rfl | rfl | rfl | rfl
    · rw [boxed_length]; push_cast; rw [centre_length (by rw [hk]; omega)]; omega
    · rw [boxed_length, List.length_append]; push_cast; rw [right_length (by omega)]; simp; omega
    · rw [boxed_length, List.length_append]; push_cast; rw [right_length (by omega)]; simp; omega
    · rw [boxed_length, List.length_append]; push_cast; rw [right_length (by omega)]; simp; omega
    · rw [boxed_length, List.length_append]; push_cast; rw [right_length (by omega)]; simp; omega
  intro l hl l' hl'
  have := key l hl
  have := key l' hl'
  omega

/-- C128: the same for errors, warnings and status messages. -/
theorem C128_status_box (p : Place) (hp : 0 < p.line) (kind msg : Text) : Box (statusLines p kind msg) := by
  obtain ⟨h1, h2⟩ := internalMax_ge (logLine p.line + 6) [p.file.length + 6, (truncate p.signature).length + 6, kind.length]
  have a := h2 (p.file.length + 6) (by simp)
  have b := h2 ((truncate p.signature).length + 6) (by simp)
  have e := decimal_length p.line hp
  have key : ∀ l ∈ (statusLines p kind msg).dropLast, (l.length : Int) = statusWidth p kind + 7 := by
    intro l hl
    simp only [statusLines, List.dropLast, List.mem_cons, List.not_mem_nil, or_false] at hl
    rw [show internalMax (logLine p.line + 6) _ = statusWidth p kind from rfl] at a b h1
    have hk : ((['S', 'T', 'A', 'T', 'U', 'S'] : Text).length : Int) = 6 := rfl
    rcases hl with rfl | rfl | rfl | rfl
    · rw [boxed_length]; push_cast; rw [centre_length (by rw [hk]; omega)]; omega
    · rw [boxed_length, List.length_append]; push_cast; rw [right_length (by omega)]; simp; omega
    · rw [boxed_length, List.length_append]; push_cast; rw [right_length (by omega)]; simp; omega
    · rw [boxed_length, List.length_append]; push_cast; rw [right_length (by omega)]; simp; omega
  intro l hl l' hl'
  have := key l hl
  have := key l' hl'
  omega

/-- C128: the box says what kind of message it is. -/
def C128KindClaim : Prop :=
  ∀ (p : Place) (s : Text), Plain s →
    (∃ l ∈ (status s p []).1, "STATUS".toList <:+: l) ∧ (∃ l ∈ (warn s p []).1, "WARNING".toList <:+: l) ∧
      (∃ l ∈ (error s p []).1, "ERROR".toList <:+: l)

/-- C128: warnings are printed exactly as status messages are, if the name of the file is not empty. -/
theorem C128_warning_is_status (p : Place) (hf : 0 < p.file.length) (message : Text) (args : List Text) :
    warn message p args = status message p args := by
  have hw : statusWidth p "WARNING".toList = statusWidth p "STATUS".toList := by
    unfold statusWidth
    simp only [internalMax]
    have h7 : "WARNING".toList.length = 7 := rfl
    have h6 : "STATUS".toList.length = 6 := rfl
    rw [h7, h6]
    have : 0 ≤ (truncate p.signature).length := Nat.zero_le _
    simp only [Nat.cast_ofNat]
    split_ifs <;> omega
  unfold warn status generic
  split
  · rfl
  · simp only [statusLines, hw]

theorem C128_kind_false : ¬ C128KindClaim := by
  intro h
  obtain ⟨_, ⟨l, hl, hk⟩, _⟩ := h ⟨1, ['f'], ['x']⟩ ['m'] (by decide)
  rw [C128_warning_is_status _ (by decide)] at hl
  have hlog : logLine 1 = 0 := by simp [logLine]
  have ht : truncate ['f'] = ['f'] := rfl
  have hv : vformat ['m'] [] = some ['m'] := by decide
  have hw : statusWidth ⟨1, ['f'], ['x']⟩ "STATUS".toList = 7 := by
    simp only [statusWidth, hlog, ht]
    decide
  simp only [status, generic, hv, statusLines, hw, ht, List.mem_cons, List.not_mem_nil, or_false] at hl
  have hd : decimal 1 = ['1'] := by simp [decimal]
  rw [hd] at hl
  rcases hl with rfl | rfl | rfl | rfl | rfl <;> revert hk <;> decide

/-- What is printed of a signature: its first 67 characters and three dots if there are more than 70. -/
def Shown (signature l : Text) : Prop :=
  if 70 < signature.length then (signature.take 67 ++ ['.', '.', '.']) <:+: l else signature <:+: l

/-- C128 (partial): what is printed contains the file, the function (its first 67 characters if there are more than 70), the line and the message. -/
theorem C128_content_partial (p : Place) (kind msg : Text) :
    ∃ l1 ∈ statusLines p kind msg, p.file <:+: l1 ∧ ∃ l2 ∈ statusLines p kind msg, Shown p.signature l2 ∧
      ∃ l3 ∈ statusLines p kind msg, decimal p.line <:+: l3 ∧ msg ∈ statusLines p kind msg := by
  have key : ∀ (w : Int) (pre s : Text), s <:+: boxed (pre ++ right w s) := by
    intro w pre s
    exact ⟨'[' :: (pre ++ List.replicate (w - s.length).toNat ' '), [']'], by simp [boxed, right]⟩
  have sig : Shown p.signature (boxed ("Function ".toList ++ right (statusWidth p kind - 4) (truncate p.signature))) := by
    have := key (statusWidth p kind - 4) "Function ".toList (truncate p.signature)
    unfold Shown
    by_cases h : 70 < p.signature.length
    · rw [if_pos h]
      have e : truncate p.signature = p.signature.take 67 ++ ['.', '.', '.'] := if_pos h
      rw [e] at this ⊢
      exact this
    · rw [if_neg h]
      have e : truncate p.signature = p.signature := if_neg h
      rw [e] at this ⊢
      exact this
  refine ⟨_, by simp only [statusLines, List.mem_cons]; exact Or.inr (Or.inl rfl), key _ _ _, _, ?_, sig, _, ?_,
    key (statusWidth p kind) "Line ".toList _, by simp [statusLines]⟩
  · simp [statusLines]
  · simp [statusLines]

/-- The same for failed assertions, with the text of the condition. -/
theorem C128_assert_content (p : Place) (cond msg : Text) :
    ∃ l1 ∈ assertLines p cond msg, p.file <:+: l1 ∧ ∃ l2 ∈ assertLines p cond msg, Shown p.signature l2 ∧
      ∃ l3 ∈ assertLines p cond msg, decimal p.line <:+: l3 ∧ ∃ l4 ∈ assertLines p cond msg, cond <:+: l4 ∧ msg ∈ assertLines p cond msg := by
  have key : ∀ (w : Int) (pre s : Text), s <:+: boxed (pre ++ right w s) := by
    intro w pre s
    exact ⟨'[' :: (pre ++ List.replicate (w - s.length).toNat ' '), [']'], by simp [boxed, right]⟩
  have sig : Shown p.signature (boxed ("Function ".toList ++ right (assertWidth p cond + 5) (truncate p.signature))) := by
    have := key (assertWidth p cond + 5) "Function ".toList (truncate p.signature)
    unfold Shown
    by_cases h : 70 < p.signature.length
    · rw [if_pos h]
      have e : truncate p.signature = p.signature.take 67 ++ ['.', '.', '.'] := if_pos h
      rw [e] at this ⊢
      exact this
    · rw [if_neg h]
      have e : truncate p.signature = p.signature := if_neg h
      rw [e] at this ⊢
      exact this
  refine ⟨_, by simp only [assertLines, List.mem_cons]; exact Or.inr (Or.inl rfl), key _ _ _, _, ?_, sig, _, ?_,
    key (assertWidth p cond + 9) "Line ".toList _, _, ?_, key (assertWidth p cond + 4) "Condition ".toList _, by simp [assertLines]⟩
  · simp [assertLines]
  · simp [assertLines]
  · simp [assertLines]

example : Shown (List.replicate 80 'f') (List.replicate 67 'f' ++ ['.', '.', '.', ']']) := by
  unfold Shown
  rw [if_pos (by simp)]
  exact ⟨[], [']'], rfl⟩

end Verif.LogM
