import Mathlib.Data.List.Infix
import Mathlib.Tactic.SplitIfs
import Mathlib.Tactic.NormNum
import Verif.Model.TypeName

/-!
# C130: the name of a type

`typeName<T>()` is what the compiler calls `T`. It is hashed into serialised data (utils/serialize.hpp 20-24).
-/

namespace Verif.TypeName

/-- C130: the name is that of the type. -/
def C130Claim (c : Compiler) : Prop := ∀ name : List Char, name ≠ [] → name.length < 2 ^ 63 → typeName c name = some name

theorem find_at (p : List Char) (s : List Char) : ∀ (a : List Char) (i : Nat), p ≠ [] → (∀ k < a.length, ¬ p <+: (a ++ (p ++ s)).drop k) →
    findFrom p (a ++ (p ++ s)) i = i + a.length
  | [], i, hp, _ => by
    cases p with
    | nil => exact absurd rfl hp
    | cons x p => simp [findFrom]
  | x :: a, i, hp, h => by
    have h0 := h 0 (by simp)
    simp only [List.drop_zero, List.cons_append] at h0
    rw [List.cons_append, findFrom, if_neg (by rwa [List.isPrefixOf_iff_prefix])]
    rw [find_at p s a (i + 1) hp (fun k hk => by simpa using h (k + 1) (by simpa using hk))]
    simp; omega

theorem find_none (p : List Char) : ∀ (s : List Char) (i : Nat), p ≠ [] → ¬ p <:+: s → findFrom p s i = npos
  | [], i, hp, _ => by simp [findFrom, hp]
  | c :: s, i, hp, h => by
    rw [findFrom, if_neg, find_none p s (i + 1) hp]
    · exact fun h' => h (h'.trans (List.suffix_cons c s).isInfix)
    · rw [List.isPrefixOf_iff_prefix]; exact fun h' => h h'.isInfix

theorem rfind_none (p : List Char) : ∀ (s : List Char) (i : Nat), p ≠ [] → ¬ p <:+: s → rfindFrom p s i = npos
  | [], i, hp, _ => by simp [rfindFrom, hp]
  | c :: s, i, hp, h => by
    have h1 := rfind_none p s (i + 1) hp (fun h' => h (h'.trans (List.suffix_cons c s).isInfix))
    have h2 : ¬ (p.isPrefixOf (c :: s) = true) := by rw [List.isPrefixOf_iff_prefix]; exact fun h' => h h'.isInfix
    simp only [rfindFrom, h1, ne_eq, not_true_eq_false, if_false, if_neg h2]

/-- A text that ends with the pattern and has it nowhere later. -/
theorem rfind_end (x : Char) (p : List Char) (hx : x ∉ p) : ∀ (a : List Char) (i : Nat), i + a.length < npos →
    rfindFrom (x :: p) (a ++ (x :: p)) i = i + a.length
  | [], i, _ => by
    have h1 : rfindFrom (x :: p) p (i + 1) = npos :=
      rfind_none _ _ _ (by simp) (fun h => hx (h.subset (by simp)))
    simp [rfindFrom, h1]
  | y :: a, i, h => by
    simp only [List.length_cons] at h
    have h1 := rfind_end x p hx a (i + 1) (by omega)
    have h2 : i + 1 + a.length ≠ npos := by omega
    simp only [List.cons_append, rfindFrom, h1, ne_eq, h2, not_false_eq_true, if_true]
    simp; omega

theorem not_prefix_drop {x : Char} {p s : List Char} {a : List Char} (h : x ∉ a) {k : Nat} (hk : k < a.length) : ¬ x :: p <+: (a ++ s).drop k := by
  rintro ⟨t, ht⟩
  rw [List.drop_append_of_le_length (by omega), List.drop_eq_getElem_cons hk] at ht
  simp only [List.cons_append, List.cons.injEq] at ht
  exact h (ht.1 ▸ List.getElem_mem hk)

/-- If the text before the name does not have the first character of the pattern, and the suffix has its first character once, the name is
cut out. -/
theorem cut (c : Compiler) (name a : List Char) (x y : Char) (p q : List Char) (hpre : pre c = x :: p) (hsuf : suf c = y :: q)
    (hf : function c name = a ++ ((x :: p) ++ (name ++ (y :: q)))) (hx : x ∉ a) (hy : y ∉ q) (hn : name ≠ []) (hl : name.length < 2 ^ 63)
    (ha : a.length + p.length < 2 ^ 62) : typeName c name = some name := by
  have hpos : 0 < name.length := List.length_pos_iff.2 hn
  have h1 : findFrom (x :: p) (a ++ ((x :: p) ++ (name ++ (y :: q)))) 0 = 0 + a.length :=
    find_at _ _ a 0 (by simp) (fun k hk => not_prefix_drop hx hk)
  have h2 : rfindFrom (y :: q) (a ++ ((x :: p) ++ (name ++ (y :: q)))) 0 = 0 + (a ++ ((x :: p) ++ name)).length := by
    have := rfind_end y q hy (a ++ ((x :: p) ++ name)) 0 (by
      simp only [List.length_append, List.length_cons, npos]
      have : (2 : Nat) ^ 64 = 4 * 2 ^ 62 := by norm_num
      omega)
    simpa only [List.append_assoc] using this
  have e1 : (0 + a.length + (x :: p).length) % 2 ^ 64 = a.length + (p.length + 1) := by
    rw [Nat.mod_eq_of_lt]
    · simp
    · simp only [List.length_cons]; omega
  have e2 : 0 + (a ++ ((x :: p) ++ name)).length = a.length + (p.length + 1) + name.length := by
    simp only [List.length_append, List.length_cons]; omega
  unfold typeName
  simp only [hpre, hsuf, hf, h1, h2, e1, e2]
  rw [if_pos ⟨by omega, by simp only [List.length_append, List.length_cons]; omega⟩]
  congr 1
  rw [show a ++ ((x :: p) ++ (name ++ (y :: q))) = (a ++ (x :: p)) ++ (name ++ (y :: q)) by simp,
    show a.length + (p.length + 1) = (a ++ (x :: p)).length by simp, List.drop_left, Nat.add_sub_cancel_left, List.take_left]

/-- The text of GCC before the pattern. -/
def gccHead : List Char := "constexpr auto librapid::detail::typeNameArray() [".toList

/-- The text of Clang before the pattern. -/
def clangHead : List Char := "auto librapid::detail::typeNameArray() ".toList

/-- **C130 (GCC).** -/
theorem C130_gcc : C130Claim .gcc := by
  intro name hn hl
  have h1 : before .gcc = gccHead ++ pre .gcc := by decide
  have h2 : pre .gcc = 'w' :: (pre .gcc).tail := by decide
  have h3 : behind .gcc = [']'] := by decide
  have h4 : gccHead.length + (pre .gcc).tail.length = 58 := by decide
  refine cut .gcc name gccHead 'w' ']' (pre .gcc).tail [] h2 (by decide) ?_ (by decide) (by simp) hn hl (by rw [h4]; norm_num)
  rw [function, h1, h3, ← h2, List.append_assoc, List.append_assoc]

/-- **C130 (Clang).** -/
theorem C130_clang : C130Claim .clang := by
  intro name hn hl
  have h1 : before .clang = clangHead ++ pre .clang := by decide
  have h2 : pre .clang = '[' :: (pre .clang).tail := by decide
  have h3 : behind .clang = [']'] := by decide
  have h4 : clangHead.length + (pre .clang).tail.length = 43 := by decide
  refine cut .clang name clangHead '[' ']' (pre .clang).tail [] h2 (by decide) ?_ (by decide) (by simp) hn hl (by rw [h4]; norm_num)
  rw [function, h1, h3, ← h2, List.append_assoc, List.append_assoc]

/-- The names of arrays and of lambdas contain the patterns. -/
example : typeName .gcc "int [3]".toList = some "int [3]".toList ∧
    typeName .clang "f() [T = int]".toList = some "f() [T = int]".toList :=
  ⟨C130_gcc _ (by decide) (by decide), C130_clang _ (by decide) (by decide)⟩

/-! ### MSVC: the pattern is that of another function -/

theorem infix_or {x : Char} {p T w : List Char} (hx : x ∉ p) (h : p <:+: T ++ x :: w) : p <:+: T ∨ p <:+: w := by
  obtain ⟨u, v, h⟩ := h
  rw [List.append_assoc] at h
  rcases List.append_eq_append_iff.1 h with ⟨t, h1, h2⟩ | ⟨t, h1, h2⟩
  · rcases List.append_eq_append_iff.1 h2 with ⟨r, h3, h4⟩ | ⟨r, h3, h4⟩
    · exact Or.inl ⟨u, r, by rw [h1, h3, List.append_assoc]⟩
    · cases r with
      | nil => exact Or.inl ⟨u, [], by rw [h1]; simp at h3; simp [h3]⟩
      | cons z r =>
        simp only [List.cons_append, List.cons.injEq] at h4
        exact absurd (by rw [h3]; simp [h4.1]) hx
  · cases t with
    | nil =>
      cases p with
      | nil => exact Or.inl List.nil_infix
      | cons z p =>
        simp only [List.nil_append, List.cons_append, List.cons.injEq] at h2
        exact absurd (by simp [h2.1]) hx
    | cons z t =>
      simp only [List.cons_append, List.cons.injEq] at h2
      exact Or.inr ⟨t, v, by rw [h2.2]; simp⟩

theorem infix_of_append {p a b : List Char} (hp : p ≠ []) (h : ∀ k < a.length, ¬ p <+: (a ++ b).drop k) (hi : p <:+: a ++ b) : p <:+: b := by
  obtain ⟨u, v, e⟩ := hi
  by_cases hu : u.length < a.length
  · refine absurd ?_ (h u.length hu)
    rw [← e, List.append_assoc, List.drop_left]
    exact ⟨v, rfl⟩
  · have h1 := congrArg (List.drop a.length) e
    rw [List.drop_left, List.append_assoc, List.drop_append_of_le_length (by omega)] at h1
    exact ⟨u.drop a.length, v, by rw [List.append_assoc, h1]⟩

/-- The text of MSVC before the name of the type. -/
abbrev head : List Char := before .msvc

theorem head_length : head.length = 45 := by decide

/-- Where the pattern could start in it, its first five characters differ. -/
theorem head_five : ∀ k < 45, (pre .msvc).take 5 ≠ (head.drop k).take 5 ∧ (40 < k → (pre .msvc).take 1 ≠ (head.drop k).take 1) := by decide

/-- The text before the name has no `type_`. -/
theorem msvc_head (b : List Char) : ∀ k < head.length, ¬ pre .msvc <+: (head ++ b).drop k := by
  intro k hk
  rw [head_length] at hk
  obtain ⟨h1, h2⟩ := head_five k hk
  rintro ⟨t, ht⟩
  rw [List.drop_append_of_le_length (by rw [head_length]; omega)] at ht
  have hp : (pre .msvc).length = 16 := by decide
  have hlen : (head.drop k).length = 45 - k := by rw [List.length_drop, head_length]
  rcases Nat.lt_or_ge 40 k with h | h
  · apply h2 h
    have := congrArg (List.take 1) ht
    rwa [List.take_append_of_le_length (by omega), List.take_append_of_le_length (by omega)] at this
  · apply h1
    have := congrArg (List.take 5) ht
    rwa [List.take_append_of_le_length (by omega), List.take_append_of_le_length (by omega)] at this

theorem function_msvc (name : List Char) : function .msvc name = head ++ (name ++ '>' :: (behind .msvc).tail) := by
  have h : behind .msvc = '>' :: (behind .msvc).tail := by decide
  rw [function, ← h, List.append_assoc]

/-- What `typeName` of MSVC puts before the name. -/
def junk : List Char := "brapid::detail::typeNameArray<".toList

theorem three : "int".toList.length = 3 := by decide

/-- **C130 (MSVC).** The pattern is not found (`npos`), the start wraps around to 15, and the name comes with most of the text of the function in
front of it. -/
theorem C130_msvc (name : List Char) (hl : name.length < 2 ^ 63) (hp : ¬ "type_name_array<".toList <:+: name) :
    typeName .msvc name = some (junk ++ name) := by
  have hf := function_msvc name
  have h1 : findFrom (pre .msvc) (function .msvc name) 0 = npos := by
    apply find_none _ _ _ (by decide)
    rw [hf]
    intro hi
    rcases infix_or (by decide) (infix_of_append (by decide) (msvc_head _) hi) with h | h
    · exact hp h
    · have := h.length_le
      revert this
      decide
  have h2 : rfindFrom (suf .msvc) (function .msvc name) 0 = 45 + name.length := by
    have := rfind_end '>' (behind .msvc).tail (by decide) (head ++ name) 0 (by
      rw [List.length_append, head_length, npos]
      have : (2 : Nat) ^ 64 = 2 * 2 ^ 63 := by norm_num
      have : (2 : Nat) ^ 63 = 9223372036854775808 := by norm_num
      omega)
    rw [hf, ← List.append_assoc, show suf .msvc = '>' :: (behind .msvc).tail from by decide, this]
    rw [List.length_append, head_length, Nat.zero_add]
  have e1 : (npos + (pre .msvc).length) % 2 ^ 64 = 15 := by
    rw [show (pre .msvc).length = 16 by decide, npos]; norm_num
  unfold typeName
  simp only [h1, h2, e1]
  rw [if_pos ⟨by omega, by rw [hf, List.length_append, head_length]; omega⟩]
  refine congrArg some ?_
  rw [hf, List.drop_append_of_le_length (by rw [head_length]; omega),
    show head.drop 15 = junk from by decide, ← List.append_assoc,
    show 45 + name.length - 15 = (junk ++ name).length by rw [List.length_append, show junk.length = 30 from by decide]; omega,
    List.take_left]

/-- **C130 is false** of MSVC: `typeName<int>()` is `brapid::detail::typeNameArray<int`. -/
theorem C130_false : ¬ C130Claim .msvc := by
  intro h
  have h1 := h "int".toList (by decide) (by rw [three]; norm_num)
  rw [C130_msvc _ (by rw [three]; norm_num) (fun hi => by have := hi.length_le; revert this; decide)] at h1
  revert h1
  decide

/-- **C130: different names stay different**, with every compiler. -/
theorem C130_injective_partial (c : Compiler) (a b : List Char) (ha : a ≠ []) (hb : b ≠ []) (la : a.length < 2 ^ 63) (lb : b.length < 2 ^ 63)
    (pa : ¬ "type_name_array<".toList <:+: a) (pb : ¬ "type_name_array<".toList <:+: b) (h : typeName c a = typeName c b) : a = b := by
  cases c with
  | gcc => rw [C130_gcc a ha la, C130_gcc b hb lb] at h; exact Option.some.inj h
  | clang => rw [C130_clang a ha la, C130_clang b hb lb] at h; exact Option.some.inj h
  | msvc => rw [C130_msvc a la pa, C130_msvc b lb pb] at h; exact List.append_cancel_left (Option.some.inj h)

end Verif.TypeName
