import Verif.Lemmas.BitSet
import Verif.Spec.BitSet

/-! Property theorems for `librapid::BitSet` (C06 - C13). -/

namespace Verif.BitSetM

/-! ### Bridges -/

theorem words_cover (n : Nat) : n ≤ 64 * numElements n := by unfold numElements; omega

theorem words_tight (n : Nat) : 64 * numElements n < n + 64 := by unfold numElements; omega

theorem get_of_len {n : Nat} {s : BS n} (hl : s.words.length = numElements n) {i : Nat}
    (hi : i < 64 * numElements n) : get s i = .ok (bitAt s.words i) :=
  get_ok s i (by omega)

theorem get_reach {n : Nat} {s : BS n} (h : Reachable s) {i : Nat} (hi : i < n) :
    get s i = .ok (bitAt s.words i) :=
  get_of_len (reachable_length h) (by have := words_cover n; omega)

theorem clean_iff {n : Nat} {s : BS n} (hl : s.words.length = numElements n) :
    Clean s ↔ ∀ i, n ≤ i → bitAt s.words i = false := by
  constructor
  · intro h i hi
    by_cases c : i < 64 * numElements n
    · have := h i hi c
      rw [get_of_len hl c] at this
      exact Out.ok.inj this
    · exact bitAt_ge (by omega)
  · intro h i hi c
    rw [get_of_len hl c, h i hi]

theorem words_ext {a b : List W} (hl : a.length = b.length)
    (h : ∀ i, i < 64 * a.length → bitAt a i = bitAt b i) : a = b := by
  apply List.ext_getElem hl
  intro k h1 h2
  apply BitVec.eq_of_getLsbD_eq
  intro j hj
  rw [← bitAt_word a k j h1 hj, ← bitAt_word b k j h2 hj]
  exact h _ (by omega)

/-! ### C06 -/

/-- **C06**. Any history of writes to indices below the size succeeds on any reachable bit set, and afterwards every bit
reads the value last written to it, or its previous value if it was not written. -/
theorem C06_writes {n : Nat} (s : BS n) (hs : Reachable s) (h : List (Nat × Bool)) (hidx : ∀ e ∈ h, e.1 < n) :
    ∃ s', runWrites s h = .ok s' ∧ ∀ j, j < n →
      (∃ pre v post, h = pre ++ (j, v) :: post ∧ (∀ e ∈ post, e.1 ≠ j) ∧ get s' j = .ok v) ∨
      ((∀ e ∈ h, e.1 ≠ j) ∧ get s' j = get s j) := by
  induction h generalizing s with
  | nil => exact ⟨s, rfl, fun j _ => Or.inr ⟨by simp, rfl⟩⟩
  | cons e h ih =>
    obtain ⟨i, v⟩ := e
    have hin : i < n := hidx (i, v) (by simp)
    have hl := reachable_length hs
    have hc := words_cover n
    obtain ⟨ws', e1, l1, b1⟩ := setBit_ok s.words i v (by omega)
    have eset : set s i v = .ok ⟨ws'⟩ := by unfold set; rw [e1]; rfl
    have hr : Reachable (⟨ws'⟩ : BS n) := .set i v hs eset
    obtain ⟨s', e2, hj⟩ := ih ⟨ws'⟩ hr (fun e he => hidx e (by simp [he]))
    refine ⟨s', by simp [runWrites, eset, e2], ?_⟩
    intro j hjn
    rcases hj j hjn with ⟨pre, u, post, hh, hp, hg⟩ | ⟨hne, hg⟩
    · exact Or.inl ⟨(i, v) :: pre, u, post, by simp [hh], hp, hg⟩
    · by_cases c : i = j
      · subst c
        refine Or.inl ⟨[], v, h, rfl, hne, ?_⟩
        rw [hg, get_reach hr hjn, b1, if_pos rfl]
      · refine Or.inr ⟨?_, ?_⟩
        · intro e he
          rcases List.mem_cons.1 he with rfl | he
          · exact c
          · exact hne e he
        · rw [hg, get_reach hr hjn, b1, if_neg (Ne.symm c), get_reach hs hjn]

/-- **C06**, initial state: every bit of a default-constructed bit set reads false. -/
theorem C06_default (n j : Nat) (h : j < n) : get (empty n) j = .ok false := by
  rw [get_reach (.empty n) h]
  have hc := words_cover n
  rw [bitAt_lt (by simp [empty]; omega)]
  simp [empty]

example : ∃ s', runWrites (empty 70) [(69, true), (3, true), (69, false), (64, true)] = .ok s' ∧
    get s' 69 = .ok false ∧ get s' 64 = .ok true := by
  obtain ⟨s', e, h⟩ := C06_writes (empty 70) (.empty 70) [(69, true), (3, true), (69, false), (64, true)] (by simp)
  refine ⟨s', e, ?_, ?_⟩ <;> simp [runWrites, set, setBit, empty, numElements, readAt, writeAt] at e <;> subst e <;> rfl

/-! ### C07 -/

/-- The full property C07: exactly the half-open range (endpoints swapped if reversed) is written. -/
def C07Claim : Prop :=
  ∀ (n : Nat) (s : BS n), Reachable s → ∀ (a b : Nat) (v : Bool), a ≤ n → b ≤ n →
    ∃ s', setRange s a b v = .ok s' ∧ ∀ j, j < n →
      get s' j = if min a b ≤ j ∧ j < max a b then .ok v else get s j

/-- **C07** is false of the code: on 8 bits, `set(5, 6, true)` also sets bits 0 to 4. -/
theorem C07_range_set_false : ¬ C07Claim := by
  intro h
  obtain ⟨s', e, hj⟩ := h 8 (empty 8) (.empty 8) 5 6 true (by omega) (by omega)
  have h0 := hj 0 (by omega)
  obtain ⟨ws', e1, l1, b1⟩ := setRangeCore_ok (empty 8).words 5 6 true (by omega) (by simp [empty, numElements])
  have e' : setRange (empty 8) 5 6 true = .ok ⟨ws'⟩ := by
    unfold setRange; rw [if_neg (by omega), e1]; rfl
  rw [e'] at e; cases e
  rw [get_of_len (by rw [l1]; simp [empty]) (by simp [numElements]), b1, if_pos (by omega)] at h0
  rw [if_neg (by omega), C06_default 8 0 (by omega)] at h0
  cases h0

/-- **C07**, the part that holds, in exact form: `set(a, b, v)` writes exactly `[min(a', 64*(b'/64)), b')` where
`a' ≤ b'` are the ordered endpoints. Missing: when both endpoints are in one word the bits of that word below `a'` are
written too. -/
theorem C07_range_set_partial {n : Nat} (s : BS n) (hs : Reachable s) (a b : Nat) (v : Bool) (ha : a ≤ n) (hb : b ≤ n) :
    ∃ s', setRange s a b v = .ok s' ∧ ∀ j, j < n →
      get s' j = if min (min a b) (64 * (max a b / 64)) ≤ j ∧ j < max a b then .ok v else get s j := by
  have hl := reachable_length hs
  have hc := words_cover n
  have key : ∀ a b, a ≤ b → b ≤ n → ∀ s', setRange s a b v = .ok s' ∨ setRange s b a v = .ok s' →
      (∃ ws', setRangeCore s.words a b v = .ok ws' ∧ s' = ⟨ws'⟩) → ∀ j, j < n →
      get s' j = if min a (64 * (b / 64)) ≤ j ∧ j < b then .ok v else get s j := by
    rintro a b hab hbn s' _ ⟨ws', e, rfl⟩ j hj
    obtain ⟨ws2, e1, l1, b1⟩ := setRangeCore_ok s.words a b v hab (by omega)
    rw [e1] at e; cases e
    rw [get_of_len (by rw [l1]; exact hl) (by omega), b1, get_reach hs hj]
    split <;> rfl
  by_cases c : a > b
  · obtain ⟨ws2, e1, _, _⟩ := setRangeCore_ok s.words b a v (by omega) (by omega)
    have e' : setRange s a b v = .ok ⟨ws2⟩ := by unfold setRange; rw [if_pos c, e1]; rfl
    refine ⟨_, e', ?_⟩
    rw [show min a b = b by omega, show max a b = a by omega]
    exact key b a (by omega) ha _ (Or.inr e') ⟨ws2, e1, rfl⟩
  · obtain ⟨ws2, e1, _, _⟩ := setRangeCore_ok s.words a b v (by omega) (by omega)
    have e' : setRange s a b v = .ok ⟨ws2⟩ := by unfold setRange; rw [if_neg c, e1]; rfl
    refine ⟨_, e', ?_⟩
    rw [show min a b = a by omega, show max a b = b by omega]
    exact key a b (by omega) hb _ (Or.inl e') ⟨ws2, e1, rfl⟩

/-- **C07**, corollary: the full claim holds whenever the endpoints are in different words, or the lower endpoint is
word-aligned. -/
theorem C07_range_set_aligned_partial {n : Nat} (s : BS n) (hs : Reachable s) (a b : Nat) (v : Bool)
    (ha : a ≤ n) (hb : b ≤ n) (hw : min a b / 64 < max a b / 64 ∨ min a b % 64 = 0) :
    ∃ s', setRange s a b v = .ok s' ∧ ∀ j, j < n →
      get s' j = if min a b ≤ j ∧ j < max a b then .ok v else get s j := by
  obtain ⟨s', e, h⟩ := C07_range_set_partial s hs a b v ha hb
  refine ⟨s', e, fun j hj => ?_⟩
  rw [h j hj]
  have : min (min a b) (64 * (max a b / 64)) = min a b := by omega
  rw [this]

/-- The hypotheses of the corollary are met, e.g. by `set(130, 5, true)` on 200 bits. -/
example : (130 : Nat) ≤ 200 ∧ 5 ≤ 200 ∧ (min 130 5 / 64 < max 130 5 / 64 ∨ min 130 5 % 64 = 0) := by decide

/-! ### C08 -/

/-- The full property C08. -/
def C08Claim : Prop :=
  ∀ (n : Nat) (s : BS n), Reachable s →
    (∃ b, any s = .ok b ∧ (b = true ↔ ∃ i, i < n ∧ get s i = .ok true)) ∧
    (∃ b, none s = .ok b ∧ (b = true ↔ ∀ i, i < n → get s i = .ok false)) ∧
    (∃ b, all s = .ok b ∧ (b = true ↔ ∀ i, i < n → get s i = .ok true)) ∧
    popCount s = .ok ((List.range n).countP (fun i => decide (get s i = .ok true)))

theorem any_ok {n : Nat} (s : BS n) (hl : s.words.length = numElements n) :
    ∃ b, any s = .ok b ∧ (b = true ↔ ∃ i, bitAt s.words i = true) := by
  unfold any
  rcases searchWords s.words (numElements n) hl (fun w => decide (w ≠ 0)) (fun _ _ => true) with
    ⟨k, hk, hp, _, e⟩ | ⟨hall, e⟩
  · simp only [decide_eq_true_eq] at e
    refine ⟨true, by rw [e]; rfl, by
      simp only [true_iff]
      obtain ⟨j, hj, hb⟩ := (word_ne_zero_iff _).1 (by simpa using hp)
      exact ⟨64 * k + j, by rw [bitAt_word _ _ _ hk hj]; exact hb⟩⟩
  · simp only [decide_eq_true_eq] at e
    refine ⟨false, by rw [e]; rfl, by
      simp only [Bool.false_eq_true, false_iff]
      rintro ⟨i, hi⟩
      by_cases c : i / 64 < s.words.length
      · rw [bitAt_lt c] at hi
        have := hall _ c
        rw [decide_eq_false_iff_not] at this
        exact this ((word_ne_zero_iff _).2 ⟨i % 64, Nat.mod_lt _ (by omega), hi⟩)
      · rw [bitAt_ge (by omega)] at hi; cases hi⟩

theorem none_ok {n : Nat} (s : BS n) (hl : s.words.length = numElements n) :
    ∃ b, none s = .ok b ∧ (b = true ↔ ∀ i, bitAt s.words i = false) := by
  unfold none
  rcases searchWords s.words (numElements n) hl (fun w => decide (w ≠ 0)) (fun _ _ => false) with
    ⟨k, hk, hp, _, e⟩ | ⟨hall, e⟩
  · simp only [decide_eq_true_eq] at e
    refine ⟨false, by rw [e]; rfl, by
      simp only [Bool.false_eq_true, false_iff]
      intro h
      obtain ⟨j, hj, hb⟩ := (word_ne_zero_iff _).1 (by simpa using hp)
      have := h (64 * k + j)
      rw [bitAt_word _ _ _ hk hj, hb] at this; cases this⟩
  · simp only [decide_eq_true_eq] at e
    refine ⟨true, by rw [e]; rfl, by
      simp only [true_iff]
      intro i
      by_cases c : i / 64 < s.words.length
      · cases hi : bitAt s.words i with
        | false => rfl
        | true =>
          rw [bitAt_lt c] at hi
          have := hall _ c
          rw [decide_eq_false_iff_not] at this
          exact absurd ((word_ne_zero_iff _).2 ⟨i % 64, Nat.mod_lt _ (by omega), hi⟩) this
      · exact bitAt_ge (by omega)⟩

theorem all_ok {n : Nat} (s : BS n) (hl : s.words.length = numElements n) :
    ∃ b, all s = .ok b ∧ (b = true ↔ ∀ i, i < 64 * numElements n → bitAt s.words i = true) := by
  unfold all
  rcases searchWords s.words (numElements n) hl (fun w => decide (w ≠ BitVec.allOnes 64)) (fun _ _ => false) with
    ⟨k, hk, hp, _, e⟩ | ⟨hall, e⟩
  · simp only [decide_eq_true_eq] at e
    refine ⟨false, by rw [e]; rfl, by
      simp only [Bool.false_eq_true, false_iff]
      intro h
      obtain ⟨j, hj, hb⟩ := (word_ne_ones_iff _).1 (of_decide_eq_true hp)
      have := h (64 * k + j) (by omega)
      rw [bitAt_word _ _ _ hk hj, hb] at this; cases this⟩
  · simp only [decide_eq_true_eq] at e
    refine ⟨true, by rw [e]; rfl, by
      simp only [true_iff]
      intro i hi
      have c : i / 64 < s.words.length := by omega
      cases hb : bitAt s.words i with
      | true => rfl
      | false =>
        rw [bitAt_lt c] at hb
        have := hall _ c
        rw [decide_eq_false_iff_not] at this
        exact absurd ((word_ne_ones_iff _).2 ⟨i % 64, Nat.mod_lt _ (by omega), hb⟩) this⟩

theorem ofValue_3_8 : ofValue 3 8 = .ok ⟨[8]⟩ := by
  simp [ofValue, writeAt, empty, numElements]

/-- **C08** is false of the code: a 3-bit set built from the value 8 has no bit set, yet `any()` returns true. -/
theorem C08_any_false : ∃ s : BS 3, Reachable s ∧ any s = .ok true ∧ ∀ i, i < 3 → get s i = .ok false := by
  refine ⟨⟨[8]⟩, .ofValue 8 ofValue_3_8, ?_, ?_⟩
  · obtain ⟨b, e, h⟩ := any_ok (⟨[8]⟩ : BS 3) rfl
    rw [e, h.2 ⟨3, by decide⟩]
  · decide

/-- **C08** is false of the code also for bit sets without stray bits: a 3-bit set with all three bits set reports
`all() == false`. -/
theorem C08_all_false :
    ∃ s : BS 3, Reachable s ∧ Clean s ∧ all s = .ok false ∧ ∀ i, i < 3 → get s i = .ok true := by
  have hv : ofValue 3 7 = .ok ⟨[7]⟩ := by simp [ofValue, writeAt, empty, numElements]
  refine ⟨⟨[7]⟩, .ofValue 7 hv, ?_, ?_, ?_⟩
  · intro i h1 h2
    rw [get_of_len rfl h2]
    have h2' : i < 64 := by simpa [numElements] using h2
    have : ∀ i < 64, 3 ≤ i → bitAt [7#64] i = false := by decide
    exact congrArg _ (this i h2' h1)
  · obtain ⟨b, e, h⟩ := all_ok (⟨[7]⟩ : BS 3) rfl
    cases b with
    | false => exact e
    | true =>
      have := h.1 rfl 3 (by simp [numElements])
      exact absurd this (by decide)
  · decide

/-- **C08** is false of the code. -/
theorem C08_false : ¬ C08Claim := by
  intro h
  obtain ⟨s, hr, ha, hb⟩ := C08_any_false
  obtain ⟨⟨b, e, hi⟩, _⟩ := h 3 s hr
  rw [ha] at e; cases e
  obtain ⟨i, hi, h'⟩ := hi.1 rfl
  rw [hb i hi] at h'; cases h'

/-- **C08**, the part that holds: for reachable bit sets with no stray bit beyond the size, `any`, `none` and `popCount`
are right for every size, and `all` is right for sizes that are multiples of 64. Missing: stray bits (reachable through
the value constructor, `<<=` and long strings), and `all` for other sizes. -/
theorem C08_partial {n : Nat} (s : BS n) (hr : Reachable s) (hc : Clean s) :
    (∃ b, any s = .ok b ∧ (b = true ↔ ∃ i, i < n ∧ get s i = .ok true)) ∧
    (∃ b, none s = .ok b ∧ (b = true ↔ ∀ i, i < n → get s i = .ok false)) ∧
    popCount s = .ok ((List.range n).countP (fun i => decide (get s i = .ok true))) ∧
    (n % 64 = 0 → ∃ b, all s = .ok b ∧ (b = true ↔ ∀ i, i < n → get s i = .ok true)) ∧
    (n % 64 ≠ 0 → all s = .ok false) := by
  have hl := reachable_length hr
  have hcl := (clean_iff hl).1 hc
  have hcov := words_cover n
  have hlt : ∀ i, bitAt s.words i = true → i < n := by
    intro i hi
    rcases Nat.lt_or_ge i n with h | h
    · exact h
    · rw [hcl i h] at hi; cases hi
  refine ⟨?_, ?_, ?_, ?_, ?_⟩
  · obtain ⟨b, e, h⟩ := any_ok s hl
    refine ⟨b, e, h.trans ⟨?_, ?_⟩⟩
    · rintro ⟨i, hi⟩; exact ⟨i, hlt i hi, by rw [get_reach hr (hlt i hi), hi]⟩
    · rintro ⟨i, hi, hg⟩
      rw [get_reach hr hi] at hg; exact ⟨i, Out.ok.inj hg⟩
  · obtain ⟨b, e, h⟩ := none_ok s hl
    refine ⟨b, e, h.trans ⟨?_, ?_⟩⟩
    · intro h i hi; rw [get_reach hr hi, h i]
    · intro h i
      rcases Nat.lt_or_ge i n with hi | hi
      · have := h i hi
        rw [get_reach hr hi] at this; exact Out.ok.inj this
      · exact hcl i hi
  · unfold popCount
    rw [popLoop s.words (numElements n) (by omega)]
    congr 1
    have hsplit : 64 * numElements n = n + (64 * numElements n - n) := by omega
    rw [hsplit, List.range_add, List.countP_append, List.countP_map]
    have h0 : List.countP ((fun i => bitAt s.words i) ∘ fun x => n + x) (List.range (64 * numElements n - n)) = 0 := by
      rw [List.countP_eq_zero]
      intro a _
      simp [hcl (n + a) (by omega)]
    rw [h0, Nat.add_zero]
    apply List.countP_congr
    intro i hi
    rw [get_reach hr (by simpa using hi)]
    simp
  · intro hn
    obtain ⟨b, e, h⟩ := all_ok s hl
    have h64 : 64 * numElements n = n := by unfold numElements; omega
    refine ⟨b, e, h.trans ⟨?_, ?_⟩⟩
    · intro h i hi; rw [get_reach hr hi, h i (by omega)]
    · intro h i hi
      have := h i (by omega)
      rw [get_reach hr (by omega)] at this; exact Out.ok.inj this
  · intro hn
    obtain ⟨b, e, h⟩ := all_ok s hl
    cases b with
    | false => exact e
    | true =>
      have := h.1 rfl n (by unfold numElements; omega)
      rw [hcl n (Nat.le_refl _)] at this; cases this

/-- A clean reachable bit set with a non-trivial content. -/
example : Reachable (⟨[7]⟩ : BS 3) := .ofValue 7 (by simp [ofValue, writeAt, empty, numElements])

/-! ### C09 -/

theorem first_ok {n : Nat} (s : BS n) (hl : s.words.length = numElements n) :
    (∃ i, first s = .ok i ∧ bitAt s.words i = true ∧ ∀ j, j < i → bitAt s.words j = false) ∨
    (first s = .ok n ∧ ∀ j, bitAt s.words j = false) := by
  unfold first
  rcases searchWords s.words (numElements n) hl (fun w => decide (w ≠ 0)) (fun i w => ctz w + i * 64) with
    ⟨k, hk, hp, hmin, e⟩ | ⟨hall, e⟩
  · left
    simp only [decide_eq_true_eq] at e
    obtain ⟨c1, c2, c3⟩ := ctz_spec _ (show s.words[k] ≠ 0 by simpa using hp)
    refine ⟨ctz s.words[k] + k * 64, by rw [e]; rfl, ?_, ?_⟩
    · rw [show ctz s.words[k] + k * 64 = 64 * k + ctz s.words[k] by omega, bitAt_word _ _ _ hk c1]; exact c2
    · intro j hj
      have hjl : j / 64 < s.words.length := by omega
      rw [bitAt_lt hjl]
      by_cases c : j / 64 = k
      · have := c3 (j % 64) (by omega)
        simp only [c]; exact this
      · have := hmin (j / 64) (by omega)
        rw [decide_eq_false_iff_not, Decidable.not_not] at this
        rw [this]; simp
  · right
    simp only [decide_eq_true_eq] at e
    refine ⟨by rw [e]; rfl, ?_⟩
    intro j
    by_cases c : j / 64 < s.words.length
    · have := hall _ c
      rw [decide_eq_false_iff_not, Decidable.not_not] at this
      rw [bitAt_lt c, this]; simp
    · exact bitAt_ge (by omega)

theorem lastLoop_ok (ws : List W) (i : Nat) (hi : i < ws.length) :
    (∃ k, lastLoop ws i = .ok k ∧ bitAt ws k = true ∧ k / 64 ≤ i ∧ ∀ j, k < j → j / 64 ≤ i → bitAt ws j = false) ∨
    (lastLoop ws i = .ub ∧ ∀ j, j / 64 ≤ i → bitAt ws j = false) := by
  induction i with
  | zero =>
    unfold lastLoop
    rw [readAt_nat _ _ hi]
    by_cases c : ws[0] = 0
    · right
      refine ⟨by simp [c], fun j hj => ?_⟩
      have hj' : j / 64 = 0 := by omega
      rw [bitAt_lt (by omega)]; simp only [hj', c]; simp
    · left
      obtain ⟨t1, t2, t3⟩ := topBit_spec _ c
      refine ⟨topBit ws[0], (if_pos c).trans (by simp), ?_, by omega, ?_⟩
      · have := bitAt_word ws 0 (topBit ws[0]) hi t1
        simpa [t2] using this
      · intro j h1 h2
        have hj' : j / 64 = 0 := by omega
        rw [bitAt_lt (by omega)]; simp only [hj']
        exact t3 _ (by omega)
  | succ i ih =>
    unfold lastLoop
    rw [readAt_nat _ _ hi]
    by_cases c : ws[i + 1] = 0
    · simp only [c, ne_eq, not_true_eq_false, if_false]
      have hz : ∀ j, j / 64 = i + 1 → bitAt ws j = false := by
        intro j hj
        rw [bitAt_lt (by omega)]; simp only [hj, c]; simp
      rcases ih (by omega) with ⟨k, e, h1, h2, h3⟩ | ⟨e, h⟩
      · left
        refine ⟨k, e, h1, by omega, ?_⟩
        intro j hj hj2
        by_cases hj3 : j / 64 = i + 1
        · exact hz j hj3
        · exact h3 j hj (by omega)
      · right
        refine ⟨e, fun j hj => ?_⟩
        by_cases hj3 : j / 64 = i + 1
        · exact hz j hj3
        · exact h j (by omega)
    · left
      obtain ⟨t1, t2, t3⟩ := topBit_spec _ c
      refine ⟨topBit ws[i + 1] + (i + 1) * 64, if_pos c, ?_, by omega, ?_⟩
      · rw [show topBit ws[i + 1] + (i + 1) * 64 = 64 * (i + 1) + topBit ws[i + 1] by omega, bitAt_word _ _ _ hi t1]
        exact t2
      · intro j h1 h2
        have hj' : j / 64 = i + 1 := by omega
        rw [bitAt_lt (by omega)]; simp only [hj']
        exact t3 _ (by omega)

/-- The full property C09. -/
def C09Claim : Prop :=
  ∀ (n : Nat) (s : BS n), Reachable s → Clean s →
    (∃ i, first s = .ok i ∧ ((i < n ∧ get s i = .ok true ∧ ∀ j, j < i → get s j = .ok false) ∨
      (i = n ∧ ∀ j, j < n → get s j = .ok false))) ∧
    (∃ i, last s = .ok i ∧ ((i < n ∧ get s i = .ok true ∧ ∀ j, i < j → j < n → get s j = .ok false) ∨
      (i = n ∧ ∀ j, j < n → get s j = .ok false)))

/-- **C09** is false of the code: `last()` of an empty bit set reads outside the object. -/
theorem C09_last_false : ¬ C09Claim := by
  intro h
  have hclean : Clean (empty 5) := by
    rw [clean_iff (by simp [empty])]
    intro i hi
    by_cases c : i / 64 < (empty 5).words.length
    · rw [bitAt_lt c]; simp [empty]
    · exact bitAt_ge (by omega)
  obtain ⟨_, i, e, _⟩ := h 5 (empty 5) (.empty 5) hclean
  have : last (empty 5) = .ub := by
    simp [last, numElements, lastLoop, empty, readAt]
  rw [this] at e; cases e

/-- **C09**, the part that holds: `first` is right for every clean reachable bit set (reporting the size when no bit is
set), and `last` is right whenever some bit is set; with no bit set `last` is undefined behaviour.
Missing: `last` on an empty bit set. -/
theorem C09_partial {n : Nat} (s : BS n) (hr : Reachable s) (hc : Clean s) :
    (∃ i, first s = .ok i ∧ ((i < n ∧ get s i = .ok true ∧ ∀ j, j < i → get s j = .ok false) ∨
      (i = n ∧ ∀ j, j < n → get s j = .ok false))) ∧
    ((∃ j, j < n ∧ get s j = .ok true) →
      ∃ i, last s = .ok i ∧ i < n ∧ get s i = .ok true ∧ ∀ j, i < j → j < n → get s j = .ok false) ∧
    ((∀ j, j < n → get s j = .ok false) → last s = .ub) := by
  have hl := reachable_length hr
  have hcl := (clean_iff hl).1 hc
  have hcov := words_cover n
  have hlt : ∀ i, bitAt s.words i = true → i < n := by
    intro i hi
    rcases Nat.lt_or_ge i n with h | h
    · exact h
    · rw [hcl i h] at hi; cases hi
  refine ⟨?_, ?_, ?_⟩
  · rcases first_ok s hl with ⟨i, e, h1, h2⟩ | ⟨e, h⟩
    · have hi := hlt i h1
      refine ⟨i, e, Or.inl ⟨hi, by rw [get_reach hr hi, h1], fun j hj => ?_⟩⟩
      rw [get_reach hr (by omega), h2 j hj]
    · exact ⟨n, e, Or.inr ⟨rfl, fun j hj => by rw [get_reach hr hj, h j]⟩⟩
  · rintro ⟨j, hj, hg⟩
    rw [get_reach hr hj] at hg
    have hg := Out.ok.inj hg
    have hne : 0 < numElements n := by unfold numElements; omega
    unfold last
    rw [if_neg (by omega)]
    rcases lastLoop_ok s.words (numElements n - 1) (by omega) with ⟨k, e, h1, h2, h3⟩ | ⟨e, h⟩
    · refine ⟨k, e, hlt k h1, by rw [get_reach hr (hlt k h1), h1], ?_⟩
      intro j hj1 hj2
      rw [get_reach hr hj2, h3 j hj1 (by omega)]
    · rw [h j (by omega)] at hg; cases hg
  · intro h
    unfold last
    split
    · rfl
    · rcases lastLoop_ok s.words (numElements n - 1) (by omega) with ⟨k, e, h1, h2, h3⟩ | ⟨e, _⟩
      · have := h k (hlt k h1)
        rw [get_reach hr (hlt k h1), h1] at this; cases this
      · exact e

example : ∃ j, j < 3 ∧ get (⟨[6]⟩ : BS 3) j = .ok true := ⟨1, by decide⟩

/-! ### C10 -/

/-- The full property C10 (in-place forms; the binary forms copy and apply these). -/
def C10Claim : Prop :=
  ∀ (n m : Nat) (a : BS n) (b : BS m), Reachable a → Reachable b →
    ∀ (f : BS n → BS m → Out (BS n)) (op : Bool → Bool → Bool),
      ((f, op) = (orAssign, or) ∨ (f, op) = (andAssign, and) ∨ (f, op) = (xorAssign, Bool.xor)) →
      ∃ r, f a b = .ok r ∧ ∀ i, i < n → ∀ x y, get a i = .ok x →
        (if i < m then get b i = .ok y else y = false) → get r i = .ok (op x y)

/-- **C10** is false of the code: or-ing a 3-bit set built from the value 8 (no bit below 3 set) into an empty 10-bit
set sets bit 3. -/
theorem C10_false : ¬ C10Claim := by
  intro h
  obtain ⟨r, e, hg⟩ := h 10 3 (empty 10) ⟨[8]⟩ (.empty 10) (.ofValue 8 ofValue_3_8) orAssign or (Or.inl rfl)
  have h1 := hg 3 (by omega) false false (C06_default 10 3 (by omega)) (by simp)
  have e' : orAssign (empty 10) (⟨[8]⟩ : BS 3) = .ok ⟨[8]⟩ := by
    simp [orAssign, zipWords, numElements, empty, forUp, readAt, writeAt]
  rw [e'] at e; cases e
  exact absurd h1 (by decide)

theorem orAssign_ok {n m : Nat} (a : BS n) (b : BS m) (ha : a.words.length = numElements n)
    (hb : b.words.length = numElements m) :
    ∃ r, orAssign a b = .ok r ∧ r.words.length = numElements n ∧
      ∀ i, i / 64 < numElements n → bitAt r.words i = (bitAt a.words i || bitAt b.words i) := by
  obtain ⟨w, e, l, h⟩ := zipWords_bits (· ||| ·) or (by intros; simp) n m a.words b.words ha hb
  refine ⟨⟨w⟩, by unfold orAssign; rw [e]; rfl, by rw [← ha]; exact l, ?_⟩
  intro i hi
  rw [h i]
  by_cases c : i / 64 < b.words.length
  · rw [if_pos ⟨by omega, c⟩]
  · rw [if_neg (fun h => c h.2), bitAt_ge (ws := b.words) (by omega)]; simp

theorem xorAssign_ok {n m : Nat} (a : BS n) (b : BS m) (ha : a.words.length = numElements n)
    (hb : b.words.length = numElements m) :
    ∃ r, xorAssign a b = .ok r ∧ r.words.length = numElements n ∧
      ∀ i, i / 64 < numElements n → bitAt r.words i = Bool.xor (bitAt a.words i) (bitAt b.words i) := by
  obtain ⟨w, e, l, h⟩ := zipWords_bits (· ^^^ ·) Bool.xor (by intros; simp) n m a.words b.words ha hb
  refine ⟨⟨w⟩, by unfold xorAssign; rw [e]; rfl, by rw [← ha]; exact l, ?_⟩
  intro i hi
  rw [h i]
  by_cases c : i / 64 < b.words.length
  · rw [if_pos ⟨by omega, c⟩]
  · rw [if_neg (fun h => c h.2), bitAt_ge (ws := b.words) (by omega)]; simp

theorem andAssign_ok {n m : Nat} (a : BS n) (b : BS m) (ha : a.words.length = numElements n)
    (hb : b.words.length = numElements m) :
    ∃ r, andAssign a b = .ok r ∧ r.words.length = numElements n ∧
      ∀ i, i / 64 < numElements n → bitAt r.words i = (bitAt a.words i && bitAt b.words i) := by
  obtain ⟨w, e, l, h⟩ := zipWords_bits (· &&& ·) and (by intros; simp) n m a.words b.words ha hb
  obtain ⟨w2, e2, l2, h2⟩ := fillLoop_bits w (min (numElements n) (numElements m)) (numElements n) 0 (by omega)
  refine ⟨⟨w2⟩, by unfold andAssign; rw [e, Out.ok_bind, e2]; rfl, ?_, ?_⟩
  · show w2.length = numElements n
    omega
  intro i hi
  simp only
  rw [h2, h i]
  by_cases c : i / 64 < b.words.length
  · rw [if_neg (by omega), if_pos ⟨by omega, c⟩]
  · rw [if_pos (by omega), bitAt_ge (ws := b.words) (by omega)]; simp

/-- **C10**, the part that holds: for a right operand without stray bits beyond its size (and any left operand), each of
`|=`, `&=`, `^=` acts bit by bit for every pair of sizes. Missing: right operands with stray bits. -/
theorem C10_partial {n m : Nat} (a : BS n) (b : BS m) (ha : Reachable a) (hb : Reachable b) (hbc : Clean b)
    (f : BS n → BS m → Out (BS n)) (op : Bool → Bool → Bool)
    (hf : (f, op) = (orAssign, or) ∨ (f, op) = (andAssign, and) ∨ (f, op) = (xorAssign, Bool.xor)) :
    ∃ r, f a b = .ok r ∧ ∀ i, i < n → ∀ x y, get a i = .ok x →
      (if i < m then get b i = .ok y else y = false) → get r i = .ok (op x y) := by
  have la := reachable_length ha
  have lb := reachable_length hb
  have hcl := (clean_iff lb).1 hbc
  have hcov := words_cover n
  have key : ∀ r : BS n, r.words.length = numElements n →
      (∀ i, i / 64 < numElements n → bitAt r.words i = op (bitAt a.words i) (bitAt b.words i)) →
      ∀ i, i < n → ∀ x y, get a i = .ok x →
      (if i < m then get b i = .ok y else y = false) → get r i = .ok (op x y) := by
    intro r lr hr i hi x y hx hy
    rw [get_reach ha hi] at hx
    rw [get_of_len lr (by omega), hr i (by omega), Out.ok.inj hx]
    by_cases c : i < m
    · rw [if_pos c, get_reach hb c] at hy
      rw [Out.ok.inj hy]
    · rw [if_neg c] at hy
      rw [hcl i (by omega), hy]
  rcases hf with hf | hf | hf
  · cases hf
    obtain ⟨r, e, l, h⟩ := orAssign_ok a b la lb
    exact ⟨r, e, key r l h⟩
  · cases hf
    obtain ⟨r, e, l, h⟩ := andAssign_ok a b la lb
    exact ⟨r, e, key r l h⟩
  · cases hf
    obtain ⟨r, e, l, h⟩ := xorAssign_ok a b la lb
    exact ⟨r, e, key r l h⟩

/-- **C10**, cleanliness: if both operands have no stray bits and the right one is not larger, the result has none;
for `&=` the right operand may be anything. -/
theorem C10_clean {n m : Nat} (a : BS n) (b : BS m) (ha : Reachable a) (hb : Reachable b) (hac : Clean a)
    (r : BS n) :
    (andAssign a b = .ok r → Clean r) ∧
    (Clean b → m ≤ n → orAssign a b = .ok r → Clean r) ∧
    (Clean b → m ≤ n → xorAssign a b = .ok r → Clean r) := by
  have la := reachable_length ha
  have lb := reachable_length hb
  have hca := (clean_iff la).1 hac
  refine ⟨?_, ?_, ?_⟩
  · intro e
    obtain ⟨r', e', l, h⟩ := andAssign_ok a b la lb
    rw [e] at e'; cases e'
    rw [clean_iff l]
    intro i hi
    by_cases c : i / 64 < numElements n
    · rw [h i c, hca i hi]; simp
    · exact bitAt_ge (by omega)
  · intro hbc hmn e
    have hcb := (clean_iff lb).1 hbc
    obtain ⟨r', e', l, h⟩ := orAssign_ok a b la lb
    rw [e] at e'; cases e'
    rw [clean_iff l]
    intro i hi
    by_cases c : i / 64 < numElements n
    · rw [h i c, hca i hi, hcb i (by omega)]; simp
    · exact bitAt_ge (by omega)
  · intro hbc hmn e
    have hcb := (clean_iff lb).1 hbc
    obtain ⟨r', e', l, h⟩ := xorAssign_ok a b la lb
    rw [e] at e'; cases e'
    rw [clean_iff l]
    intro i hi
    by_cases c : i / 64 < numElements n
    · rw [h i c, hca i hi, hcb i (by omega)]; simp
    · exact bitAt_ge (by omega)

/-! ### C11 -/

/-- The full property C11: both shifts for every distance, with no stray bits left behind. -/
def C11Claim : Prop :=
  ∀ (n : Nat) (s : BS n), Reachable s → Clean s → ∀ k : Int, -2 ^ 63 < k → k < 2 ^ 63 →
    (∃ r, shl s k = .ok r ∧ Clean r ∧ ∀ i, i < n →
      get r i = if 0 ≤ (i : Int) - k ∧ (i : Int) - k < n then get s ((i : Int) - k).toNat else .ok false) ∧
    (∃ r, shr s k = .ok r ∧ Clean r ∧ ∀ i, i < n →
      get r i = if 0 ≤ (i : Int) + k ∧ (i : Int) + k < n then get s ((i : Int) + k).toNat else .ok false)

theorem empty_clean (n : Nat) : Clean (empty n) := by
  rw [clean_iff (by simp [empty])]
  intro i hi
  by_cases c : i / 64 < (empty n).words.length
  · rw [bitAt_lt c]; simp [empty]
  · exact bitAt_ge (by omega)

/-- **C11** is false of the code: shifting by a whole number of words shifts a word by 64 (undefined behaviour). -/
theorem C11_word_shift_false :
    ∃ s : BS 192, Reachable s ∧ Clean s ∧ shl s 64 = .ub ∧ shr s 64 = .ub := by
  refine ⟨empty 192, .empty 192, empty_clean 192, ?_, ?_⟩
  · simp [shl, shlPos, shlBody, numElements, empty, forUp, readAt, writeAt, wShl, wShr]
  · simp [shr, shrPos, shrBody, numElements, empty, forUp, readAt, writeAt, wShl, wShr]

/-- **C11** is false of the code: shifting by more than the storage writes outside the object. -/
theorem C11_long_shift_false :
    ∃ s : BS 64, Reachable s ∧ Clean s ∧ shl s 200 = .ub ∧ shr s 200 = .ub := by
  refine ⟨empty 64, .empty 64, empty_clean 64, ?_, ?_⟩
  · simp [shl, shlPos, shlBody, numElements, empty, forUp, readAt, writeAt, wShl, wShr]
  · simp [shr, shrPos, shrBody, numElements, empty, forUp, readAt, writeAt, wShl, wShr]

/-- **C11** is false of the code: `<<=` leaves stray bits at and above the size. -/
theorem C11_stray_bits_false :
    ∃ s r : BS 3, Reachable s ∧ Clean s ∧ shl s 1 = .ok r ∧ ¬ Clean r := by
  have hv : ofValue 3 4 = .ok ⟨[4]⟩ := by simp [ofValue, writeAt, empty, numElements]
  refine ⟨⟨[4]⟩, ⟨[8]⟩, .ofValue 4 hv, ?_, ?_, ?_⟩
  · intro i h1 h2
    rw [get_of_len rfl h2]
    have h2' : i < 64 := by simpa [numElements] using h2
    have : ∀ i < 64, 3 ≤ i → bitAt [4#64] i = false := by decide
    exact congrArg _ (this i h2' h1)
  · simp [shl, shlPos, shlBody, numElements, forUp, readAt, writeAt, wShl]
  · intro h
    have := h 3 (by omega) (by decide)
    exact absurd this (by decide)

theorem C11_false : ¬ C11Claim := by
  intro h
  obtain ⟨s, hr, hc, e1, _⟩ := C11_word_shift_false
  obtain ⟨⟨r, e, _⟩, _⟩ := h 192 s hr hc 64 (by decide) (by decide)
  rw [e1] at e; cases e

/-- Distances the code handles: not more words than the object has, and not a whole number of words unless at most one
word survives. -/
def ShiftOk (n k : Nat) : Prop := k / 64 ≤ numElements n ∧ (k % 64 ≠ 0 ∨ numElements n < k / 64 + 2)

/-- **C11**, the part that holds: for a clean bit set and a distance `k` (in either direction) accepted by the code,
every bit inside the size is moved by exactly `k`; right shifts leave no stray bits. Missing: whole-word distances,
distances beyond the storage, and stray bits after left shifts. -/
theorem C11_partial {n : Nat} (s : BS n) (hr : Reachable s) (hc : Clean s) (k : Nat) (hk : ShiftOk n k)
    (hlt : (k : Int) < 2 ^ 63) :
    (∃ r, shl s k = .ok r ∧ shr s (-k) = .ok r ∧ ∀ i, i < n →
      get r i = if k ≤ i then get s (i - k) else .ok false) ∧
    (∃ r, shr s k = .ok r ∧ shl s (-k) = .ok r ∧ Clean r ∧ ∀ i, i < n →
      get r i = if i + k < n then get s (i + k) else .ok false) := by
  have hl := reachable_length hr
  have hcl := (clean_iff hl).1 hc
  have hcov := words_cover n
  have hp : ((2 : Int) ^ 63) = 9223372036854775808 := by decide
  by_cases hk0 : k = 0
  · subst hk0
    refine ⟨⟨s, by simp [shl], by simp [shr], fun i hi => by simp⟩,
      ⟨s, by simp [shr], by simp [shl], hc, fun i hi => by simp [hi]⟩⟩
  · obtain ⟨w1, e1, l1, b1⟩ := shlPos_ok n s.words k hl hk.1 hk.2
    obtain ⟨w2, e2, l2, b2⟩ := shrPos_ok n s.words k hl hk.1 hk.2
    have hneg : (-(-(k : Int))).toNat = k := by omega
    refine ⟨⟨⟨w1⟩, ?_, ?_, ?_⟩, ⟨⟨w2⟩, ?_, ?_, ?_, ?_⟩⟩
    · unfold shl
      rw [if_neg (by omega), if_neg (by omega), if_neg (by omega), Int.toNat_natCast, e1]; rfl
    · unfold shr
      rw [if_neg (by omega), if_pos (by omega), hneg, e1]; rfl
    · intro i hi
      rw [get_of_len (by rw [l1]; exact hl) (by omega), b1 i (by omega)]
      by_cases c : k ≤ i
      · rw [if_pos c, if_pos c, get_reach hr (by omega)]
      · rw [if_neg c, if_neg c]
    · unfold shr
      rw [if_neg (by omega), if_neg (by omega), if_neg (by omega), Int.toNat_natCast, e2]; rfl
    · unfold shl
      rw [if_neg (by omega), if_pos (by omega), hneg, e2]; rfl
    · rw [clean_iff (by rw [l2]; exact hl)]
      intro i hi
      by_cases c : i / 64 < s.words.length
      · rw [b2 i c]; exact hcl _ (by omega)
      · exact bitAt_ge (by rw [l2]; omega)
    · intro i hi
      rw [get_of_len (by rw [l2]; exact hl) (by omega), b2 i (by omega)]
      by_cases c : i + k < n
      · rw [if_pos c, get_reach hr c]
      · rw [if_neg c, hcl _ (by omega)]

/-- Distances meeting the hypothesis: 70 on 200 bits, and even 64 on 128 bits. -/
example : ShiftOk 200 70 ∧ ShiftOk 128 64 ∧ ShiftOk 5 64 ∧ ¬ ShiftOk 192 64 := by
  unfold ShiftOk numElements; omega

/-! ### C12 -/

/-- The full property C12. -/
def C12Claim : Prop :=
  ∀ (n : Nat) (s : BS n), Reachable s → Clean s → 0 < n →
    ∃ r, compl s = .ok r ∧ Clean r ∧ (∀ i, i < n → ∀ b, get s i = .ok b → get r i = .ok (!b)) ∧
      ∃ r2, compl r = .ok r2 ∧ eq r2 s = .ok true

/-- **C12** is false of the code: the complement of the empty 64-bit set is empty. -/
theorem C12_false : ¬ C12Claim := by
  intro h
  obtain ⟨r, e, _, hb, _⟩ := h 64 (empty 64) (.empty 64) (empty_clean 64) (by omega)
  have h0 := hb 0 (by omega) false (C06_default 64 0 (by omega))
  obtain ⟨r', e', l', b'⟩ := compl_ok (empty 64) (by simp [empty]) (by omega)
  rw [e] at e'; cases e'
  rw [get_of_len l' (by simp [numElements]), b' 0, if_pos (by simp [numElements]), if_pos (by simp [numElements])] at h0
  simp at h0

theorem eq_ok {n : Nat} (a b : BS n) (ha : a.words.length = numElements n) (hb : b.words.length = numElements n) :
    eq a b = .ok (decide (a.words = b.words)) := by
  unfold eq
  by_cases c : a.words = b.words
  · have : searchUp 0 (numElements n) (fun i => do
        let x ← readAt a.words (i : Nat)
        let y ← readAt b.words (i : Nat)
        return if x ≠ y then some false else .none) = .ok .none := by
      apply searchUp_none
      intro i _ hi
      rw [c, readAt_nat _ _ (by omega)]; simp
    rw [this]; simp [c]
  · have hex : ∃ k, ∃ h1 : k < a.words.length, ∃ h2 : k < b.words.length, a.words[k] ≠ b.words[k] ∧
        ∀ i, i < k → ∀ (h1 : i < a.words.length) (h2 : i < b.words.length), a.words[i] = b.words[i] := by
      have h0 : ∃ k, ∃ h1 : k < a.words.length, ∃ h2 : k < b.words.length, a.words[k] ≠ b.words[k] := by
        by_cases h : ∃ k, ∃ h1 : k < a.words.length, ∃ h2 : k < b.words.length, a.words[k] ≠ b.words[k]
        · exact h
        · exfalso; apply c
          apply List.ext_getElem (by omega)
          intro k h1 h2
          by_cases h3 : a.words[k] = b.words[k]
          · exact h3
          · exact absurd ⟨k, h1, h2, h3⟩ h
      obtain ⟨k, hk⟩ := h0
      induction k using Nat.strongRecOn with
      | _ k ih =>
        by_cases c' : ∃ i, i < k ∧ ∃ h1 : i < a.words.length, ∃ h2 : i < b.words.length, a.words[i] ≠ b.words[i]
        · obtain ⟨i, hi, h⟩ := c'
          exact ih i hi h
        · obtain ⟨h1, h2, h3⟩ := hk
          refine ⟨k, h1, h2, h3, fun i hi g1 g2 => ?_⟩
          by_cases g : a.words[i] = b.words[i]
          · exact g
          · exact absurd ⟨i, hi, g1, g2, g⟩ c'
    obtain ⟨k, h1, h2, h3, hmin⟩ := hex
    have : searchUp 0 (numElements n) (fun i => do
        let x ← readAt a.words (i : Nat)
        let y ← readAt b.words (i : Nat)
        return if x ≠ y then some false else .none) = .ok (some false) := by
      apply searchUp_some (k := k) (by omega) (by omega)
      · rw [readAt_nat _ _ h1, readAt_nat _ _ h2]; simp [h3]
      · intro i _ hi
        rw [readAt_nat _ _ (by omega), readAt_nat _ _ (by omega)]
        simp [hmin i hi (by omega) (by omega)]
    rw [this]; simp [c]

/-- **C12**, the part that holds: for sizes that are not multiples of 64, `~` flips exactly the bits inside the size,
leaves no stray bits (even if there were some) and is an involution on clean bit sets. Missing: multiples of 64, where
the last word of the result is zero. -/
theorem C12_partial {n : Nat} (s : BS n) (hr : Reachable s) (hn : n % 64 ≠ 0) :
    ∃ r, compl s = .ok r ∧ Clean r ∧ (∀ i, i < n → ∀ b, get s i = .ok b → get r i = .ok (!b)) ∧
      (Clean s → ∃ r2, compl r = .ok r2 ∧ eq r2 s = .ok true) := by
  have hl := reachable_length hr
  have hcov := words_cover n
  have key : ∀ t : BS n, t.words.length = numElements n →
      ∃ r, compl t = .ok r ∧ r.words.length = numElements n ∧ ∀ i, bitAt r.words i = (decide (i < n) && !bitAt t.words i) := by
    intro t ht
    obtain ⟨r, e, l, b⟩ := compl_ok t ht (by omega)
    refine ⟨r, e, l, fun i => ?_⟩
    rw [b i]
    by_cases c1 : i / 64 < numElements n
    · rw [if_pos c1]
      by_cases c2 : i / 64 = numElements n - 1
      · rw [if_pos c2]
        have : (i % 64 < n % 64) ↔ i < n := by unfold numElements at *; omega
        simp only [this]
        cases bitAt t.words i <;> simp
      · rw [if_neg c2]
        have : i < n := by unfold numElements at *; omega
        simp [this]
    · rw [if_neg c1]
      have : ¬ i < n := by omega
      simp [this]
  obtain ⟨r, e, l, b⟩ := key s hl
  refine ⟨r, e, ?_, ?_, ?_⟩
  · rw [clean_iff l]
    intro i hi
    rw [b i]
    have : ¬ i < n := by omega
    simp [this]
  · intro i hi v hv
    rw [get_reach hr hi] at hv
    rw [get_of_len l (by omega), b i, Out.ok.inj hv]
    simp [hi]
  · intro hc
    have hcl := (clean_iff hl).1 hc
    obtain ⟨r2, e2, l2, b2⟩ := key r l
    refine ⟨r2, e2, ?_⟩
    have : r2.words = s.words := by
      apply words_ext (by omega)
      intro i _
      rw [b2, b]
      by_cases c : i < n
      · simp [c]
      · simp [c, hcl i (by omega)]
    rw [eq_ok r2 s l2 hl]; simp [this]

example : (70 : Nat) % 64 ≠ 0 ∧ Reachable (empty 70) := ⟨by decide, .empty 70⟩

/-! ### C13 -/

/-- What the text form must be: `n` characters, bit `i` at position `n - 1 - i`. -/
def IsText {n : Nat} (s : BS n) (t : List Char) : Prop :=
  t.length = n ∧ ∀ i, i < n → ∀ b, get s i = .ok b → t[n - 1 - i]? = some (if b then '1' else '0')

theorem str_ok {n : Nat} (s : BS n) (hr : Reachable s) : ∃ t, str s = .ok t ∧ IsText s t := by
  have inv : ∃ t, str s = .ok t ∧ (t.length = n ∧ ∀ j, j < n →
      t[j]? = some (if bitAt s.words (n - 1 - j) then '1' else '0')) := by
    unfold str
    apply forUp_inv (P := fun k (t : List Char) => t.length = k ∧ ∀ j, j < k →
      t[j]? = some (if bitAt s.words (n - 1 - j) then '1' else '0')) (by omega)
    · exact ⟨rfl, by omega⟩
    · rintro i t _ hi ⟨hl, ht⟩
      refine ⟨t ++ [if bitAt s.words (n - 1 - i) then '1' else '0'], ?_, by simp [hl], ?_⟩
      · rw [get_reach hr (by omega)]; rfl
      · intro j hj
        by_cases c : j < i
        · rw [List.getElem?_append_left (by omega)]; exact ht j c
        · have : j = i := by omega
          subst this
          rw [← hl]; simp
  obtain ⟨t, e, hl, ht⟩ := inv
  refine ⟨t, e, hl, ?_⟩
  intro i hi b hb
  rw [get_reach hr hi] at hb
  rw [ht _ (by omega), show n - 1 - (n - 1 - i) = i by omega, Out.ok.inj hb]

/-- Bits after constructing from a string of `zero`/`one` characters of length at most the storage. -/
theorem ofString_ok (asserts : Bool) (n : Nat) (t : List Char) (zero one : Char) (hzo : zero ≠ one)
    (hch : ∀ c ∈ t, c = zero ∨ c = one) (hlen : t.length ≤ n) :
    ∃ s, ofString asserts n t zero one = .ok s ∧ s.words.length = numElements n ∧
      ∀ i, bitAt s.words i = decide (i < t.length ∧ t[t.length - 1 - i]? = some one) := by
  have hcov := words_cover n
  have inv : ∃ w, forUp 0 t.length (ofStringBody asserts t zero one) (empty n).words = .ok w ∧ (w.length = numElements n ∧
      ∀ i, bitAt w i = decide (t.length ≤ i + t.length ∧ i < t.length ∧ t[t.length - 1 - i]? = some one)) := by
    apply forUp_inv (P := fun k (w : List W) => w.length = numElements n ∧
      ∀ i, bitAt w i = decide (t.length ≤ i + k ∧ i < t.length ∧ t[t.length - 1 - i]? = some one)) (by omega)
    · refine ⟨by simp [empty], fun i => ?_⟩
      have h0 : bitAt (empty n).words i = false := by
        by_cases c : i / 64 < (empty n).words.length
        · rw [bitAt_lt c]; simp [empty]
        · exact bitAt_ge (by omega)
      rw [h0]; symm; rw [decide_eq_false_iff_not]; omega
    · rintro k w _ hk ⟨hl, hb⟩
      unfold ofStringBody
      rw [List.getElem?_eq_getElem hk]
      have hmem := hch t[k] (List.getElem_mem _)
      have hstep : ∀ i, i ≠ t.length - k - 1 →
          decide (t.length ≤ i + k ∧ i < t.length ∧ t[t.length - 1 - i]? = some one) =
          decide (t.length ≤ i + (k + 1) ∧ i < t.length ∧ t[t.length - 1 - i]? = some one) := by
        intro i hi
        rw [decide_eq_decide]
        constructor
        · rintro ⟨h1, h2, h3⟩; exact ⟨by omega, h2, h3⟩
        · rintro ⟨h1, h2, h3⟩; exact ⟨by omega, h2, h3⟩
      have hkk : t[t.length - 1 - (t.length - k - 1)]? = some t[k] := by
        rw [show t.length - 1 - (t.length - k - 1) = k by omega, List.getElem?_eq_getElem hk]
      rcases hmem with hz | ho
      · refine ⟨w, by simp [hz], hl, fun i => ?_⟩
        rw [hb]
        by_cases c : i = t.length - k - 1
        · subst c
          rw [hkk, hz]
          simp [hzo]
        · exact hstep i c
      · obtain ⟨w', e', l', b'⟩ := setBit_ok w (t.length - k - 1) true (by omega)
        refine ⟨w', ?_, by omega, fun i => ?_⟩
        · simp only [ho, if_neg (Ne.symm hzo), if_true]; exact e'
        · rw [b']
          by_cases c : i = t.length - k - 1
          · rw [if_pos c]; subst c
            rw [hkk, ho]
            symm; rw [decide_eq_true_eq]; exact ⟨by omega, by omega, rfl⟩
          · rw [if_neg c, hb]; exact hstep i c
  obtain ⟨w, e, l, b⟩ := inv
  refine ⟨⟨w⟩, by unfold ofString; rw [e]; rfl, l, fun i => ?_⟩
  simp only
  rw [b i, decide_eq_decide]
  constructor
  · rintro ⟨_, h2, h3⟩; exact ⟨h2, h3⟩
  · rintro ⟨h2, h3⟩; exact ⟨by omega, h2, h3⟩

/-- **C13**, string constructor: a string of zero/one characters no longer than the size gives, for either assertion
setting, a bit set whose bit `i` is the character `i` places before the end, with all other bits false. -/
theorem C13_string_constructor (asserts : Bool) (n : Nat) (t : List Char) (zero one : Char) (hzo : zero ≠ one)
    (hch : ∀ c ∈ t, c = zero ∨ c = one) (hlen : t.length ≤ n) :
    ∃ s, ofString asserts n t zero one = .ok s ∧ Clean s ∧
      ∀ i, i < n → get s i = .ok (decide (i < t.length ∧ t[t.length - 1 - i]? = some one)) := by
  have hcov := words_cover n
  obtain ⟨s, e, l, b⟩ := ofString_ok asserts n t zero one hzo hch hlen
  refine ⟨s, e, ?_, ?_⟩
  · rw [clean_iff l]
    intro i hi
    rw [b i, decide_eq_false_iff_not]
    omega
  · intro i hi
    rw [get_of_len l (by omega), b i]

/-- **C13**, invalid characters are rejected when assertions are compiled in. -/
theorem C13_invalid_character (n : Nat) (t : List Char) (zero one : Char)
    (hlen : t.length ≤ n) (hbad : ∃ c ∈ t, c ≠ zero ∧ c ≠ one) :
    ofString true n t zero one = .throw .runtimeError := by
  have hcov := words_cover n
  have key : ∀ m lo (w : List W), w.length = numElements n → t.length - lo = m → (∃ i, ∃ hi : i < t.length, lo ≤ i ∧
      t[i] ≠ zero ∧ t[i] ≠ one) → forUp lo t.length (ofStringBody true t zero one) w = .throw .runtimeError := by
    intro m
    induction m with
    | zero => rintro lo w _ hm ⟨i, hi, h1, _⟩; omega
    | succ m ih =>
      rintro lo w hl hm ⟨i, hi, h1, h2, h3⟩
      have hlo : lo < t.length := by omega
      rw [forUp, if_pos hlo, ofStringBody, List.getElem?_eq_getElem hlo]
      have next : (t[lo] = zero ∨ t[lo] = one) → lo + 1 ≤ i := by
        intro h
        rcases Nat.lt_or_ge lo i with h' | h'
        · exact h'
        · have : lo = i := by omega
          subst this
          rcases h with h | h
          · exact absurd h h2
          · exact absurd h h3
      by_cases cz : t[lo] = zero
      · simp only [cz, if_true]
        exact ih (lo + 1) w hl (by omega) ⟨i, hi, next (Or.inl cz), h2, h3⟩
      · by_cases co : t[lo] = one
        · obtain ⟨w', e', l', _⟩ := setBit_ok w (t.length - lo - 1) true (by omega)
          simp only [if_neg cz, if_pos co, e']
          exact ih (lo + 1) w' (by omega) (by omega) ⟨i, hi, next (Or.inr co), h2, h3⟩
        · simp [cz, co]
  obtain ⟨c, hc, h1, h2⟩ := hbad
  obtain ⟨i, hi, e⟩ := List.getElem_of_mem hc
  unfold ofString
  rw [key _ 0 _ (by simp [empty]) rfl ⟨i, hi, by omega, by rw [e]; exact h1, by rw [e]; exact h2⟩]
  rfl

/-- The full property C13: text form, and round trip. -/
def C13Claim : Prop :=
  ∀ (n : Nat) (s : BS n), Reachable s → ∃ t, str s = .ok t ∧ IsText s t ∧
    ∃ s', ofString true n t '0' '1' = .ok s' ∧ eq s s' = .ok true

theorem roundtrip {n : Nat} (s : BS n) (hr : Reachable s) (asserts : Bool) :
    ∃ t, str s = .ok t ∧ IsText s t ∧ ∃ s', ofString asserts n t '0' '1' = .ok s' ∧
      s'.words.length = numElements n ∧ ∀ i, bitAt s'.words i = (decide (i < n) && bitAt s.words i) := by
  obtain ⟨t, e, ht⟩ := str_ok s hr
  have hch : ∀ c ∈ t, c = '0' ∨ c = '1' := by
    intro c hc
    obtain ⟨j, hj, ej⟩ := List.getElem_of_mem hc
    have hjn : j < n := by have := ht.1; omega
    have := ht.2 (n - 1 - j) (by omega) _ (get_reach hr (by omega))
    rw [show n - 1 - (n - 1 - j) = j by omega, List.getElem?_eq_getElem hj, ej] at this
    have := Option.some.inj this
    rw [this]; split <;> simp
  obtain ⟨s', e', l', b'⟩ := ofString_ok asserts n t '0' '1' (by decide) hch (by rw [ht.1]; omega)
  refine ⟨t, e, ht, s', e', l', fun i => ?_⟩
  rw [b' i]
  by_cases c : i < n
  · have := ht.2 i c _ (get_reach hr c)
    rw [ht.1, this]
    cases bitAt s.words i <;> simp [c]
  · have : ¬ i < t.length := by rw [ht.1]; exact c
    simp [c, this]

/-- **C13** is false of the code: the 3-bit set built from the value 8 prints as `000`, and reading that back gives a
bit set that does not compare equal. -/
theorem C13_false : ¬ C13Claim := by
  intro h
  have hr : Reachable (⟨[8]⟩ : BS 3) := .ofValue 8 ofValue_3_8
  obtain ⟨t, e, ht, s', e', heq⟩ := h 3 ⟨[8]⟩ hr
  obtain ⟨t2, e2, _, s2, e2', l2, b2⟩ := roundtrip (⟨[8]⟩ : BS 3) hr true
  rw [e] at e2; cases e2
  rw [e'] at e2'; cases e2'
  rw [eq_ok _ _ rfl l2] at heq
  have heq := of_decide_eq_true (Out.ok.inj heq)
  have := b2 3
  rw [← heq] at this
  exact absurd this (by decide)

/-- **C13**, the part that holds: the text form is right for every reachable bit set, and the round trip gives an equal
bit set whenever there are no stray bits beyond the size. Missing: round trip of bit sets with stray bits. -/
theorem C13_partial {n : Nat} (s : BS n) (hr : Reachable s) (asserts : Bool) :
    ∃ t, str s = .ok t ∧ IsText s t ∧
      (Clean s → ∃ s', ofString asserts n t '0' '1' = .ok s' ∧ eq s s' = .ok true) := by
  have hl := reachable_length hr
  obtain ⟨t, e, ht, s', e', l', b'⟩ := roundtrip s hr asserts
  refine ⟨t, e, ht, fun hc => ⟨s', e', ?_⟩⟩
  have hcl := (clean_iff hl).1 hc
  rw [eq_ok _ _ hl l']
  have : s.words = s'.words := by
    apply words_ext (by omega)
    intro i _
    rw [b' i]
    by_cases c : i < n
    · simp [c]
    · simp [c, hcl i (by omega)]
  simp [this]

example : ofString true 5 "101".toList '0' '1' = .ok ⟨[5]⟩ := by
  simp [ofString, ofStringBody, forUp, setBit, readAt, writeAt, empty, numElements]

end Verif.BitSetM
