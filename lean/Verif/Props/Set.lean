import Verif.Lemmas.Set
import Verif.Spec.Set
import Mathlib.Order.Defs.LinearOrder
import Mathlib.Data.Nat.Init
import Mathlib.Data.Nat.Basic

/-! Property theorems for `librapid::Set` (C01 - C05). -/

namespace Verif.SetM

variable {α : Type} [LinearOrder α]

/-! ### Bridges -/

theorem index_ok_iff (s : LSet α) (i : Int) (x : α) :
    index true s i = .ok x ↔ 0 ≤ i ∧ i < s.data.length ∧ s.data[i.toNat]? = some x := by
  unfold index
  by_cases h : 0 ≤ i ∧ i < s.data.length
  · have h1 : (decide (0 ≤ i) && decide (i < (s.data.length : Int))) = true := by simp [h.1, h.2]
    rw [h1]
    simp only [Out.assert_true, Out.ok_bind, readAt, if_pos h.1]
    rw [List.getElem?_eq_getElem (by omega)]
    simp [h.1, h.2]
  · have h1 : (decide (0 ≤ i) && decide (i < (s.data.length : Int))) = false := by
      simp only [Bool.and_eq_false_iff, decide_eq_false_iff_not]; omega
    rw [h1]
    simp only [Out.assert_on_false, Out.throw_bind, reduceCtorEq, false_iff]
    intro h2; exact h ⟨h2.1, h2.2.1⟩

theorem elem_iff (s : LSet α) (x : α) : Elem s x ↔ x ∈ s.data := by
  constructor
  · rintro ⟨i, hi⟩
    exact List.mem_of_getElem? ((index_ok_iff s i x).1 hi).2.2
  · intro hx
    obtain ⟨i, hi, e⟩ := List.getElem_of_mem hx
    exact ⟨i, (index_ok_iff s i x).2 ⟨by omega, by omega, by
      rw [← e]; exact List.getElem?_eq_getElem hi⟩⟩

theorem step_sorted {s s' : LSet α} (op : Op α) (hs : Sorted s.data) (h : step s op = .ok s') :
    Sorted s'.data := by
  cases op with
  | assign l => cases h; exact (ofList_spec l).1
  | insert x => obtain ⟨t, e, ht, _⟩ := insert_spec s hs x; rw [step, e] at h; cases h; exact ht
  | insertMany l => obtain ⟨t, e, ht, _⟩ := insertMany_spec l s hs; rw [step, e] at h; cases h; exact ht
  | discard x => obtain ⟨t, e, ht, _⟩ := discard_spec s hs x; rw [step, e] at h; cases h; exact ht
  | discardMany l => obtain ⟨t, e, ht, _⟩ := discardMany_spec l s hs; rw [step, e] at h; cases h; exact ht

theorem reachable_sorted {s : LSet α} (h : Reachable s) : Sorted s.data := by
  induction h with
  | default => exact List.Pairwise.nil
  | ofList l => exact (ofList_spec l).1
  | step op _ e ih => exact step_sorted op ih e
  | @remove s s' a x _ e ih =>
    obtain ⟨t, e', ht, _⟩ := discard_spec s ih x
    unfold remove at e
    rw [contains_spec s ih, e'] at e
    simp only [Out.ok_bind] at e
    obtain ⟨_, _, e⟩ := Out.bind_eq_ok.1 e
    cases e; exact ht
  | union _ _ h1 h2 => exact unionLoop_sorted _ _ h1 h2
  | inter _ _ h1 _ => exact h1.sublist (interLoop_sublist _ _)
  | symm _ _ h1 h2 => exact symmLoop_sorted _ _ h1 h2
  | diff _ _ h1 _ => exact h1.sublist (diffLoop_sublist _ _)

/-! ### C01 -/

theorem lastAdded_snoc (h : List (Ev α)) (e : Ev α) (x : α) :
    LastAdded (h ++ [e]) x ↔ (e = .add x ∨ (¬ e.Mentions x ∧ LastAdded h x)) := by
  constructor
  · rintro ⟨pre, post, heq, hp⟩
    rcases List.eq_nil_or_concat post with rfl | ⟨post', e', rfl⟩
    · left
      have := List.append_inj_right' heq (by simp)
      simpa using this
    · right
      simp only [List.concat_eq_append] at heq hp
      have heq' : h ++ [e] = (pre ++ Ev.add x :: post') ++ [e'] := by simpa using heq
      have h1 := List.append_inj_left' heq' (by simp)
      have h2 := List.append_inj_right' heq' (by simp)
      cases h2
      exact ⟨hp e (by simp), pre, post', h1, fun f hf => hp f (by simp [hf])⟩
  · rintro (rfl | ⟨hm, pre, post, rfl, hp⟩)
    · exact ⟨h, [], rfl, by simp⟩
    · refine ⟨pre, post ++ [e], by simp, ?_⟩
      intro f hf
      rcases List.mem_append.1 hf with hf | hf
      · exact hp f hf
      · rw [List.mem_singleton.1 hf]; exact hm

theorem lastAdded_adds (h : List (Ev α)) (l : List α) (x : α) :
    LastAdded (h ++ l.map .add) x ↔ LastAdded h x ∨ x ∈ l := by
  induction l generalizing h with
  | nil => simp
  | cons y ys ih =>
    have : h ++ (y :: ys).map Ev.add = (h ++ [Ev.add y]) ++ ys.map Ev.add := by simp
    rw [this, ih, lastAdded_snoc]
    simp only [Ev.add.injEq, Ev.Mentions, List.mem_cons]
    constructor
    · rintro ((rfl | ⟨_, h2⟩) | h3)
      · right; left; rfl
      · left; exact h2
      · right; right; exact h3
    · rintro (h1 | rfl | h3)
      · by_cases e : y = x
        · left; left; exact e
        · left; right; exact ⟨e, h1⟩
      · left; left; rfl
      · right; exact h3

theorem lastAdded_dels (h : List (Ev α)) (l : List α) (x : α) :
    LastAdded (h ++ l.map .del) x ↔ LastAdded h x ∧ x ∉ l := by
  induction l generalizing h with
  | nil => simp
  | cons y ys ih =>
    have : h ++ (y :: ys).map Ev.del = (h ++ [Ev.del y]) ++ ys.map Ev.del := by simp
    rw [this, ih, lastAdded_snoc]
    simp only [reduceCtorEq, Ev.Mentions, List.mem_cons, not_or, false_or]
    constructor
    · rintro ⟨⟨h1, h2⟩, h3⟩; exact ⟨h2, Ne.symm h1, h3⟩
    · rintro ⟨h2, h1, h3⟩; exact ⟨⟨Ne.symm h1, h2⟩, h3⟩

theorem run_spec (ops : List (Op α)) (s : LSet α) (hs : Sorted s.data) (h : List (Ev α))
    (hm : ∀ x, x ∈ s.data ↔ LastAdded h x) :
    ∃ s', run s ops = .ok s' ∧ Sorted s'.data ∧
      ∀ x, x ∈ s'.data ↔ LastAdded (h ++ ops.flatMap Op.events) x := by
  induction ops generalizing s h with
  | nil => exact ⟨s, rfl, hs, by simpa using hm⟩
  | cons op ops ih =>
    have key : ∃ s1, step s op = .ok s1 ∧ Sorted s1.data ∧
        ∀ x, x ∈ s1.data ↔ LastAdded (h ++ op.events) x := by
      cases op with
      | assign l =>
        refine ⟨_, rfl, (ofList_spec l).1, ?_⟩
        intro x
        have : h ++ (Op.assign l).events = (h ++ [Ev.clear]) ++ l.map Ev.add := by simp [Op.events]
        rw [this, lastAdded_adds, lastAdded_snoc, (ofList_spec l).2]
        simp [Ev.Mentions]
      | insert y =>
        obtain ⟨t, e, ht, m⟩ := insert_spec s hs y
        refine ⟨t, e, ht, ?_⟩
        intro x
        have := lastAdded_adds h [y] x
        simp only [List.map_cons, List.map_nil] at this
        rw [m, hm, Op.events, this]; simp
      | insertMany l =>
        obtain ⟨t, e, ht, m⟩ := insertMany_spec l s hs
        refine ⟨t, e, ht, ?_⟩
        intro x
        rw [m, hm, Op.events, lastAdded_adds]
      | discard y =>
        obtain ⟨t, e, ht, m⟩ := discard_spec s hs y
        refine ⟨t, e, ht, ?_⟩
        intro x
        have := lastAdded_dels h [y] x
        simp only [List.map_cons, List.map_nil] at this
        rw [m, hm, Op.events, this]; simp
      | discardMany l =>
        obtain ⟨t, e, ht, m⟩ := discardMany_spec l s hs
        refine ⟨t, e, ht, ?_⟩
        intro x
        rw [m, hm, Op.events, lastAdded_dels]
    obtain ⟨s1, e1, hs1, m1⟩ := key
    obtain ⟨s2, e2, hs2, m2⟩ := ih s1 hs1 _ m1
    refine ⟨s2, by simp [run, e1, e2], hs2, ?_⟩
    intro x
    rw [m2]; simp

/-- **C01**. Every history of operations on a default-constructed set ends normally; the final set reports `x` as a
member, both through `contains` and through `operator[]`, exactly when the last operation that mentioned `x` added it;
its elements are strictly increasing; its size is the number of distinct members. -/
theorem C01_set_history (ops : List (Op α)) :
    ∃ s, run SetM.empty ops = .ok s ∧
      (∀ x, Elem s x ↔ LastAdded (ops.flatMap Op.events) x) ∧
      (∀ x, ∃ b, contains s x = .ok b ∧ (b = true ↔ LastAdded (ops.flatMap Op.events) x)) ∧
      (∀ i j x y, i < j → index true s i = .ok x → index true s j = .ok y → x < y) ∧
      (∀ l : List α, l.Nodup → (∀ x, x ∈ l ↔ LastAdded (ops.flatMap Op.events) x) → size s = l.length) := by
  obtain ⟨s, e, hs, m⟩ := run_spec ops SetM.empty List.Pairwise.nil [] (by
    intro x
    constructor
    · intro h; cases h
    · rintro ⟨pre, post, h, _⟩; simp at h)
  simp only [List.nil_append] at m
  refine ⟨s, e, fun x => by rw [elem_iff, m], fun x => ⟨_, contains_spec s hs x, by simp [m]⟩, ?_, ?_⟩
  · intro i j x y hij hi hj
    obtain ⟨i0, i1, ix⟩ := (index_ok_iff s i x).1 hi
    obtain ⟨j0, j1, jy⟩ := (index_ok_iff s j y).1 hj
    rw [List.getElem?_eq_getElem (by omega)] at ix jy
    injection ix with ix; injection jy with jy
    rw [← ix, ← jy]
    exact sorted_get_lt hs (by omega) _
  · intro l hl hx
    have hnd : s.data.Nodup := hs.imp (fun h => ne_of_lt h)
    have hp : s.data.Perm l := (List.perm_ext_iff_of_nodup hnd hl).2 (fun x => by rw [m, hx])
    simp [size, hp.length_eq]

/-- The claim is not vacuous: in this history 5 is re-inserted and present at the end, 1 is discarded and absent. -/
example : LastAdded (([.assign [5, 1, 5], .insertMany [9, 1], .discard 5, .insert 3, .insert 5, .discardMany [1, 7]] :
      List (Op Nat)).flatMap Op.events) 5 ∧
    ¬ LastAdded (([.assign [5, 1, 5], .insertMany [9, 1], .discard 5, .insert 3, .insert 5, .discardMany [1, 7]] :
      List (Op Nat)).flatMap Op.events) 1 := by
  constructor
  · refine ⟨[.clear, .add 5, .add 1, .add 5, .add 9, .add 1, .del 5, .add 3], [.del 1, .del 7], rfl, ?_⟩
    simp [Ev.Mentions]
  · have := lastAdded_dels (α := Nat)
      (([.assign [5, 1, 5], .insertMany [9, 1], .discard 5, .insert 3, .insert 5] : List (Op Nat)).flatMap Op.events)
      [1, 7] 1
    intro h
    exact absurd (this.1 h).2 (by simp)

/-! ### C02 -/

/-- **C02**. On every reachable set, `contains` terminates, reads only inside the set (no `ub`) and answers exactly
whether `x` is one of the elements. -/
theorem C02_contains {s : LSet α} (h : Reachable s) (x : α) :
    ∃ b, contains s x = .ok b ∧ (b = true ↔ Elem s x) :=
  ⟨_, contains_spec s (reachable_sorted h) x, by simp [elem_iff]⟩

example : Reachable (symm (union (ofList [4, 2, 2]) (ofList [7])) (ofList [3, 4]) : LSet Nat) :=
  .symm (.union (.ofList _) (.ofList _)) (.ofList _)

/-! ### C03 -/

/-- **C03**. Union, intersection and difference of reachable sets are the mathematical ones, as seen through
`operator[]` and through `contains`. -/
theorem C03_union_inter_diff {a b : LSet α} (ha : Reachable a) (hb : Reachable b) (x : α) :
    (Elem (union a b) x ↔ Elem a x ∨ Elem b x) ∧
    (Elem (inter a b) x ↔ Elem a x ∧ Elem b x) ∧
    (Elem (diff a b) x ↔ Elem a x ∧ ¬ Elem b x) ∧
    (contains (union a b) x = .ok true ↔ Elem a x ∨ Elem b x) ∧
    (contains (inter a b) x = .ok true ↔ Elem a x ∧ Elem b x) ∧
    (contains (diff a b) x = .ok true ↔ Elem a x ∧ ¬ Elem b x) := by
  have sa := reachable_sorted ha
  have sb := reachable_sorted hb
  have h1 : Elem (union a b) x ↔ Elem a x ∨ Elem b x := by
    simp only [elem_iff]; exact unionLoop_mem _ _ _
  have h2 : Elem (inter a b) x ↔ Elem a x ∧ Elem b x := by
    simp only [elem_iff]; exact interLoop_mem _ _ sa sb _
  have h3 : Elem (diff a b) x ↔ Elem a x ∧ ¬ Elem b x := by
    simp only [elem_iff]; exact diffLoop_mem _ _ sa sb _
  have hc : ∀ t : LSet α, Reachable t → (contains t x = .ok true ↔ Elem t x) := by
    intro t ht
    rw [contains_spec t (reachable_sorted ht), elem_iff]; simp
  exact ⟨h1, h2, h3, (hc _ (.union ha hb)).trans h1, (hc _ (.inter ha hb)).trans h2,
    (hc _ (.diff ha hb)).trans h3⟩

/-- **C03**, well-formedness: the results are strictly increasing as seen through `operator[]`. -/
theorem C03_wellformed {a b : LSet α} (ha : Reachable a) (hb : Reachable b) :
    ∀ t ∈ [union a b, inter a b, diff a b, symm a b],
      ∀ i j x y, i < j → index true t i = .ok x → index true t j = .ok y → x < y := by
  have key : ∀ t : LSet α, Reachable t →
      ∀ i j x y, i < j → index true t i = .ok x → index true t j = .ok y → x < y := by
    intro t ht i j x y hij hi hj
    have hs := reachable_sorted ht
    obtain ⟨i0, i1, ix⟩ := (index_ok_iff t i x).1 hi
    obtain ⟨j0, j1, jy⟩ := (index_ok_iff t j y).1 hj
    rw [List.getElem?_eq_getElem (by omega)] at ix jy
    injection ix with ix; injection jy with jy
    rw [← ix, ← jy]
    exact sorted_get_lt hs (by omega) _
  intro t ht
  simp only [List.mem_cons, List.not_mem_nil, or_false] at ht
  rcases ht with rfl | rfl | rfl | rfl
  · exact key _ (.union ha hb)
  · exact key _ (.inter ha hb)
  · exact key _ (.diff ha hb)
  · exact key _ (.symm ha hb)

example : union (⟨[1, 4]⟩ : LSet Nat) ⟨[2, 4, 6]⟩ = ⟨[1, 2, 4, 6]⟩ := by simp [union, unionLoop]

/-! ### C04 -/

/-- The full property C04: membership in `a ^ b` is exclusive or. -/
def C04Claim (α : Type) [LinearOrder α] : Prop :=
  ∀ a b : LSet α, Reachable a → Reachable b → ∀ x, Elem (symm a b) x ↔ (Elem a x ∧ ¬ Elem b x) ∨ (Elem b x ∧ ¬ Elem a x)

/-- **C04** is false of the code: `{1} ^ {2, 3}` loses 2 and 3 (the loop drops the tail of the operand that does not
run out). -/
theorem C04_symmetric_difference_false : ¬ C04Claim Nat := by
  intro h
  have := (h (ofList [1]) (ofList [2, 3]) (.ofList _) (.ofList _) 3).2 (by
    right; simp only [elem_iff, (ofList_spec _).2]; simp)
  rw [elem_iff] at this
  rw [show (symm (ofList [1]) (ofList [2, 3]) : LSet Nat).data = [1] by
    simp [symm, ofList, List.mergeSort, pruneFrom, symmLoop]] at this
  simp at this

/-- **C04**, the part that holds: `x` is in `a ^ b` exactly when it is in one operand only *and* the other operand has
an element above it. Missing: elements above everything in the other operand. -/
theorem C04_symmetric_difference_partial {a b : LSet α} (ha : Reachable a) (hb : Reachable b) (x : α) :
    Elem (symm a b) x ↔
      (Elem a x ∧ ¬ Elem b x ∧ ∃ y, Elem b y ∧ x < y) ∨ (Elem b x ∧ ¬ Elem a x ∧ ∃ y, Elem a y ∧ x < y) := by
  simp only [elem_iff]
  exact symmLoop_mem _ _ (reachable_sorted ha) (reachable_sorted hb) x

/-- **C04**, corollary: the full claim does hold whenever both operands are non-empty with the same greatest element. -/
theorem C04_same_maximum_partial {a b : LSet α} (ha : Reachable a) (hb : Reachable b) (m : α)
    (hma : Elem a m) (hmb : Elem b m) (hxa : ∀ y, Elem a y → y ≤ m) (hxb : ∀ y, Elem b y → y ≤ m) (x : α) :
    Elem (symm a b) x ↔ (Elem a x ∧ ¬ Elem b x) ∨ (Elem b x ∧ ¬ Elem a x) := by
  rw [C04_symmetric_difference_partial ha hb x]
  constructor
  · rintro (⟨h1, h2, _⟩ | ⟨h1, h2, _⟩)
    · exact Or.inl ⟨h1, h2⟩
    · exact Or.inr ⟨h1, h2⟩
  · rintro (⟨h1, h2⟩ | ⟨h1, h2⟩)
    · exact Or.inl ⟨h1, h2, m, hmb, lt_of_le_of_ne (hxa x h1) (fun e => h2 (e ▸ hmb))⟩
    · exact Or.inr ⟨h1, h2, m, hma, lt_of_le_of_ne (hxb x h1) (fun e => h2 (e ▸ hma))⟩

example : symm (⟨[1, 5, 9]⟩ : LSet Nat) ⟨[2, 5, 9]⟩ = ⟨[1, 2]⟩ := by simp [symm, symmLoop]

/-! ### C05 -/

/-- **C05**. Reachable sets compare equal (both `==` and `<=>`) exactly when they have the same elements. -/
theorem C05_equality {a b : LSet α} (ha : Reachable a) (hb : Reachable b) :
    (eq a b = true ↔ ∀ x, Elem a x ↔ Elem b x) ∧ (cmp a b = .eq ↔ ∀ x, Elem a x ↔ Elem b x) := by
  have key : a.data = b.data ↔ ∀ x, Elem a x ↔ Elem b x := by
    constructor
    · intro h x; rw [elem_iff, elem_iff, h]
    · intro h
      exact sorted_ext _ _ (reachable_sorted ha) (reachable_sorted hb)
        (fun x => by rw [← elem_iff, ← elem_iff]; exact h x)
  exact ⟨by simp [eq, key], by rw [cmp, cmpList_eq_iff, key]⟩

/-- **C05**, history form: two histories with the same final presence of every element give equal sets. -/
theorem C05_histories (ops₁ ops₂ : List (Op α))
    (h : ∀ x, LastAdded (ops₁.flatMap Op.events) x ↔ LastAdded (ops₂.flatMap Op.events) x) :
    ∃ a b, run SetM.empty ops₁ = .ok a ∧ run SetM.empty ops₂ = .ok b ∧ eq a b = true := by
  have e0 : ∀ x : α, x ∈ (SetM.empty : LSet α).data ↔ LastAdded [] x := by
    intro x
    constructor
    · intro h; cases h
    · rintro ⟨pre, post, h, _⟩; simp at h
  obtain ⟨a, ea, sa, ma⟩ := run_spec ops₁ SetM.empty List.Pairwise.nil [] e0
  obtain ⟨b, eb, sb, mb⟩ := run_spec ops₂ SetM.empty List.Pairwise.nil [] e0
  refine ⟨a, b, ea, eb, ?_⟩
  have : a.data = b.data := sorted_ext _ _ sa sb (fun x => by rw [ma, mb]; simpa using h x)
  simp [eq, this]

theorem cmpList_trans (as bs cs : List α) (h1 : cmpList as bs = .lt) (h2 : cmpList bs cs = .lt) :
    cmpList as cs = .lt := by
  induction as generalizing bs cs with
  | nil => cases bs <;> cases cs <;> simp_all [cmpList]
  | cons a as ih =>
    cases bs with
    | nil => simp [cmpList] at h1
    | cons b bs =>
      cases cs with
      | nil => simp [cmpList] at h2
      | cons c cs =>
        unfold cmpList at h1 h2 ⊢
        rcases lt_trichotomy a b with hab | hab | hab
        · rcases lt_trichotomy b c with hbc | hbc | hbc
          · simp [lt_trans hab hbc]
          · subst hbc; simp [hab]
          · simp [hbc, lt_asymm hbc] at h2
        · subst hab
          rcases lt_trichotomy a c with hbc | hbc | hbc
          · simp [hbc]
          · subst hbc; simp at h1 h2 ⊢; exact ih bs cs h1 h2
          · simp [hbc, lt_asymm hbc] at h2
        · simp [hab, lt_asymm hab] at h1

/-- **C05**, ordering: `<=>` is a strict total order on sets up to `==`: reversing the operands reverses the answer (so
exactly one of `a < b`, `a == b`, `a > b` holds) and `<` is transitive. -/
theorem C05_ordering (a b c : LSet α) :
    cmp b a = (cmp a b).swap ∧ (cmp a b = .eq ↔ eq a b = true) ∧
      (cmp a b = .lt → cmp b c = .lt → cmp a c = .lt) :=
  ⟨(cmpList_swap _ _).symm, by simp [cmp, cmpList_eq_iff, eq], cmpList_trans _ _ _⟩

/-- **C05**, removal: with assertions compiled in, `remove` throws exactly on non-members; on members (and always with
assertions off) it does what `discard` does, which deletes exactly `x`. -/
theorem C05_remove (asserts : Bool) {s : LSet α} (h : Reachable s) (x : α) :
    (∃ s', discard s x = .ok s' ∧ ∀ y, Elem s' y ↔ Elem s y ∧ y ≠ x) ∧
    ((Elem s x ∨ asserts = false) → remove asserts s x = discard s x) ∧
    ((¬ Elem s x ∧ asserts = true) → remove asserts s x = .throw .assertion) := by
  have hs := reachable_sorted h
  obtain ⟨t, e, ht, m⟩ := discard_spec s hs x
  refine ⟨⟨t, e, fun y => by rw [elem_iff, elem_iff, m]⟩, ?_, ?_⟩
  · intro hx
    unfold remove
    rw [contains_spec s hs, elem_iff] at *
    rcases hx with hx | rfl <;> simp [*]
  · rintro ⟨hx, rfl⟩
    unfold remove
    rw [elem_iff] at hx
    rw [contains_spec s hs]
    simp [hx]

example : remove true (ofList [2, 1] : LSet Nat) 7 = .throw .assertion :=
  (C05_remove true (.ofList _) 7).2.2 ⟨by rw [elem_iff, (ofList_spec _).2]; simp, rfl⟩

end Verif.SetM
