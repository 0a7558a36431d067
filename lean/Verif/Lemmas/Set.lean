import Verif.Model.Set
import Mathlib.Tactic.Tauto
import Mathlib.Order.Basic

/-! Helper lemmas about the `Set` model. -/

namespace Verif.SetM

variable {α : Type} [LinearOrder α]

/-- Strictly increasing. -/
abbrev Sorted (d : List α) : Prop := d.Pairwise (· < ·)

theorem readAt_ok {d : List α} {i : Int} (h0 : 0 ≤ i) (h1 : i < d.length) :
    readAt d i = .ok (d[i.toNat]'(by omega)) := by
  unfold readAt
  rw [if_pos h0, List.getElem?_eq_getElem (by omega)]

theorem sorted_get_lt {d : List α} (hs : Sorted d) {i j : Nat} (hij : i < j) (hj : j < d.length) :
    d[i]'(by omega) < d[j] := by
  exact (List.pairwise_iff_getElem.1 hs) i j (by omega) hj hij

theorem sorted_get_le {d : List α} (hs : Sorted d) {i j : Nat} (hij : i ≤ j) (hj : j < d.length) :
    d[i]'(by omega) ≤ d[j] := by
  rcases Nat.lt_or_eq_of_le hij with h | h
  · exact le_of_lt (sorted_get_lt hs h hj)
  · subst h; exact le_rfl

theorem containsLoop_spec (d : List α) (hs : Sorted d) (v : α) (h t : Int)
    (h0 : 0 ≤ h) (ht : t < d.length)
    (hlo : ∀ i (hi : i < d.length), (i : Int) < h → d[i] < v)
    (hhi : ∀ i (hi : i < d.length), t < (i : Int) → v < d[i]) :
    containsLoop d v h t = .ok (decide (v ∈ d)) := by
  fun_induction containsLoop d v h t with
  | case1 h t hle mid m hr hlt ih =>
    have hb := mid_bounds hle
    have hm : readAt d mid = _ := readAt_ok (d := d) (i := mid) (by omega) (by omega)
    rw [hr] at hm
    injection hm with hm
    refine ih h0 (by omega) hlo ?_
    intro i hi hgt
    have : d[mid.toNat]'(by omega) ≤ d[i] := sorted_get_le hs (by omega) hi
    exact lt_of_lt_of_le (hm ▸ hlt) this
  | case2 h t hle mid m hr hnlt hgt ih =>
    have hb := mid_bounds hle
    have hm : readAt d mid = _ := readAt_ok (d := d) (i := mid) (by omega) (by omega)
    rw [hr] at hm
    injection hm with hm
    refine ih (by omega) ht ?_ hhi
    intro i hi hlt
    have : d[i] ≤ d[mid.toNat]'(by omega) := sorted_get_le hs (by omega) (by omega)
    exact lt_of_le_of_lt this (hm ▸ hgt)
  | case3 h t hle mid m hr hnlt hngt =>
    have hb := mid_bounds hle
    have hm : readAt d mid = _ := readAt_ok (d := d) (i := mid) (by omega) (by omega)
    rw [hr] at hm
    injection hm with hm
    have e : v = m := le_antisymm (not_lt.1 hngt) (not_lt.1 hnlt)
    have : v ∈ d := by rw [e, hm]; exact List.getElem_mem _
    simp [this]
  | case4 h t hle mid e hr =>
    have hb := mid_bounds hle
    have hm : readAt d mid = _ := readAt_ok (d := d) (i := mid) (by omega) (by omega)
    rw [hr] at hm; cases hm
  | case5 h t hle mid hr =>
    have hb := mid_bounds hle
    have hm : readAt d mid = _ := readAt_ok (d := d) (i := mid) (by omega) (by omega)
    rw [hr] at hm; cases hm
  | case6 h t hnle =>
    have : v ∉ d := by
      intro hv
      obtain ⟨i, hi, e⟩ := List.getElem_of_mem hv
      by_cases hc : (i : Int) < h
      · have := hlo i hi hc; rw [e] at this; exact absurd this (lt_irrefl _)
      · have := hhi i hi (by omega); rw [e] at this; exact absurd this (lt_irrefl _)
    simp [this]

theorem contains_spec (s : LSet α) (hs : Sorted s.data) (v : α) :
    contains s v = .ok (decide (v ∈ s.data)) := by
  unfold contains
  apply containsLoop_spec _ hs _ _ _ (by omega) (by omega)
  · intro i _ h; omega
  · intro i hi h; omega

theorem discardLoop_spec (d : List α) (hs : Sorted d) (v : α) (h t : Int)
    (h0 : 0 ≤ h) (ht : t < d.length)
    (hlo : ∀ i (hi : i < d.length), (i : Int) < h → d[i] < v)
    (hhi : ∀ i (hi : i < d.length), t < (i : Int) → v < d[i]) :
    (v ∉ d ∧ discardLoop d v h t = .ok d) ∨
    (∃ i, ∃ hi : i < d.length, d[i] = v ∧ discardLoop d v h t = .ok (d.eraseIdx i)) := by
  fun_induction discardLoop d v h t with
  | case1 h t hle mid m hr hlt ih =>
    have hb := mid_bounds hle
    have hm : readAt d mid = _ := readAt_ok (d := d) (i := mid) (by omega) (by omega)
    rw [hr] at hm
    injection hm with hm
    refine ih h0 (by omega) hlo ?_
    intro i hi hgt
    have : d[mid.toNat]'(by omega) ≤ d[i] := sorted_get_le hs (by omega) hi
    exact lt_of_lt_of_le (hm ▸ hlt) this
  | case2 h t hle mid m hr hnlt hgt ih =>
    have hb := mid_bounds hle
    have hm : readAt d mid = _ := readAt_ok (d := d) (i := mid) (by omega) (by omega)
    rw [hr] at hm
    injection hm with hm
    refine ih (by omega) ht ?_ hhi
    intro i hi hlt
    have : d[i] ≤ d[mid.toNat]'(by omega) := sorted_get_le hs (by omega) (by omega)
    exact lt_of_le_of_lt this (hm ▸ hgt)
  | case3 h t hle mid m hr hnlt hngt =>
    have hb := mid_bounds hle
    have hm : readAt d mid = _ := readAt_ok (d := d) (i := mid) (by omega) (by omega)
    rw [hr] at hm
    injection hm with hm
    have e : v = m := le_antisymm (not_lt.1 hngt) (not_lt.1 hnlt)
    exact Or.inr ⟨mid.toNat, by omega, by rw [e, hm], rfl⟩
  | case4 h t hle mid e hr =>
    have hb := mid_bounds hle
    have hm : readAt d mid = _ := readAt_ok (d := d) (i := mid) (by omega) (by omega)
    rw [hr] at hm; cases hm
  | case5 h t hle mid hr =>
    have hb := mid_bounds hle
    have hm : readAt d mid = _ := readAt_ok (d := d) (i := mid) (by omega) (by omega)
    rw [hr] at hm; cases hm
  | case6 h t hnle =>
    refine Or.inl ⟨?_, rfl⟩
    intro hv
    obtain ⟨i, hi, e⟩ := List.getElem_of_mem hv
    by_cases hc : (i : Int) < h
    · have := hlo i hi hc; rw [e] at this; exact absurd this (lt_irrefl _)
    · have := hhi i hi (by omega); rw [e] at this; exact absurd this (lt_irrefl _)

theorem mem_eraseIdx_sorted (d : List α) (hs : Sorted d) (i : Nat) (hi : i < d.length) (x : α) :
    x ∈ d.eraseIdx i ↔ x ∈ d ∧ x ≠ d[i] := by
  rw [List.mem_eraseIdx_iff_getElem]
  constructor
  · rintro ⟨j, hj, hji, e⟩
    refine ⟨e ▸ List.getElem_mem _, ?_⟩
    intro h
    rw [← e] at h
    rcases Nat.lt_trichotomy j i with hl | he | hg
    · exact absurd (sorted_get_lt hs hl hi) (h ▸ lt_irrefl _)
    · exact hji he
    · exact absurd (sorted_get_lt hs hg hj) (h ▸ lt_irrefl _)
  · rintro ⟨hx, hne⟩
    obtain ⟨j, hj, e⟩ := List.getElem_of_mem hx
    refine ⟨j, hj, ?_, e⟩
    rintro rfl
    exact hne e.symm

theorem discard_spec (s : LSet α) (hs : Sorted s.data) (v : α) :
    ∃ s', discard s v = .ok s' ∧ Sorted s'.data ∧ ∀ x, x ∈ s'.data ↔ x ∈ s.data ∧ x ≠ v := by
  have := discardLoop_spec s.data hs v 0 ((s.data.length : Int) - 1) (by omega) (by omega)
    (by intro i _ h; omega) (by intro i hi h; omega)
  unfold discard
  rcases this with ⟨hv, e⟩ | ⟨i, hi, hiv, e⟩
  · refine ⟨s, by rw [e]; rfl, hs, ?_⟩
    intro x
    exact ⟨fun hx => ⟨hx, fun h => hv (h ▸ hx)⟩, fun h => h.1⟩
  · refine ⟨⟨s.data.eraseIdx i⟩, by rw [e]; rfl, hs.sublist (List.eraseIdx_sublist _ _), ?_⟩
    intro x
    rw [mem_eraseIdx_sorted _ hs _ hi, hiv]

theorem mem_insertScan (v : α) (d : List α) (x : α) : x ∈ insertScan v d ↔ x = v ∨ x ∈ d := by
  induction d with
  | nil => simp [insertScan]
  | cons y ys ih =>
    unfold insertScan
    split <;> simp [ih] <;> tauto

theorem sorted_insertScan (v : α) (d : List α) (hs : Sorted d) (hv : v ∉ d) : Sorted (insertScan v d) := by
  induction d with
  | nil => simp [insertScan]
  | cons y ys ih =>
    unfold insertScan
    rw [Sorted, List.pairwise_cons] at hs
    split
    · rename_i h
      rw [Sorted, List.pairwise_cons, List.pairwise_cons]
      refine ⟨?_, hs⟩
      intro z hz
      rcases List.mem_cons.1 hz with rfl | hz
      · exact h
      · exact lt_trans h (hs.1 z hz)
    · rename_i h
      rw [Sorted, List.pairwise_cons]
      refine ⟨?_, ih hs.2 (fun h => hv (List.mem_cons_of_mem _ h))⟩
      intro z hz
      rcases (mem_insertScan v ys z).1 hz with rfl | hz
      · exact lt_of_le_of_ne (not_lt.1 h) (fun e => hv (e ▸ List.mem_cons_self))
      · exact hs.1 z hz

theorem insert_spec (s : LSet α) (hs : Sorted s.data) (v : α) :
    ∃ s', insert s v = .ok s' ∧ Sorted s'.data ∧ ∀ x, x ∈ s'.data ↔ x ∈ s.data ∨ x = v := by
  unfold insert
  rw [contains_spec s hs v]
  by_cases hv : v ∈ s.data
  · refine ⟨s, by simp [hv], hs, ?_⟩
    intro x
    exact ⟨Or.inl, fun h => h.elim id (fun e => e ▸ hv)⟩
  · refine ⟨⟨insertScan v s.data⟩, by simp [hv], sorted_insertScan v _ hs hv, ?_⟩
    intro x
    rw [mem_insertScan]; tauto

theorem insertMany_spec (l : List α) (s : LSet α) (hs : Sorted s.data) :
    ∃ s', insertMany s l = .ok s' ∧ Sorted s'.data ∧ ∀ x, x ∈ s'.data ↔ x ∈ s.data ∨ x ∈ l := by
  induction l generalizing s with
  | nil => exact ⟨s, rfl, hs, by simp⟩
  | cons v vs ih =>
    obtain ⟨s1, e1, hs1, m1⟩ := insert_spec s hs v
    obtain ⟨s2, e2, hs2, m2⟩ := ih s1 hs1
    refine ⟨s2, by simp [insertMany, e1, e2], hs2, ?_⟩
    intro x
    rw [m2, m1, List.mem_cons]; tauto

theorem discardMany_spec (l : List α) (s : LSet α) (hs : Sorted s.data) :
    ∃ s', discardMany s l = .ok s' ∧ Sorted s'.data ∧ ∀ x, x ∈ s'.data ↔ x ∈ s.data ∧ x ∉ l := by
  induction l generalizing s with
  | nil => exact ⟨s, rfl, hs, by simp⟩
  | cons v vs ih =>
    obtain ⟨s1, e1, hs1, m1⟩ := discard_spec s hs v
    obtain ⟨s2, e2, hs2, m2⟩ := ih s1 hs1
    refine ⟨s2, by simp [discardMany, e1, e2], hs2, ?_⟩
    intro x
    rw [m2, m1, List.mem_cons]; tauto

theorem mem_pruneFrom (p : Option α) (l : List α) (x : α) :
    x ∈ l → x ∈ pruneFrom p l ∨ p = some x := by
  induction l generalizing p with
  | nil => simp
  | cons y ys ih =>
    intro hx
    have key : x = y ∨ x ∈ ys := by simpa using hx
    unfold pruneFrom
    cases p with
    | none =>
      rcases key with rfl | h
      · simp
      · rcases ih (some y) h with h | h
        · simp [h]
        · simp at h; simp [h]
    | some q =>
      by_cases e : y = q
      · subst e
        rcases key with rfl | h
        · right; rfl
        · rcases ih (some y) h with h | h
          · left; simp [h]
          · right; exact h
      · rcases key with rfl | h
        · left; simp [e]
        · rcases ih (some y) h with h | h
          · left; simp [e, h]
          · simp at h; subst h; left; simp [e]

theorem pruneFrom_subset (p : Option α) (l : List α) (x : α) : x ∈ pruneFrom p l → x ∈ l := by
  induction l generalizing p with
  | nil => simp [pruneFrom]
  | cons y ys ih =>
    unfold pruneFrom
    cases p with
    | none => intro h; simp at h; rcases h with rfl | h; simp; simp [ih _ h]
    | some q =>
      simp only
      split
      · intro h; simp at h; rcases h with rfl | h; simp; simp [ih _ h]
      · intro h; simp [ih _ h]

theorem pruneFrom_sorted (p : Option α) (l : List α) (hl : l.Pairwise (· ≤ ·))
    (hp : ∀ q, p = some q → ∀ x ∈ l, q ≤ x) :
    Sorted (pruneFrom p l) ∧ ∀ q, p = some q → ∀ x ∈ pruneFrom p l, q < x := by
  induction l generalizing p with
  | nil => simp [pruneFrom]
  | cons y ys ih =>
    rw [List.pairwise_cons] at hl
    have h1 := ih (some y) hl.2 (by intro q e x hx; cases e; exact hl.1 x hx)
    unfold pruneFrom
    cases p with
    | none =>
      refine ⟨?_, by simp⟩
      simp only [Sorted, List.pairwise_cons]
      exact ⟨h1.2 y rfl, h1.1⟩
    | some q =>
      have hqy := hp q rfl y (by simp)
      simp only
      split
      · rename_i hne
        have hlt : q < y := lt_of_le_of_ne hqy (Ne.symm hne)
        refine ⟨?_, ?_⟩
        · simp only [Sorted, List.pairwise_cons]
          exact ⟨h1.2 y rfl, h1.1⟩
        · intro q' e x hx
          cases e
          rcases List.mem_cons.1 hx with rfl | hx
          · exact hlt
          · exact lt_trans hlt (h1.2 y rfl x hx)
      · rename_i heq
        have heq : y = q := by simpa using heq
        subst heq
        exact ⟨h1.1, fun q e => by cases e; exact h1.2 y rfl⟩

theorem ofList_spec (l : List α) : Sorted (ofList l).data ∧ ∀ x, x ∈ (ofList l).data ↔ x ∈ l := by
  unfold ofList
  have hsort : (l.mergeSort (fun a b => decide (a ≤ b))).Pairwise (· ≤ ·) := by
    have := List.pairwise_mergeSort (le := fun a b : α => decide (a ≤ b))
      (by intro a b c h1 h2; simp at *; exact le_trans h1 h2)
      (by intro a b; simp; exact le_total a b) l
    exact this.imp (by intro a b h; simpa using h)
  refine ⟨(pruneFrom_sorted none _ hsort (by simp)).1, ?_⟩
  intro x
  constructor
  · intro h
    exact (List.mergeSort_perm l _).mem_iff.1 (pruneFrom_subset none _ x h)
  · intro h
    have := mem_pruneFrom none _ x ((List.mergeSort_perm l (fun a b => decide (a ≤ b))).mem_iff.2 h)
    simpa using this

theorem unionLoop_mem (as bs : List α) (x : α) : x ∈ unionLoop as bs ↔ x ∈ as ∨ x ∈ bs := by
  fun_induction unionLoop as bs with
  | case1 a as b bs h ih => simp [ih]; tauto
  | case2 a as b bs h h' ih => simp [ih]; tauto
  | case3 a as b bs h h' ih =>
    have e : a = b := le_antisymm (not_lt.1 h') (not_lt.1 h)
    subst e; simp [ih]; tauto
  | case4 => simp

theorem unionLoop_sorted (as bs : List α) (ha : Sorted as) (hb : Sorted bs) : Sorted (unionLoop as bs) := by
  fun_induction unionLoop as bs with
  | case1 a as b bs h ih =>
    rw [Sorted, List.pairwise_cons] at ha ⊢
    refine ⟨?_, ih ha.2 hb⟩
    intro x hx
    rcases (unionLoop_mem _ _ _).1 hx with hx | hx
    · exact ha.1 x hx
    · rcases List.mem_cons.1 hx with rfl | hx
      · exact h
      · exact lt_trans h ((List.pairwise_cons.1 hb).1 x hx)
  | case2 a as b bs h h' ih =>
    rw [Sorted, List.pairwise_cons] at hb ⊢
    refine ⟨?_, ih ha hb.2⟩
    intro x hx
    rcases (unionLoop_mem _ _ _).1 hx with hx | hx
    · rcases List.mem_cons.1 hx with rfl | hx
      · exact h'
      · exact lt_trans h' ((List.pairwise_cons.1 ha).1 x hx)
    · exact hb.1 x hx
  | case3 a as b bs h h' ih =>
    have e : a = b := le_antisymm (not_lt.1 h') (not_lt.1 h)
    subst e
    rw [Sorted, List.pairwise_cons] at ha hb ⊢
    refine ⟨?_, ih ha.2 hb.2⟩
    intro x hx
    rcases (unionLoop_mem _ _ _).1 hx with hx | hx
    · exact ha.1 x hx
    · exact hb.1 x hx
  | case4 as bs hn =>
    cases as with
    | nil => simpa using hb
    | cons a as =>
      cases bs with
      | nil => simpa using ha
      | cons b bs => exact (hn a as b bs rfl rfl).elim

/-- An element below the head of a sorted list is not in it. -/
theorem not_mem_of_lt_head {a b : α} {bs : List α} (hb : Sorted (b :: bs)) (h : a < b) : a ∉ b :: bs := by
  intro hm
  rcases List.mem_cons.1 hm with rfl | hm
  · exact absurd h (lt_irrefl _)
  · exact absurd (lt_trans h ((List.pairwise_cons.1 hb).1 a hm)) (lt_irrefl _)

theorem interLoop_mem (as bs : List α) (ha : Sorted as) (hb : Sorted bs) (x : α) :
    x ∈ interLoop as bs ↔ x ∈ as ∧ x ∈ bs := by
  fun_induction interLoop as bs with
  | case1 a as b bs h ih =>
    rw [ih (List.pairwise_cons.1 ha).2 hb]
    have hn := not_mem_of_lt_head hb h
    constructor
    · rintro ⟨h1, h2⟩; exact ⟨List.mem_cons_of_mem _ h1, h2⟩
    · rintro ⟨h1, h2⟩
      rcases List.mem_cons.1 h1 with rfl | h1
      · exact absurd h2 hn
      · exact ⟨h1, h2⟩
  | case2 a as b bs h h' ih =>
    rw [ih ha (List.pairwise_cons.1 hb).2]
    have hn := not_mem_of_lt_head ha h'
    constructor
    · rintro ⟨h1, h2⟩; exact ⟨h1, List.mem_cons_of_mem _ h2⟩
    · rintro ⟨h1, h2⟩
      rcases List.mem_cons.1 h2 with rfl | h2
      · exact absurd h1 hn
      · exact ⟨h1, h2⟩
  | case3 a as b bs h h' ih =>
    have e : a = b := le_antisymm (not_lt.1 h') (not_lt.1 h)
    subst e
    have ha' := List.pairwise_cons.1 ha
    have hb' := List.pairwise_cons.1 hb
    simp only [List.mem_cons, ih ha'.2 hb'.2]
    constructor
    · rintro (rfl | ⟨h1, h2⟩)
      · exact ⟨Or.inl rfl, Or.inl rfl⟩
      · exact ⟨Or.inr h1, Or.inr h2⟩
    · rintro ⟨h1 | h1, h2⟩
      · exact Or.inl h1
      · rcases h2 with h2 | h2
        · exact Or.inl h2
        · exact Or.inr ⟨h1, h2⟩
  | case4 as bs hn =>
    cases as with
    | nil => simp
    | cons a as =>
      cases bs with
      | nil => simp
      | cons b bs => exact (hn a as b bs rfl rfl).elim

theorem interLoop_sublist (as bs : List α) : (interLoop as bs).Sublist as := by
  fun_induction interLoop as bs with
  | case1 a as b bs h ih => exact ih.trans (List.sublist_cons_self _ _)
  | case2 a as b bs h h' ih => exact ih
  | case3 a as b bs h h' ih => exact ih.cons_cons a
  | case4 => exact List.nil_sublist _

theorem diffLoop_mem (as bs : List α) (ha : Sorted as) (hb : Sorted bs) (x : α) :
    x ∈ diffLoop as bs ↔ x ∈ as ∧ x ∉ bs := by
  fun_induction diffLoop as bs with
  | case1 a as b bs h ih =>
    have hn := not_mem_of_lt_head hb h
    simp only [List.mem_cons (a := x) (b := a), ih (List.pairwise_cons.1 ha).2 hb]
    constructor
    · rintro (rfl | ⟨h1, h2⟩)
      · exact ⟨Or.inl rfl, hn⟩
      · exact ⟨Or.inr h1, h2⟩
    · rintro ⟨h1 | h1, h2⟩
      · exact Or.inl h1
      · exact Or.inr ⟨h1, h2⟩
  | case2 a as b bs h h' ih =>
    have hn := not_mem_of_lt_head ha h'
    rw [ih ha (List.pairwise_cons.1 hb).2]
    constructor
    · rintro ⟨h1, h2⟩
      refine ⟨h1, ?_⟩
      intro h3
      rcases List.mem_cons.1 h3 with rfl | h3
      · exact hn h1
      · exact h2 h3
    · rintro ⟨h1, h2⟩
      exact ⟨h1, fun h3 => h2 (List.mem_cons_of_mem _ h3)⟩
  | case3 a as b bs h h' ih =>
    have e : a = b := le_antisymm (not_lt.1 h') (not_lt.1 h)
    subst e
    have ha' := List.pairwise_cons.1 ha
    have hb' := List.pairwise_cons.1 hb
    rw [ih ha'.2 hb'.2]
    simp only [List.mem_cons, not_or]
    constructor
    · rintro ⟨h1, h2⟩
      exact ⟨Or.inr h1, ne_of_gt (ha'.1 x h1), h2⟩
    · rintro ⟨h1 | h1, h2, h3⟩
      · exact absurd h1 h2
      · exact ⟨h1, h3⟩
  | case4 as bs hn =>
    cases as with
    | nil => simp
    | cons a as =>
      cases bs with
      | nil => simp
      | cons b bs => exact (hn a as b bs rfl rfl).elim

theorem diffLoop_sublist (as bs : List α) : (diffLoop as bs).Sublist as := by
  fun_induction diffLoop as bs with
  | case1 a as b bs h ih => exact ih.cons_cons a
  | case2 a as b bs h h' ih => exact ih
  | case3 a as b bs h h' ih => exact ih.trans (List.sublist_cons_self _ _)
  | case4 => exact List.Sublist.refl _

/-- What the code's `operator^` really returns: members of exactly one operand that are below (or equal to) some
element of the operand that does not run out first. -/
theorem symmLoop_subset (as bs : List α) (x : α) : x ∈ symmLoop as bs → x ∈ as ∨ x ∈ bs := by
  fun_induction symmLoop as bs with
  | case1 a as b bs h ih => simp at *; tauto
  | case2 a as b bs h h' ih => simp at *; tauto
  | case3 a as b bs h h' ih => simp at *; tauto
  | case4 => simp

theorem symmLoop_sorted (as bs : List α) (ha : Sorted as) (hb : Sorted bs) : Sorted (symmLoop as bs) := by
  fun_induction symmLoop as bs with
  | case1 a as b bs h ih =>
    rw [Sorted, List.pairwise_cons] at ha ⊢
    refine ⟨?_, ih ha.2 hb⟩
    intro x hx
    rcases symmLoop_subset _ _ _ hx with hx | hx
    · exact ha.1 x hx
    · rcases List.mem_cons.1 hx with rfl | hx
      · exact h
      · exact lt_trans h ((List.pairwise_cons.1 hb).1 x hx)
  | case2 a as b bs h h' ih =>
    rw [Sorted, List.pairwise_cons] at hb ⊢
    refine ⟨?_, ih ha hb.2⟩
    intro x hx
    rcases symmLoop_subset _ _ _ hx with hx | hx
    · rcases List.mem_cons.1 hx with rfl | hx
      · exact h'
      · exact lt_trans h' ((List.pairwise_cons.1 ha).1 x hx)
    · exact hb.1 x hx
  | case3 a as b bs h h' ih => exact ih (List.pairwise_cons.1 ha).2 (List.pairwise_cons.1 hb).2
  | case4 => exact List.Pairwise.nil

/-- Exact description of the code's `operator^`: `x` is in the result iff it is in exactly one operand and not above
every element of the other operand. -/
theorem symmLoop_mem (as bs : List α) (ha : Sorted as) (hb : Sorted bs) (x : α) :
    x ∈ symmLoop as bs ↔
      (x ∈ as ∧ x ∉ bs ∧ ∃ y ∈ bs, x < y) ∨ (x ∈ bs ∧ x ∉ as ∧ ∃ y ∈ as, x < y) := by
  fun_induction symmLoop as bs with
  | case1 a as b bs h ih =>
    have ha' := List.pairwise_cons.1 ha
    have hn := not_mem_of_lt_head hb h
    rw [List.mem_cons, ih ha'.2 hb]
    constructor
    · rintro (rfl | ⟨h1, h2, h3⟩ | ⟨h1, h2, y, hy, h3⟩)
      · exact Or.inl ⟨by simp, hn, b, by simp, h⟩
      · exact Or.inl ⟨by simp [h1], h2, h3⟩
      · refine Or.inr ⟨h1, ?_, y, by simp [hy], h3⟩
        intro hm
        rcases List.mem_cons.1 hm with rfl | hm
        · exact hn h1
        · exact h2 hm
    · rintro (⟨h1, h2, h3⟩ | ⟨h1, h2, y, hy, h3⟩)
      · rcases List.mem_cons.1 h1 with rfl | h1
        · exact Or.inl rfl
        · exact Or.inr (Or.inl ⟨h1, h2, h3⟩)
      · refine Or.inr (Or.inr ⟨h1, fun hm => h2 (by simp [hm]), ?_⟩)
        rcases List.mem_cons.1 hy with rfl | hy
        · exfalso
          have hbx : b ≤ x := by
            rcases List.mem_cons.1 h1 with rfl | h1
            · exact le_rfl
            · exact le_of_lt ((List.pairwise_cons.1 hb).1 x h1)
          exact absurd (lt_of_lt_of_le h hbx) (lt_asymm h3)
        · exact ⟨y, hy, h3⟩
  | case2 a as b bs h h' ih =>
    have hb' := List.pairwise_cons.1 hb
    have hn := not_mem_of_lt_head ha h'
    rw [List.mem_cons, ih ha hb'.2]
    constructor
    · rintro (rfl | ⟨h1, h2, y, hy, h3⟩ | ⟨h1, h2, h3⟩)
      · exact Or.inr ⟨by simp, hn, a, by simp, h'⟩
      · refine Or.inl ⟨h1, ?_, y, by simp [hy], h3⟩
        intro hm
        rcases List.mem_cons.1 hm with rfl | hm
        · exact hn h1
        · exact h2 hm
      · exact Or.inr ⟨by simp [h1], h2, h3⟩
    · rintro (⟨h1, h2, y, hy, h3⟩ | ⟨h1, h2, h3⟩)
      · refine Or.inr (Or.inl ⟨h1, fun hm => h2 (by simp [hm]), ?_⟩)
        rcases List.mem_cons.1 hy with rfl | hy
        · exfalso
          have hax : a ≤ x := by
            rcases List.mem_cons.1 h1 with rfl | h1
            · exact le_rfl
            · exact le_of_lt ((List.pairwise_cons.1 ha).1 x h1)
          exact absurd (lt_of_lt_of_le h' hax) (lt_asymm h3)
        · exact ⟨y, hy, h3⟩
      · rcases List.mem_cons.1 h1 with rfl | h1
        · exact Or.inl rfl
        · exact Or.inr (Or.inr ⟨h1, h2, h3⟩)
  | case3 a as b bs h h' ih =>
    have e : a = b := le_antisymm (not_lt.1 h') (not_lt.1 h)
    subst e
    have ha' := List.pairwise_cons.1 ha
    have hb' := List.pairwise_cons.1 hb
    rw [ih ha'.2 hb'.2]
    simp only [List.mem_cons, not_or]
    constructor
    · rintro (⟨h1, h2, y, hy, h3⟩ | ⟨h1, h2, y, hy, h3⟩)
      · exact Or.inl ⟨Or.inr h1, ⟨ne_of_gt (ha'.1 x h1), h2⟩, y, Or.inr hy, h3⟩
      · exact Or.inr ⟨Or.inr h1, ⟨ne_of_gt (hb'.1 x h1), h2⟩, y, Or.inr hy, h3⟩
    · rintro (⟨h1 | h1, ⟨h2, h4⟩, y, hy, h3⟩ | ⟨h1 | h1, ⟨h2, h4⟩, y, hy, h3⟩)
      · exact absurd h1 h2
      · refine Or.inl ⟨h1, h4, y, ?_, h3⟩
        rcases hy with rfl | hy
        · exact absurd h3 (lt_asymm (ha'.1 x h1))
        · exact hy
      · exact absurd h1 h2
      · refine Or.inr ⟨h1, h4, y, ?_, h3⟩
        rcases hy with rfl | hy
        · exact absurd h3 (lt_asymm (hb'.1 x h1))
        · exact hy
  | case4 as bs hn =>
    cases as with
    | nil => simp
    | cons a as =>
      cases bs with
      | nil => simp
      | cons b bs => exact (hn a as b bs rfl rfl).elim

theorem sorted_ext (as bs : List α) (ha : Sorted as) (hb : Sorted bs) (h : ∀ x, x ∈ as ↔ x ∈ bs) : as = bs := by
  induction as generalizing bs with
  | nil =>
    cases bs with
    | nil => rfl
    | cons b bs => exact absurd ((h b).2 (by simp)) (by simp)
  | cons a as ih =>
    cases bs with
    | nil => exact absurd ((h a).1 (by simp)) (by simp)
    | cons b bs =>
      have ha' := List.pairwise_cons.1 ha
      have hb' := List.pairwise_cons.1 hb
      have e : a = b := by
        rcases lt_trichotomy a b with hl | he | hg
        · exact absurd ((h a).1 (by simp)) (not_mem_of_lt_head hb hl)
        · exact he
        · exact absurd ((h b).2 (by simp)) (not_mem_of_lt_head ha hg)
      subst e
      congr 1
      apply ih bs ha'.2 hb'.2
      intro x
      constructor
      · intro hx
        have := (h x).1 (List.mem_cons_of_mem _ hx)
        rcases List.mem_cons.1 this with rfl | hx'
        · exact absurd (ha'.1 x hx) (lt_irrefl _)
        · exact hx'
      · intro hx
        have := (h x).2 (List.mem_cons_of_mem _ hx)
        rcases List.mem_cons.1 this with rfl | hx'
        · exact absurd (hb'.1 x hx) (lt_irrefl _)
        · exact hx'

theorem cmpList_eq_iff (as bs : List α) : cmpList as bs = .eq ↔ as = bs := by
  induction as generalizing bs with
  | nil => cases bs <;> simp [cmpList]
  | cons a as ih =>
    cases bs with
    | nil => simp [cmpList]
    | cons b bs =>
      unfold cmpList
      split
      · rename_i h; simp; intro e; exact absurd h (e ▸ lt_irrefl _)
      · split
        · rename_i h; simp; intro e; exact absurd h (e ▸ lt_irrefl _)
        · rename_i h1 h2
          have e : a = b := le_antisymm (not_lt.1 h2) (not_lt.1 h1)
          subst e; simp [ih]

theorem cmpList_swap (as bs : List α) : (cmpList as bs).swap = cmpList bs as := by
  induction as generalizing bs with
  | nil => cases bs <;> simp [cmpList]
  | cons a as ih =>
    cases bs with
    | nil => simp [cmpList]
    | cons b bs =>
      unfold cmpList
      rcases lt_trichotomy a b with h | h | h
      · simp [h, lt_asymm h]
      · subst h; simp [ih, lt_irrefl]
      · simp [h, lt_asymm h]

end Verif.SetM
