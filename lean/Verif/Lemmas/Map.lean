import Mathlib.Data.List.Basic
import Mathlib.Data.List.Perm.Basic
import Mathlib.Data.List.Flatten
import Verif.Spec.Map

/-! # Lemmas about the map models -/

namespace Verif.MapM

open MapS

variable {K V : Type}

/-! ## Ordered maps -/

section ordered
variable {less : K → K → Bool} (hw : StrictWeak less)

theorem find_nil (k : K) : find less ([] : List (K × V)) k = none := rfl

theorem find_cons (p : K × V) (m : List (K × V)) (k : K) :
    find less (p :: m) k = if less p.1 k then find less m k else if less k p.1 then none else some p := by
  unfold find
  rw [lowerBound]
  by_cases h : less p.1 k = true
  · rw [if_pos h, if_pos h]
  · rw [if_neg h, if_neg h]

include hw

theorem asymm {a b : K} (h : less a b = true) : less b a = false := by
  by_contra hc
  have := hw.trans a b a h (by simpa using hc)
  rw [hw.irrefl] at this
  cases this

theorem eqv_trans {a b c : K} (h1 : Eqv less a b) (h2 : Eqv less b c) : Eqv less a c := by
  constructor
  · by_contra hc
    rcases hw.weak a c b (by simpa using hc) with h | h
    · rw [h1.1] at h; cases h
    · rw [h2.1] at h; cases h
  · by_contra hc
    rcases hw.weak c a b (by simpa using hc) with h | h
    · rw [h2.2] at h; cases h
    · rw [h1.2] at h; cases h

theorem find_set (k : K) (v : V) (j : K) (m : List (K × V)) :
    (find less (set less k v m) j).map Prod.snd = if Eqv less k j then some v else (find less m j).map Prod.snd := by
  induction m with
  | nil =>
    rw [set, find_cons, find_nil]
    by_cases h1 : less k j = true
    · rw [if_pos h1, if_neg (by simp [Eqv, h1])]
    · rw [if_neg h1]
      by_cases h2 : less j k = true
      · rw [if_pos h2, if_neg (by simp [Eqv, h2])]
      · rw [if_neg h2, if_pos ⟨by simpa using h1, by simpa using h2⟩]; rfl
  | cons p m ih =>
    rw [set]
    by_cases hpk : less p.1 k = true
    · rw [if_pos hpk, find_cons, find_cons]
      by_cases hpj : less p.1 j = true
      · rw [if_pos hpj, if_pos hpj, ih]
      · have hjk : less j k = true := (hw.weak p.1 k j hpk).resolve_left hpj
        rw [if_neg hpj, if_neg hpj, if_neg (show ¬ Eqv less k j by simp [Eqv, hjk])]
    · rw [if_neg hpk]
      by_cases hkp : less k p.1 = true
      · rw [if_pos hkp, find_cons]
        by_cases hkj : less k j = true
        · rw [if_pos hkj, if_neg (by simp [Eqv, hkj])]
        · rw [if_neg hkj]
          by_cases hjk : less j k = true
          · have hjp := hw.trans j k p.1 hjk hkp
            rw [if_pos hjk, if_neg (by simp [Eqv, hjk]), find_cons, if_neg (by simp [asymm hw hjp]), if_pos hjp]
          · rw [if_neg hjk, if_pos ⟨by simpa using hkj, by simpa using hjk⟩]; rfl
      · rw [if_neg hkp, find_cons, find_cons]
        have e : Eqv less p.1 k := ⟨by simpa using hpk, by simpa using hkp⟩
        by_cases hpj : less p.1 j = true
        · have hkj : less k j = true := (hw.weak p.1 j k hpj).resolve_left (by simp [e.1])
          rw [if_pos hpj, if_pos hpj, if_neg (by simp [Eqv, hkj])]
        · rw [if_neg hpj, if_neg hpj]
          by_cases hjp : less j p.1 = true
          · have hjk : less j k = true := (hw.weak j p.1 k hjp).resolve_right (by simp [e.2])
            rw [if_pos hjp, if_pos hjp, if_neg (by simp [Eqv, hjk])]
          · have e' : Eqv less p.1 j := ⟨by simpa using hpj, by simpa using hjp⟩
            rw [if_neg hjp, if_neg hjp, if_pos (eqv_trans hw ⟨e.2, e.1⟩ e')]; rfl

/-- Elements stand in increasing order of their keys. -/
def Sorted (less : K → K → Bool) (m : List (K × V)) : Prop := m.Pairwise fun p q => less p.1 q.1 = true

theorem sorted_set (k : K) (v : V) (m : List (K × V)) (h : Sorted less m) : Sorted less (set less k v m) ∧
    ∀ q ∈ set less k v m, q.1 = k ∨ ∃ r ∈ m, r.1 = q.1 := by
  induction m with
  | nil => simp [set, Sorted]
  | cons p m ih =>
    unfold Sorted at h
    rw [List.pairwise_cons] at h
    obtain ⟨h1, h2⟩ := h
    obtain ⟨i1, i2⟩ := ih h2
    rw [set]
    split
    · rename_i hpk
      constructor
      · unfold Sorted
        rw [List.pairwise_cons]
        refine ⟨fun q hq => ?_, i1⟩
        rcases i2 q hq with h | ⟨r, hr, h⟩
        · rw [h]; exact hpk
        · rw [← h]; exact h1 r hr
      · intro q hq
        rcases List.mem_cons.1 hq with rfl | hq
        · exact Or.inr ⟨q, List.mem_cons_self, rfl⟩
        · rcases i2 q hq with h | ⟨r, hr, h⟩
          · exact Or.inl h
          · exact Or.inr ⟨r, List.mem_cons_of_mem _ hr, h⟩
    · rename_i hpk
      split
      · rename_i hkp
        constructor
        · unfold Sorted
          rw [List.pairwise_cons]
          refine ⟨fun q hq => ?_, List.pairwise_cons.2 ⟨h1, h2⟩⟩
          rcases List.mem_cons.1 hq with rfl | hq
          · exact hkp
          · exact hw.trans _ _ _ hkp (h1 q hq)
        · intro q hq
          rcases List.mem_cons.1 hq with rfl | hq
          · exact Or.inl rfl
          · exact Or.inr ⟨q, hq, rfl⟩
      · constructor
        · exact List.pairwise_cons.2 ⟨h1, h2⟩
        · intro q hq
          rcases List.mem_cons.1 hq with rfl | hq
          · exact Or.inr ⟨p, List.mem_cons_self, rfl⟩
          · exact Or.inr ⟨q, List.mem_cons_of_mem _ hq, rfl⟩

theorem erase_sublist (k : K) (m : List (K × V)) : (erase less k m).Sublist m := by
  induction m with
  | nil => exact List.Sublist.refl _
  | cons p m ih =>
    rw [erase]
    split
    · exact ih.cons_cons p
    · split
      · exact List.Sublist.refl _
      · exact List.sublist_cons_self _ _

theorem find_none_of_lt {m : List (K × V)} {j : K} (h : ∀ q ∈ m, less j q.1 = true) : find less m j = none := by
  cases m with
  | nil => rfl
  | cons p m =>
    have := h p List.mem_cons_self
    rw [find_cons, if_neg (by simp [asymm hw this]), if_pos this]

theorem find_erase (k j : K) (m : List (K × V)) (h : Sorted less m) :
    (find less (erase less k m) j).map Prod.snd = if Eqv less k j then none else (find less m j).map Prod.snd := by
  induction m with
  | nil => simp [erase, find_nil]
  | cons p m ih =>
    unfold Sorted at h
    rw [List.pairwise_cons] at h
    obtain ⟨h1, h2⟩ := h
    rw [erase]
    by_cases hpk : less p.1 k = true
    · rw [if_pos hpk, find_cons, find_cons]
      by_cases hpj : less p.1 j = true
      · rw [if_pos hpj, if_pos hpj, ih h2]
      · have hjk : less j k = true := (hw.weak p.1 k j hpk).resolve_left hpj
        rw [if_neg hpj, if_neg hpj, if_neg (show ¬ Eqv less k j by simp [Eqv, hjk])]
    · rw [if_neg hpk]
      by_cases hkp : less k p.1 = true
      · rw [if_pos hkp]
        by_cases e : Eqv less k j
        · rw [if_pos e]
          have : find less (p :: m) j = none := by
            apply find_none_of_lt hw
            have hjp : less j p.1 = true := (hw.weak k p.1 j hkp).resolve_left (by simp [e.1])
            intro q hq
            rcases List.mem_cons.1 hq with rfl | hq
            · exact hjp
            · exact hw.trans _ _ _ hjp (h1 q hq)
          rw [this]; rfl
        · rw [if_neg e]
      · rw [if_neg hkp, find_cons]
        have e : Eqv less p.1 k := ⟨by simpa using hpk, by simpa using hkp⟩
        by_cases hpj : less p.1 j = true
        · have hkj : less k j = true := (hw.weak p.1 j k hpj).resolve_left (by simp [e.1])
          rw [if_pos hpj, if_neg (by simp [Eqv, hkj])]
        · rw [if_neg hpj]
          have hnone : find less m j = none := by
            apply find_none_of_lt hw
            intro q hq
            exact (hw.weak p.1 q.1 j (h1 q hq)).resolve_left hpj
          rw [hnone]
          by_cases hjp : less j p.1 = true
          · have hjk : less j k = true := (hw.weak j p.1 k hjp).resolve_right (by simp [e.2])
            rw [if_pos hjp, if_neg (by simp [Eqv, hjk])]
          · have e' : Eqv less p.1 j := ⟨by simpa using hpj, by simpa using hjp⟩
            rw [if_pos (eqv_trans hw ⟨e.2, e.1⟩ e')]; rfl

end ordered

/-! ## Hashed maps -/

section hashed
variable {hash : K → Nat} {eq : K → K → Bool} (he : HashEq hash eq)

/-- Elements are in the bucket of their hash, and no two in a bucket have equal keys. -/
structure Inv (hash : K → Nat) (eq : K → K → Bool) (t : Table K V) : Prop where
  place : ∀ (i : Nat) (b : List (K × V)), t[i]? = some b → ∀ p ∈ b, bucketOf hash t.length p.1 = i
  uniq : ∀ (i : Nat) (b : List (K × V)), t[i]? = some b → b.Pairwise fun p q => eq p.1 q.1 = false

theorem findIn_some {b : List (K × V)} {k : K} {p : K × V} (h : findIn eq k b = some p) : p ∈ b ∧ eq p.1 k = true := by
  induction b with
  | nil => cases h
  | cons q b ih =>
    rw [findIn] at h
    split at h
    · rename_i hq
      cases h
      exact ⟨List.mem_cons_self, hq⟩
    · exact ⟨List.mem_cons_of_mem _ (ih h).1, (ih h).2⟩

include he

theorem eq_congr {a b c : K} (h : eq a b = true) : eq a c = eq b c := by
  cases hb : eq b c
  · by_contra hc
    have := he.trans b a c (he.symm _ _ h) (by simpa using hc)
    rw [hb] at this; cases this
  · exact he.trans _ _ _ h hb

theorem findIn_mem {b : List (K × V)} (hu : b.Pairwise fun p q => eq p.1 q.1 = false) {k : K} {p : K × V} (hp : p ∈ b)
    (hk : eq p.1 k = true) : findIn eq k b = some p := by
  induction b with
  | nil => cases hp
  | cons q b ih =>
    rw [List.pairwise_cons] at hu
    rw [findIn]
    rcases List.mem_cons.1 hp with rfl | hp
    · rw [if_pos hk]
    · have : eq q.1 k = false := by
        by_contra hc
        have h1 := he.trans q.1 k p.1 (by simpa using hc) (he.symm _ _ hk)
        rw [hu.1 p hp] at h1
        cases h1
      rw [if_neg (by simp [this]), ih hu.2 hp]

theorem findIn_setIn (k : K) (v : V) (j : K) (b : List (K × V)) :
    (findIn eq j (setIn eq k v b)).map Prod.snd = if eq k j then some v else (findIn eq j b).map Prod.snd := by
  induction b with
  | nil =>
    rw [setIn, findIn, findIn]
    split <;> rfl
  | cons p b ih =>
    rw [setIn]
    by_cases h : eq p.1 k = true
    · have hc := eq_congr he (c := j) h
      rw [if_pos h, findIn, findIn]
      simp only [hc]
      split
      · rfl
      · rfl
    · rw [if_neg h, findIn, findIn]
      by_cases hj : eq p.1 j = true
      · rw [if_pos hj, if_pos hj]
        have : eq k j = false := by
          by_contra hc
          exact h (he.trans _ _ _ hj (he.symm _ _ (by simpa using hc)))
        rw [if_neg (by simp [this])]
      · rw [if_neg hj, if_neg hj, ih]

theorem findIn_eraseIn (k j : K) (b : List (K × V)) (hu : b.Pairwise fun p q => eq p.1 q.1 = false) :
    (findIn eq j (eraseIn eq k b)).map Prod.snd = if eq k j then none else (findIn eq j b).map Prod.snd := by
  induction b with
  | nil => simp [eraseIn, findIn]
  | cons p b ih =>
    rw [List.pairwise_cons] at hu
    rw [eraseIn]
    by_cases h : eq p.1 k = true
    · have hc := eq_congr he (c := j) h
      rw [if_pos h, findIn]
      simp only [hc]
      by_cases hj : eq k j = true
      · rw [if_pos hj]
        cases hf : findIn eq j b with
        | none => rfl
        | some q =>
          obtain ⟨h1, h2⟩ := findIn_some hf
          have := he.trans p.1 j q.1 (by rw [hc]; exact hj) (he.symm _ _ h2)
          rw [hu.1 q h1] at this
          cases this
      · rw [if_neg hj, if_neg hj]
    · rw [if_neg h, findIn, findIn]
      by_cases hj : eq p.1 j = true
      · rw [if_pos hj, if_pos hj]
        have : eq k j = false := by
          by_contra hc
          exact h (he.trans _ _ _ hj (he.symm _ _ (by simpa using hc)))
        rw [if_neg (by simp [this])]
      · rw [if_neg hj, if_neg hj, ih hu.2]

theorem mem_setIn {k : K} {v : V} {b : List (K × V)} {q : K × V} (hq : q ∈ setIn eq k v b) :
    q.1 = k ∨ ∃ r ∈ b, r.1 = q.1 := by
  induction b with
  | nil => simp [setIn] at hq; exact Or.inl (by rw [hq])
  | cons p b ih =>
    rw [setIn] at hq
    split at hq
    · rcases List.mem_cons.1 hq with rfl | hq
      · exact Or.inr ⟨p, List.mem_cons_self, rfl⟩
      · exact Or.inr ⟨q, List.mem_cons_of_mem _ hq, rfl⟩
    · rcases List.mem_cons.1 hq with rfl | hq
      · exact Or.inr ⟨q, List.mem_cons_self, rfl⟩
      · rcases ih hq with h | ⟨r, hr, h⟩
        · exact Or.inl h
        · exact Or.inr ⟨r, List.mem_cons_of_mem _ hr, h⟩

theorem uniq_setIn {k : K} {v : V} {b : List (K × V)} (hu : b.Pairwise fun p q => eq p.1 q.1 = false) :
    (setIn eq k v b).Pairwise fun p q => eq p.1 q.1 = false := by
  induction b with
  | nil => simp [setIn]
  | cons p b ih =>
    rw [List.pairwise_cons] at hu
    rw [setIn]
    split
    · exact List.pairwise_cons.2 ⟨hu.1, hu.2⟩
    · rename_i h
      refine List.pairwise_cons.2 ⟨fun q hq => ?_, ih hu.2⟩
      rcases mem_setIn he hq with hk | ⟨r, hr, hk⟩
      · rw [hk]; simpa using h
      · rw [← hk]; exact hu.1 r hr

theorem eraseIn_sublist (k : K) (b : List (K × V)) : (eraseIn eq k b).Sublist b := by
  induction b with
  | nil => exact List.Sublist.refl _
  | cons p b ih =>
    rw [eraseIn]
    split
    · exact List.sublist_cons_self _ _
    · exact ih.cons_cons p

/-- Lookup after a change of one bucket. -/
theorem ufind_modify (t : Table K V) (k j : K) (f : List (K × V) → List (K × V)) (b : List (K × V)) (h0 : t.length ≠ 0)
    (hb : t[bucketOf hash t.length k]? = some b) :
    ufind hash eq (t.modify (bucketOf hash t.length k) f) j =
      if bucketOf hash t.length j = bucketOf hash t.length k then findIn eq j (f b) else ufind hash eq t j := by
  unfold ufind
  rw [List.length_modify, if_neg h0, if_neg h0, List.getElem?_modify]
  by_cases h : bucketOf hash t.length j = bucketOf hash t.length k
  · rw [if_pos h, h, hb]
    simp
  · rw [if_neg h]
    simp only [Ne.symm h, if_false]
    cases t[bucketOf hash t.length j]? <;> rfl

theorem bucket_get (t : Table K V) (h0 : t.length ≠ 0) (k : K) : ∃ b, t[bucketOf hash t.length k]? = some b := by
  have : bucketOf hash t.length k < t.length := Nat.mod_lt _ (Nat.pos_of_ne_zero h0)
  exact ⟨_, List.getElem?_eq_getElem this⟩

theorem inv_modify (t : Table K V) (k : K) (f : List (K × V) → List (K × V)) (hi : Inv hash eq t)
    (hf : ∀ b, t[bucketOf hash t.length k]? = some b → ((f b).Pairwise fun p q => eq p.1 q.1 = false) ∧
      ∀ q ∈ f b, q.1 = k ∨ ∃ r ∈ b, r.1 = q.1) :
    Inv hash eq (t.modify (bucketOf hash t.length k) f) := by
  have key : ∀ i b, (t.modify (bucketOf hash t.length k) f)[i]? = some b →
      (i = bucketOf hash t.length k ∧ ∃ b0, t[i]? = some b0 ∧ b = f b0) ∨ t[i]? = some b := by
    intro i b h
    rw [List.getElem?_modify] at h
    by_cases hik : bucketOf hash t.length k = i
    · simp only [hik, if_true] at h
      left
      cases hb : t[i]? with
      | none => rw [hb] at h; cases h
      | some b0 => rw [hb] at h; exact ⟨hik.symm, b0, rfl, (Option.some.inj h).symm⟩
    · simp only [hik, if_false] at h
      right
      cases hb : t[i]? with
      | none => rw [hb] at h; cases h
      | some b0 => rw [hb] at h; exact h
  constructor
  · intro i b h p hp
    rw [List.length_modify]
    rcases key i b h with ⟨hik, b0, hb0, rfl⟩ | h
    · subst hik
      rcases (hf b0 hb0).2 p hp with h | ⟨r, hr, h⟩
      · rw [h]
      · rw [← h]; exact hi.place _ _ hb0 r hr
    · exact hi.place i b h p hp
  · intro i b h
    rcases key i b h with ⟨hik, b0, hb0, rfl⟩ | h
    · subst hik; exact (hf b0 hb0).1
    · exact hi.uniq i b h

/-- What a lookup finds. -/
theorem ufind_iff {t : Table K V} (hi : Inv hash eq t) (k : K) (p : K × V) :
    ufind hash eq t k = some p ↔ p ∈ t.flatten ∧ eq p.1 k = true := by
  unfold ufind
  constructor
  · intro h
    split at h
    · cases h
    · split at h
      · rename_i b hb
        obtain ⟨h1, h2⟩ := findIn_some h
        exact ⟨List.mem_flatten.2 ⟨b, List.mem_of_getElem? hb, h1⟩, h2⟩
      · cases h
  · rintro ⟨h1, h2⟩
    obtain ⟨b, hb, hp⟩ := List.mem_flatten.1 h1
    obtain ⟨i, hi'⟩ := List.getElem?_of_mem hb
    have h0 : t.length ≠ 0 := by
      intro h; rw [List.length_eq_zero_iff.1 h] at hb; cases hb
    have hpl := hi.place i b hi' p hp
    have hk : bucketOf hash t.length k = i := by
      rw [← hpl]; unfold bucketOf; rw [he.hash _ _ h2]
    rw [if_neg h0, hk, hi']
    exact findIn_mem he (hi.uniq i b hi') hp h2

/-- No two elements of the whole table have equal keys. -/
theorem flatten_uniq {t : Table K V} (hi : Inv hash eq t) : t.flatten.Pairwise fun p q => eq p.1 q.1 = false := by
  rw [List.pairwise_flatten]
  constructor
  · intro b hb
    obtain ⟨i, h⟩ := List.getElem?_of_mem hb
    exact hi.uniq i b h
  · rw [List.pairwise_iff_getElem]
    intro i j hi' hj' hij p hp q hq
    by_contra hc
    have h1 := hi.place i _ (List.getElem?_eq_getElem hi') p hp
    have h2 := hi.place j _ (List.getElem?_eq_getElem hj') q hq
    have : hash p.1 = hash q.1 := he.hash _ _ (by simpa using hc)
    unfold bucketOf at h1 h2
    rw [this] at h1
    omega

theorem perm_modify (u : Table K V) (i : Nat) (p : K × V) (h : i < u.length) :
    (u.modify i (p :: ·)).flatten.Perm (p :: u.flatten) := by
  induction u generalizing i with
  | nil => simp at h
  | cons b u ih =>
    cases i with
    | zero => simp
    | succ i =>
      have := ih i (by simpa using h)
      rw [List.modify_succ_cons, List.flatten_cons, List.flatten_cons]
      refine (List.Perm.append_left b this).trans ?_
      exact List.perm_middle

/-- Rebuilding the buckets keeps the elements and the placement. -/
theorem rebucket_aux (n : Nat) (hn : 0 < n) (l : List (K × V)) (u : Table K V) (hu : u.length = n)
    (hp : ∀ i b, u[i]? = some b → ∀ p ∈ b, bucketOf hash n p.1 = i) :
    (l.foldl (fun u p => u.modify (bucketOf hash n p.1) (p :: ·)) u).length = n ∧
    (∀ i b, (l.foldl (fun u p => u.modify (bucketOf hash n p.1) (p :: ·)) u)[i]? = some b →
      ∀ p ∈ b, bucketOf hash n p.1 = i) ∧
    (l.foldl (fun u p => u.modify (bucketOf hash n p.1) (p :: ·)) u).flatten.Perm (l ++ u.flatten) := by
  induction l generalizing u with
  | nil => exact ⟨hu, hp, List.Perm.refl _⟩
  | cons p l ih =>
    rw [List.foldl_cons]
    have hlt : bucketOf hash n p.1 < u.length := by rw [hu]; exact Nat.mod_lt _ hn
    have := ih (u.modify (bucketOf hash n p.1) (p :: ·)) (by rw [List.length_modify, hu]) (by
      intro i b h q hq
      rw [List.getElem?_modify] at h
      cases hb : u[i]? with
      | none => rw [hb] at h; cases h
      | some b0 =>
        rw [hb] at h
        have h := Option.some.inj h
        by_cases hik : bucketOf hash n p.1 = i
        · simp only [hik, if_true] at h
          rw [← h] at hq
          rcases List.mem_cons.1 hq with rfl | hq
          · exact hik
          · exact hp i b0 hb q hq
        · simp only [hik, if_false] at h
          rw [← h] at hq
          exact hp i b0 hb q hq)
    refine ⟨this.1, this.2.1, this.2.2.trans ?_⟩
    refine (List.Perm.append_left l (perm_modify (hash := hash) (eq := eq) he u _ p hlt)).trans ?_
    exact List.perm_middle

theorem inv_rebucket (n : Nat) (hn : 0 < n) (t : Table K V) (hi : Inv hash eq t) :
    Inv hash eq (rebucket hash n t) ∧ (rebucket hash n t).length = n ∧ (rebucket hash n t).flatten.Perm t.flatten := by
  obtain ⟨h1, h2, h3⟩ := rebucket_aux (hash := hash) (eq := eq) he n hn t.flatten (List.replicate n []) (by simp) (by
    intro i b h p hp
    have := List.mem_of_getElem? h
    rw [List.mem_replicate] at this
    rw [this.2] at hp
    cases hp)
  have hz : (List.replicate n ([] : List (K × V))).flatten = [] := by simp
  rw [hz, List.append_nil] at h3
  refine ⟨⟨?_, ?_⟩, h1, h3⟩
  · unfold rebucket
    rw [h1]
    exact h2
  · have hf := flatten_uniq he hi
    have hsym : ∀ {p q : K × V}, eq p.1 q.1 = false → eq q.1 p.1 = false := by
      intro p q h
      by_contra hc
      have := he.symm _ _ (by simpa using hc : eq q.1 p.1 = true)
      rw [h] at this; cases this
    have hf' := (h3.pairwise_iff (fun {a b} => hsym)).2 hf
    intro i b h
    exact (List.pairwise_flatten.1 hf').1 b (List.mem_of_getElem? h)

theorem ufind_rebucket (n : Nat) (hn : 0 < n) (t : Table K V) (hi : Inv hash eq t) (k : K) :
    ufind hash eq (rebucket hash n t) k = ufind hash eq t k := by
  obtain ⟨h1, -, h3⟩ := inv_rebucket he n hn t hi
  apply Option.ext
  intro p
  rw [ufind_iff he h1, ufind_iff he hi, h3.mem_iff]

end hashed

end Verif.MapM
