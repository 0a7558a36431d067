import Verif.Lemmas.Map

/-!
# C61: `Map` and `UnorderedMap`

`datastructures/map.hpp`. For every history of assignments, erasures and clears, the lookups answer from what was last done to the key.
The lookups take the map by `const &`, and the models of them return no map: they cannot change it.
-/

namespace Verif.MapM

open MapS

variable {K V : Type}

theorem run_spec {less : K → K → Bool} (hw : StrictWeak less) (h : List (Op K V)) (m : List (K × V)) (hs : Sorted less m) (k : K) :
    let m' := h.foldl (fun m o => match o with
      | .set k v => set less k v m
      | .erase k => erase less k m
      | .clear => []) m
    Sorted less m' ∧ (find less m' k).map Prod.snd = last (Eqv less) k h ((find less m k).map Prod.snd) := by
  induction h generalizing m with
  | nil => exact ⟨hs, rfl⟩
  | cons o h ih =>
    cases o with
    | set k' v =>
      have := ih (set less k' v m) (sorted_set hw k' v m hs).1
      rw [find_set hw] at this
      exact this
    | erase k' =>
      have := ih (erase less k' m) (List.Pairwise.sublist (erase_sublist hw k' m) hs)
      rw [find_erase hw k' k m hs] at this
      exact this
    | clear => exact ih [] List.Pairwise.nil

/-- **C61 (`Map`).** After any history `contains(k)` is true exactly when the last operation on a key equivalent to `k` was an
assignment, and both lookups give the value assigned then, otherwise the default (or leave the output untouched). -/
theorem C61_map {less : K → K → Bool} (hw : StrictWeak less) (h : List (Op K V)) (k : K) (d : V) :
    contains less (run less h) k = (last (Eqv less) k h none).isSome ∧
    get less (run less h) k d = (last (Eqv less) k h none).getD d ∧
    containsGet less (run less h) k d = ((last (Eqv less) k h none).isSome, (last (Eqv less) k h none).getD d) := by
  have key := (run_spec hw h [] List.Pairwise.nil k).2
  have key : (find less (run less h) k).map Prod.snd = last (Eqv less) k h none := key
  rw [← key]
  unfold contains get containsGet
  cases find less (run less h) k <;> simp

/-- **C61 (`Map::str`).** The elements are stored, and therefore printed, in strictly increasing order of the keys: each key appears
in one line only. -/
theorem C61_str {less : K → K → Bool} (hw : StrictWeak less) (h : List (Op K V)) (fk : K → String) (fv : V → String) :
    (run less h).Pairwise (fun p q => less p.1 q.1 = true) ∧
    str fk fv (run less h) = "[\n" ++ String.join ((run less h).map fun p => "  " ++ fk p.1 ++ ": " ++ fv p.2 ++ "\n") ++ "]" := by
  refine ⟨?_, ?_⟩
  · cases h with
    | nil => exact List.Pairwise.nil
    | cons o h =>
      cases o with
      | set k v => exact (run_spec hw (.set k v :: h) [] List.Pairwise.nil k).1
      | erase k => exact (run_spec hw (.erase k :: h) [] List.Pairwise.nil k).1
      | clear =>
        have : ∀ (h : List (Op K V)) (m : List (K × V)), Sorted less m → Sorted less (h.foldl (fun m o => match o with
            | .set k v => set less k v m
            | .erase k => erase less k m
            | .clear => []) m) := by
          intro h
          induction h with
          | nil => exact fun m hm => hm
          | cons o h ih =>
            intro m hm
            cases o with
            | set k v => exact ih _ (sorted_set hw k v m hm).1
            | erase k => exact ih _ (List.Pairwise.sublist (erase_sublist hw k m) hm)
            | clear => exact ih _ List.Pairwise.nil
        exact this _ _ List.Pairwise.nil
  · unfold str
    have : ∀ (m : List (K × V)) (s : String),
        m.foldl (fun s p => s ++ ("  " ++ fk p.1) ++ ": " ++ fv p.2 ++ "\n") s =
          s ++ String.join (m.map fun p => "  " ++ fk p.1 ++ ": " ++ fv p.2 ++ "\n") := by
      intro m
      induction m with
      | nil => intro s; simp
      | cons p m ih =>
        intro s
        rw [List.foldl_cons, ih, List.map_cons, String.join_cons]
        simp only [String.append_assoc]
    rw [this]

/-- A program that overwrites and erases; `2` is erased and set again. -/
example : let h : List (Op Nat Nat) := [.set 2 20, .set 1 10, .set 2 21, .erase 2, .set 3 30, .set 2 22]
    let less := fun a b : Nat => decide (a < b)
    run less h = [(1, 10), (2, 22), (3, 30)] ∧ contains less (run less h) 4 = false ∧ get less (run less h) 2 0 = 22 := by decide

example : StrictWeak (fun a b : Nat => decide (a < b)) :=
  ⟨by simp, by simp; omega, by simp; omega⟩

/-- What the standard library must ensure before an insertion: there is at least one bucket. -/
def GoodPolicy (rehash : Table K V → Option Nat) : Prop :=
  ∀ t, (∀ n, rehash t = some n → 0 < n) ∧ (rehash t = none → t.length ≠ 0)

theorem inv_uset {hash : K → Nat} {eq : K → K → Bool} (he : HashEq hash eq) {rehash : Table K V → Option Nat}
    (hr : GoodPolicy rehash) (t : Table K V) (hi : Inv hash eq t) (k : K) (v : V) (j : K) :
    Inv hash eq (uset hash eq rehash t k v) ∧
    (ufind hash eq (uset hash eq rehash t k v) j).map Prod.snd =
      if eq k j then some v else (ufind hash eq t j).map Prod.snd := by
  have key : ∀ t' : Table K V, t'.length ≠ 0 → Inv hash eq t' →
      Inv hash eq (t'.modify (bucketOf hash t'.length k) (setIn eq k v)) ∧
      (ufind hash eq (t'.modify (bucketOf hash t'.length k) (setIn eq k v)) j).map Prod.snd =
        if eq k j then some v else (ufind hash eq t' j).map Prod.snd := by
    intro t' h0 hi'
    obtain ⟨b, hb⟩ := bucket_get he t' h0 k
    refine ⟨inv_modify he t' k _ hi' fun b hb => ⟨uniq_setIn he (hi'.uniq _ _ hb), fun q hq => mem_setIn he hq⟩, ?_⟩
    rw [ufind_modify he t' k j _ b h0 hb]
    by_cases hbj : bucketOf hash t'.length j = bucketOf hash t'.length k
    · rw [if_pos hbj, findIn_setIn he]
      have : ufind hash eq t' j = findIn eq j b := by
        unfold ufind; rw [if_neg h0, hbj, hb]
      rw [this]
    · have : eq k j = false := by
        by_contra hc
        apply hbj
        unfold bucketOf
        rw [he.hash k j (by simpa using hc)]
      rw [if_neg hbj, if_neg (by simp [this])]
  unfold uset
  cases hc : rehash t with
  | none => exact key t ((hr t).2 hc) hi
  | some n =>
    have hn := (hr t).1 n hc
    obtain ⟨h1, h2, -⟩ := inv_rebucket he n hn t hi
    have := key (rebucket hash n t) (by rw [h2]; omega) h1
    rw [ufind_rebucket he n hn t hi] at this
    exact this

theorem inv_uerase {hash : K → Nat} {eq : K → K → Bool} (he : HashEq hash eq) (t : Table K V) (hi : Inv hash eq t) (k j : K) :
    Inv hash eq (uerase hash eq t k) ∧
    (ufind hash eq (uerase hash eq t k) j).map Prod.snd = if eq k j then none else (ufind hash eq t j).map Prod.snd := by
  unfold uerase
  refine ⟨inv_modify he t k _ hi fun b hb => ⟨List.Pairwise.sublist (eraseIn_sublist he k b) (hi.uniq _ _ hb), fun q hq =>
    Or.inr ⟨q, (eraseIn_sublist he k b).subset hq, rfl⟩⟩, ?_⟩
  by_cases h0 : t.length = 0
  · have : t = [] := List.length_eq_zero_iff.1 h0
    subst this
    simp [ufind]
  · obtain ⟨b, hb⟩ := bucket_get he t h0 k
    rw [ufind_modify he t k j _ b h0 hb]
    by_cases hbj : bucketOf hash t.length j = bucketOf hash t.length k
    · rw [if_pos hbj, findIn_eraseIn he k j b (hi.uniq _ _ hb)]
      have : ufind hash eq t j = findIn eq j b := by
        unfold ufind; rw [if_neg h0, hbj, hb]
      rw [this]
    · have : eq k j = false := by
        by_contra hc
        apply hbj
        unfold bucketOf
        rw [he.hash k j (by simpa using hc)]
      rw [if_neg hbj, if_neg (by simp [this])]

/-- **C61 (`UnorderedMap`).** The same, for every hash and key equality that fit together and every rehashing policy. -/
theorem C61_unordered {hash : K → Nat} {eq : K → K → Bool} (he : HashEq hash eq) (rehash : Table K V → Option Nat)
    (hr : GoodPolicy rehash) (h : List (Op K V)) (k : K) (d : V) :
    let l := last (fun a b => eq a b = true) k h none
    ucontains hash eq (urun hash eq rehash h) k = l.isSome ∧ uget hash eq (urun hash eq rehash h) k d = l.getD d ∧
    ucontainsGet hash eq (urun hash eq rehash h) k d = (l.isSome, l.getD d) := by
  have key : ∀ (h : List (Op K V)) (t : Table K V), Inv hash eq t →
      (ufind hash eq (h.foldl (fun t o => match o with
        | .set k v => uset hash eq rehash t k v
        | .erase k => uerase hash eq t k
        | .clear => t.map fun _ => []) t) k).map Prod.snd =
      last (fun a b => eq a b = true) k h ((ufind hash eq t k).map Prod.snd) := by
    intro h
    induction h with
    | nil => intro t _; rfl
    | cons o h ih =>
      intro t hi
      cases o with
      | set k' v =>
        obtain ⟨h1, h2⟩ := inv_uset he hr t hi k' v k
        have := ih _ h1
        rw [h2] at this
        exact this
      | erase k' =>
        obtain ⟨h1, h2⟩ := inv_uerase he t hi k' k
        have := ih _ h1
        rw [h2] at this
        exact this
      | clear =>
        have hnil : ∀ (i : Nat) (b : List (K × V)), (t.map fun _ => ([] : List (K × V)))[i]? = some b → b = [] := by
          intro i b hb
          have := List.mem_of_getElem? hb
          rw [List.mem_map] at this
          obtain ⟨-, -, rfl⟩ := this
          rfl
        have h1 : Inv hash eq (t.map fun _ => ([] : List (K × V))) :=
          ⟨fun i b hb p hp => by
            have := hnil i b hb; subst this; exact absurd hp (by simp),
          fun i b hb => by have := hnil i b hb; subst this; exact List.Pairwise.nil⟩
        have h2 : ufind hash eq (t.map fun _ => ([] : List (K × V))) k = none := by
          unfold ufind
          split
          · rfl
          · split
            · rename_i b hb
              rw [hnil _ b hb]; rfl
            · rfl
        have := ih _ h1
        rw [h2] at this
        exact this
  have k0 := key h [] ⟨fun i b hb => by simp at hb, fun i b hb => by simp at hb⟩
  have k0 : (ufind hash eq (urun hash eq rehash h) k).map Prod.snd = last (fun a b => eq a b = true) k h none := k0
  intro l
  have k0 : (ufind hash eq (urun hash eq rehash h) k).map Prod.snd = l := k0
  rw [← k0]
  unfold ucontains uget ucontainsGet
  cases ufind hash eq (urun hash eq rehash h) k <;> simp

/-- A policy that doubles the number of buckets at every insertion, and a hash that collides. -/
example : GoodPolicy (fun t : Table Nat Nat => some (2 * t.length + 1)) ∧ HashEq (fun n : Nat => n % 3) (fun a b => a == b) ∧
    let h : List (Op Nat Nat) := [.set 2 20, .set 5 50, .set 8 80, .erase 5, .set 2 21]
    uget (fun n => n % 3) (fun a b => a == b) (urun (fun n => n % 3) (fun a b => a == b) (fun t => some (2 * t.length + 1)) h) 2 0 = 21 ∧
    ucontains (fun n => n % 3) (fun a b => a == b) (urun (fun n => n % 3) (fun a b => a == b) (fun t => some (2 * t.length + 1)) h) 5 = false :=
  ⟨fun t => ⟨fun n h => by cases h; omega, fun h => by cases h⟩, ⟨by simp, by simp, by simp, by simp⟩, by decide, by decide⟩

end Verif.MapM
