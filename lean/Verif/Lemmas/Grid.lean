import Verif.Spec.Shape
import Mathlib.Data.List.Forall2
import Mathlib.Data.List.Nodup
import Mathlib.Tactic.Ring

/-! Facts about coordinate lists and their row-major positions. -/

namespace Verif.Grid

/-- Row-major position of a coordinate list. -/
def ravel : List Nat → List Nat → Nat
  | d :: ds, i :: is => i * count ds + ravel ds is
  | _, _ => 0

/-- Coordinates inside the extents. -/
abbrev Inside (e c : List Nat) : Prop := List.Forall₂ (fun i d => i < d) c e

theorem getElem?_flatMap {α β : Type} (l : List α) (f : α → List β) (n i j : Nat)
    (hlen : ∀ a ∈ l, (f a).length = n) (hj : j < n) :
    (l.flatMap f)[i * n + j]? = (l[i]?).bind (fun a => (f a)[j]?) := by
  induction l generalizing i with
  | nil => simp
  | cons a l ih =>
    rw [List.flatMap_cons]
    have ha := hlen a (by simp)
    cases i with
    | zero =>
      rw [List.getElem?_append_left (by omega)]
      simp
    | succ i =>
      have e : (i + 1) * n + j = n + (i * n + j) := by ring
      rw [e, List.getElem?_append_right (by omega)]
      rw [ha, Nat.add_sub_cancel_left, ih i (fun b hb => hlen b (by simp [hb]))]
      simp

theorem length_coords (e : List Nat) : (coords e).length = count e := by
  induction e with
  | nil => rfl
  | cons d ds ih =>
    simp [coords, count, List.length_flatMap, ih, List.map_const', List.sum_replicate_nat]

theorem mem_coords {e c : List Nat} : c ∈ coords e ↔ Inside e c := by
  induction e generalizing c with
  | nil => simp [coords, Inside]
  | cons d ds ih =>
    simp only [coords, List.mem_flatMap, List.mem_range, List.mem_map, ih, Inside]
    constructor
    · rintro ⟨i, hi, a, ha, rfl⟩
      exact List.Forall₂.cons hi ha
    · intro h
      cases h with
      | cons h1 h2 => exact ⟨_, h1, _, h2, rfl⟩

theorem ravel_lt {e c : List Nat} (h : Inside e c) : ravel e c < count e := by
  induction h with
  | nil => simp [ravel, count]
  | cons h1 h2 ih =>
    rename_i i d is ds
    simp only [ravel, count]
    have h3 : (i + 1) * count ds ≤ d * count ds := Nat.mul_le_mul_right _ h1
    have h4 : (i + 1) * count ds = i * count ds + count ds := by ring
    omega

theorem coords_ravel {e c : List Nat} (h : Inside e c) : (coords e)[ravel e c]? = some c := by
  induction h with
  | nil => simp [coords, ravel]
  | cons h1 h2 ih =>
    rename_i i d is ds
    simp only [ravel, coords]
    rw [getElem?_flatMap _ _ _ _ _ (fun a _ => by simp [length_coords]) (ravel_lt h2)]
    rw [List.getElem?_range h1]
    simp [ih]

theorem nodup_coords (e : List Nat) : (coords e).Nodup := by
  induction e with
  | nil => simp [coords]
  | cons d ds ih =>
    simp only [coords]
    rw [List.nodup_flatMap]
    refine ⟨fun i _ => ih.map (fun a b h => by simpa using h), ?_⟩
    refine List.Pairwise.imp ?_ (List.nodup_range (n := d))
    intro a b hab c hc1 hc2
    simp only [List.mem_map] at hc1 hc2
    obtain ⟨x, _, rfl⟩ := hc1
    obtain ⟨y, _, hy⟩ := hc2
    simp only [List.cons.injEq] at hy
    exact hab hy.1.symm

theorem coords_eq_iff {e c : List Nat} {k : Nat} : (coords e)[k]? = some c ↔ Inside e c ∧ k = ravel e c := by
  constructor
  · intro h
    have hm : Inside e c := mem_coords.1 (List.mem_of_getElem? h)
    refine ⟨hm, ?_⟩
    have h2 := coords_ravel hm
    have hk : k < (coords e).length := by
      by_contra hk
      rw [List.getElem?_eq_none (by omega)] at h
      cases h
    have hr : ravel e c < (coords e).length := by rw [length_coords]; exact ravel_lt hm
    rw [List.getElem?_eq_getElem hk] at h
    rw [List.getElem?_eq_getElem hr] at h2
    exact (nodup_coords e).getElem_inj_iff.1 ((Option.some.inj h).trans (Option.some.inj h2).symm)
  · rintro ⟨h, rfl⟩
    exact coords_ravel h

theorem count_append (a b : List Nat) : count (a ++ b) = count a * count b := by
  induction a with
  | nil => simp [count]
  | cons d ds ih => simp only [List.cons_append, count, ih]; ring

theorem ravel_append {e1 e2 c1 c2 : List Nat} (h : c1.length = e1.length) :
    ravel (e1 ++ e2) (c1 ++ c2) = ravel e1 c1 * count e2 + ravel e2 c2 := by
  induction e1 generalizing c1 with
  | nil =>
    have : c1 = [] := List.length_eq_zero_iff.1 (by simpa using h)
    subst this; simp [ravel]
  | cons d ds ih =>
    cases c1 with
    | nil => simp at h
    | cons i is =>
      simp only [List.cons_append, ravel]
      rw [ih (by simpa using h), count_append]
      ring

theorem count_pos {e : List Nat} (h : ∀ d ∈ e, 0 < d) : 0 < count e := by
  induction e with
  | nil => simp [count]
  | cons d ds ih => exact Nat.mul_pos (h d (by simp)) (ih (fun x hx => h x (by simp [hx])))

theorem pos_of_count {e : List Nat} (h : 0 < count e) : ∀ d ∈ e, 0 < d := by
  induction e with
  | nil => simp
  | cons d ds ih =>
    simp only [count] at h
    intro x hx
    rcases List.mem_cons.1 hx with rfl | hx
    · exact Nat.pos_of_mul_pos_right h
    · exact ih (Nat.pos_of_mul_pos_left h) x hx

theorem count_pos_of_inside {e c : List Nat} (h : Inside e c) : 0 < count e := by
  have := ravel_lt h; omega

/-- The coordinate list at position `k`. -/
def unravel : List Nat → Nat → List Nat
  | [], _ => []
  | _ :: ds, k => (k / count ds) :: unravel ds (k % count ds)

theorem inside_unravel {e : List Nat} {k : Nat} (h : k < count e) : Inside e (unravel e k) := by
  induction e generalizing k with
  | nil => exact List.Forall₂.nil
  | cons d ds ih =>
    simp only [count] at h
    have hp : 0 < count ds := by
      by_contra c
      have : count ds = 0 := by omega
      rw [this] at h; omega
    refine List.Forall₂.cons ?_ (ih (Nat.mod_lt _ hp))
    rw [Nat.div_lt_iff_lt_mul hp]; exact h

theorem ravel_unravel {e : List Nat} {k : Nat} (h : k < count e) : ravel e (unravel e k) = k := by
  induction e generalizing k with
  | nil => simp only [count] at h; simp [ravel]; omega
  | cons d ds ih =>
    simp only [count] at h
    have hp : 0 < count ds := by
      by_contra c
      have : count ds = 0 := by omega
      rw [this] at h; omega
    simp only [unravel, ravel]
    rw [ih (Nat.mod_lt _ hp)]
    have := Nat.div_add_mod k (count ds)
    rw [Nat.mul_comm] at this
    exact this

end Verif.Grid
