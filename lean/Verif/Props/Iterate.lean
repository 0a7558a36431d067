import Verif.Model.Iterate
import Verif.Props.View

/-! Property theorems for range-based `for` loops (C70). -/

namespace Verif.ViewM

open ShapeM Grid

/-- A loop over a well-formed view runs the body on each sub-view in order. -/
theorem rangeFor_ok {β : Type} {asserts : Bool} {v : View} {d : Nat} {ds : List Nat} {off : Nat}
    (h : IsView v (d :: ds) off) (body : View → Out (List β)) (out : Nat → List β)
    (hb : ∀ i x, i < d → index asserts v (i : Nat) = .ok x → IsView x ds (off + i * count ds) → body x = .ok (out i))
    (stop : Iter) (hs : stop.pos = d) :
    ∀ n p, p + n = d →
      rangeFor asserts body stop n ⟨v, p⟩ = .ok (((List.range' p n).map out).flatten) := by
  intro n
  induction n with
  | zero =>
    intro p hp
    rw [rangeFor, if_pos (by simp only; omega)]
    rfl
  | succ n ih =>
    intro p hp
    obtain ⟨x, e1, e2⟩ := index_ok (asserts := asserts) h (i := p) (by omega)
    rw [rangeFor, if_neg (by simp only; omega)]
    simp only [deref, e1, Out.ok_bind, hb p x (by omega) e1 e2, next, ih (p + 1) (by omega)]
    simp [List.range'_succ]

theorem isView_copy {v : View} {e : List Nat} {off : Nat} (h : IsView v e off) : IsView (copy v) e 0 :=
  ⟨h.ext_eq, h.stride_eq, rfl, h.notVec, h.pos, h.small⟩

theorem at_zero {asserts : Bool} {s : AnyShape} {d : Nat} {ds : List Nat} (h : ext s = d :: ds) :
    at' asserts s 0 = .ok d := by
  have h1 := at_ok asserts s 0 (by rw [h]; simp)
  have : (ext s)[0]'(by rw [h]; simp) = d := by simp [h]
  rw [← this]; exact h1

theorem forView_ok {β : Type} {asserts : Bool} {v : View} {d : Nat} {ds : List Nat} {off : Nat}
    (h : IsView v (d :: ds) off) (body : View → Out (List β)) (out : Nat → List β)
    (hb : ∀ i x, i < d → IsView x ds (i * count ds) → body x = .ok (out i)) :
    forView asserts v body = .ok (((List.range d).map out).flatten) := by
  unfold forView viewEnd viewBegin
  rw [at_zero h.ext_eq]
  simp only [Out.ok_bind, Out.pure_eq]
  rw [rangeFor_ok (isView_copy h) body out (fun i x hi _ hx => hb i x hi (by simpa using hx)) _ rfl d 0 (by omega),
    List.range_eq_range']

theorem forArray_ok {β : Type} {asserts : Bool} {s : AnyShape} {d : Nat} {ds : List Nat}
    (hv : ∀ n, s ≠ .vector n) (he : ext s = d :: ds) (hp : 0 < count (ext s)) (hc : count (ext s) < two32)
    (body : View → Out (List β)) (out : Nat → List β)
    (hb : ∀ i x, i < d → arrayIndex asserts s (i : Nat) = .ok x → IsView x ds (i * count ds) → body x = .ok (out i)) :
    forArray asserts s body = .ok (((List.range d).map out).flatten) := by
  obtain ⟨v, e1, h⟩ := isView_ofArray hv hp hc (by rw [he]; simp)
  rw [he] at h
  unfold forArray arrayBegin arrayEnd
  rw [e1, at_zero he]
  simp only [Out.ok_bind, Out.pure_eq]
  rw [rangeFor_ok (v := move v) h body out (fun i x hi e2 hx => hb i x hi ?_ (by simpa using hx)) _ rfl d 0 (by omega),
    List.range_eq_range']
  have hbc : boundCheck asserts s (i : Int) = .ok () := by
    unfold boundCheck
    cases asserts with
    | true => rw [if_pos rfl, at_zero he, Out.ok_bind]; simp [hi]
    | false => rfl
  rw [arrayIndex, hbc, Out.ok_bind, e1, Out.ok_bind]
  exact e2

/-- **C70** as stated: nested range-based loops, one per dimension, visit the elements in row-major order. -/
def C70Claim : Prop :=
  ∀ (α : Type) (asserts : Bool) (s : AnyShape) (data : List α), (∀ n, s ≠ .vector n) → ext s ≠ [] → 0 < count (ext s) →
    count (ext s) < two32 → data.length = count (ext s) → nestArray asserts s data = .ok data

/-- The claim is false: in a 2×2 array both passes of the outer loop see the first row. -/
theorem C70_false : ¬ C70Claim := by
  intro h
  have h1 := h Nat true (.matrix 2 2) [1, 2, 3, 4] (by simp) (by decide) (by decide) (by decide) (by decide)
  have h2 : nestArray true (.matrix 2 2) [1, 2, 3, 4] = .ok [1, 2, 1, 2] := by decide
  rw [h2] at h1
  simp at h1

/-- **C70**, one loop: ranging over an array yields `a[0]`, `a[1]`, …, `a[d-1]`, once each and in order, where `d` is the first
extent. -/
theorem C70_one_level_partial (asserts : Bool) (s : AnyShape) (hv : ∀ n, s ≠ .vector n) (d : Nat) (ds : List Nat)
    (he : ext s = d :: ds) (hp : 0 < count (ext s)) (hc : count (ext s) < two32) :
    ∃ vs, forArray asserts s (fun v => .ok [v]) = .ok vs ∧ vs.length = d ∧
      ∀ (i : Nat) v, vs[i]? = some v → arrayIndex asserts s (i : Int) = .ok v := by
  have key : ∀ i : Nat, ∃ v, i < d → arrayIndex asserts s (i : Nat) = .ok v := by
    intro i
    by_cases hi : i < d
    · obtain ⟨v, e1, h⟩ := isView_ofArray hv hp hc (by rw [he]; simp)
      rw [he] at h
      obtain ⟨v', e2, _⟩ := index_ok (asserts := asserts) h hi
      refine ⟨v', fun _ => ?_⟩
      have hbc : boundCheck asserts s (i : Int) = .ok () := by
        unfold boundCheck
        cases asserts with
        | true => rw [if_pos rfl, at_zero he, Out.ok_bind]; simp [hi]
        | false => rfl
      rw [arrayIndex, hbc, Out.ok_bind, e1, Out.ok_bind, e2]
    · exact ⟨⟨s, [], 0⟩, fun h => absurd h hi⟩
  choose f hf using key
  refine ⟨_, forArray_ok hv he hp hc (fun v => .ok [v]) (fun i => [f i]) ?_, ?_, ?_⟩
  · intro i x hi e1 _
    rw [hf i hi] at e1
    rw [Out.ok.inj e1]
  · simp [List.length_flatten, Function.comp_def]
  · intro i v h
    have h2 : ((List.range d).map fun i => [f i]).flatten = (List.range d).map f := by
      rw [← List.flatMap_def]; exact List.flatMap_pure_eq_map f _
    rw [h2, List.getElem?_map] at h
    cases hr : (List.range d)[i]? with
    | none => rw [hr] at h; cases h
    | some j =>
      rw [hr] at h
      obtain ⟨h3, h4⟩ := List.getElem?_eq_some_iff.1 hr
      simp only [List.length_range] at h3
      simp only [List.getElem_range] at h4
      subst h4
      simp only [Option.map_some, Option.some.injEq] at h
      rw [hf i h3, h]

example : forArray true (.shape [2, 3]) (fun v => .ok [v.offset]) = .ok [0, 3] := by decide

theorem map_read {α : Type} (data : List α) (d : Nat) (h : d ≤ data.length) (g : Nat → List α)
    (hg : ∀ i (hi : i < d), g i = [data[i]'(by omega)]) : ((List.range d).map g).flatten = data.take d := by
  induction d with
  | zero => simp
  | succ d ih =>
    rw [List.range_succ, List.map_append, List.flatten_append, ih (by omega) (fun i hi => hg i (by omega)),
      List.take_succ_eq_append_getElem (by omega)]
    simp [hg d (by omega)]

theorem count_dropLast_cons (d d' : Nat) (ds : List Nat) :
    count ((d :: d' :: ds).dropLast) = d * count ((d' :: ds).dropLast) := rfl

theorem nestView_ok {α : Type} {asserts : Bool} {data : List α} :
    ∀ (e : List Nat) (hne : e ≠ []) {v : View} {off : Nat}, IsView v e off → count e ≤ data.length →
      nestView asserts data e.length v = .ok (List.replicate (count e.dropLast) (data.take (e.getLast hne))).flatten
  | [], hne, _, _, _, _ => absurd rfl hne
  | [d], _, v, off, h, hl => by
    have hl' : d ≤ data.length := by simpa [count] using hl
    simp only [List.length_cons, List.length_nil, nestView, List.dropLast_singleton, count, List.replicate_one,
      List.flatten_cons, List.flatten_nil, List.append_nil, List.getLast_singleton]
    rw [forView_ok h _ (fun i => if hi : i < d then [data[i]'(by omega)] else [])]
    · rw [map_read data d hl']
      intro i hi
      rw [dif_pos hi]
    · intro i x hi hx
      rw [dif_pos hi]
      have hp : scalarPos x 0 = .ok (((i * count []) + 0 : Nat) : Int) := scalarPos_ok hx (by simp [count])
      have hp' : scalarPos x 0 = .ok ((i : Nat) : Int) := by simpa [count] using hp
      have hg : get asserts x data = .ok (data[i]'(by omega)) := by
        unfold get
        rw [decide_eq_true (by rw [ndim_eq, hx.ext_eq]; rfl)]
        simp only [Bool.not_true, Bool.and_false, Bool.false_eq_true, if_false, scalar, hp', Out.ok_bind]
        exact readAt_nat _ _ (by omega)
      rw [hg]; rfl
  | d :: d' :: ds, hne, v, off, h, hl => by
    have hlt := count_tail_le h.pos
    have ih := fun {x : View} {o : Nat} (hx : IsView x (d' :: ds) o) =>
      nestView_ok (asserts := asserts) (d' :: ds) (by simp) hx (Nat.le_trans hlt hl)
    rw [show (d :: d' :: ds).length = (d' :: ds).length + 1 from rfl, nestView,
      forView_ok h _ (fun _ => (List.replicate (count (d' :: ds).dropLast)
        (data.take ((d' :: ds).getLast (by simp)))).flatten) (fun i x hi hx => ih hx)]
    rw [count_dropLast_cons, List.getLast_cons (by simp : (d' :: ds) ≠ [])]
    congr 1
    generalize count (d' :: ds).dropLast = m
    generalize data.take ((d' :: ds).getLast (by simp)) = t
    rw [List.map_const', List.length_range, ← List.flatten_replicate_replicate, List.flatten_flatten,
      List.map_replicate]

/-- **C70**, what the loops do visit: for every array with at least one dimension, the nested loops finish without undefined
behaviour, run once per element, and read the first row (the first elements, as many as the last extent) again and again.
For a one-dimensional array this is the claim; see `C70_one_dim_partial`. -/
theorem C70_nested_partial {α : Type} (asserts : Bool) (s : AnyShape) (data : List α) (hv : ∀ n, s ≠ .vector n)
    (hne : ext s ≠ []) (hp : 0 < count (ext s)) (hc : count (ext s) < two32) (hl : data.length = count (ext s)) :
    nestArray asserts s data =
      .ok (List.replicate (count (ext s).dropLast) (data.take ((ext s).getLast hne))).flatten := by
  obtain ⟨v, e1, h⟩ := isView_ofArray hv hp hc hne
  have h2 := nestView_ok (asserts := asserts) (data := data) (ext s) hne h (by omega)
  have h0 : copy v = v := by
    have := h.off_eq
    cases v; simp only [copy] at *; rw [this]; rfl
  obtain ⟨d, ds, he⟩ : ∃ d ds, ext s = d :: ds := by
    cases h : ext s with
    | nil => exact absurd h hne
    | cons d ds => exact ⟨d, ds, rfl⟩
  have hlen : (ext s).length = (ndim s - 1) + 1 := by rw [ndim_eq, he]; simp
  have hvs : ext v.shape = d :: ds := by rw [h.ext_eq, he]
  rw [← h2, hlen, nestView, nestArray, forArray, forView, arrayBegin, arrayEnd, viewEnd, viewBegin, e1, at_zero he,
    at_zero hvs, h0]
  rfl

example : nestArray true (.shape [2, 2, 3]) (List.range 12) = .ok [0, 1, 2, 0, 1, 2, 0, 1, 2, 0, 1, 2] := by decide

/-- **C70** for one-dimensional arrays: the loop visits every element once, in order. -/
theorem C70_one_dim_partial {α : Type} (asserts : Bool) (d : Nat) (data : List α) (hp : 0 < d) (hc : d < two32)
    (hl : data.length = d) : nestArray asserts (.shape [d]) data = .ok data := by
  rw [C70_nested_partial asserts (.shape [d]) data (by simp) (by simp [ext]) (by simpa [ext, count] using hp)
    (by simpa [ext, count] using hc) (by simpa [ext, count] using hl)]
  simp [ext, count, ← hl]

example : nestArray true (.shape [4]) [7, 8, 9, 10] = .ok [7, 8, 9, 10] := by decide

end Verif.ViewM
