import Verif.Lemmas.View

/-! Property theorems for element access and views (C16 - C20). Extents, coordinates and row-major order are those of
`Spec/Shape.lean`: element `k` of an array with extents `e` is the one whose coordinates are entry `k` of `coords e`. -/

namespace Verif.ViewM

open ShapeM Grid

/-- Indices as the signed integers passed to the C++ functions. -/
abbrev ints (c : List Nat) : List Int := c.map (↑)

/-- The coordinate lists are those with one index below the extent in each dimension. -/
theorem mem_coords_iff (e c : List Nat) :
    c ∈ coords e ↔ c.length = e.length ∧ ∀ (j i d : Nat), c[j]? = some i → e[j]? = some d → i < d := by
  rw [mem_coords]
  constructor
  · intro h
    refine ⟨h.length_eq, fun j i d hi hd => ?_⟩
    exact (List.forall₂_iff_get.1 h).2 j
      (by rw [List.getElem?_eq_some_iff] at hi; exact hi.1)
      (by rw [List.getElem?_eq_some_iff] at hd; exact hd.1) |>.trans_eq' (by
        rw [List.getElem?_eq_some_iff] at hi; obtain ⟨_, hi⟩ := hi; simp [← hi]) |>.trans_eq (by
        rw [List.getElem?_eq_some_iff] at hd; obtain ⟨_, hd⟩ := hd; simp [← hd])
  · rintro ⟨hl, h⟩
    refine List.forall₂_iff_get.2 ⟨hl, fun j h1 h2 => ?_⟩
    exact h j _ _ (by simp [List.getElem?_eq_getElem h1]) (by simp [List.getElem?_eq_getElem h2])

/-! ### C16 -/

theorem callIndex_ok (asserts : Bool) (s : AnyShape) {c : List Nat} (h : Inside (ext s) c) :
    callIndex asserts s (ints c) = .ok ((ravel (ext s) c : Nat) : Int) := by
  unfold callIndex
  have hl : ndim s = (ints c).length := by rw [ndim_eq]; simp [h.length_eq]
  rw [decide_eq_true hl]
  simp only [Bool.not_true, Bool.and_false, Bool.false_eq_true, if_false]
  rw [callLoop_ok asserts s c 0 0 (by simpa using h)]
  simp

/-- **C16**, reads and writes: with or without assertions, the `k`-th coordinate list in row-major order reads storage
element `k`, and writing through it replaces that element only. -/
theorem C16_access {α : Type} (asserts : Bool) (s : AnyShape) (data : List α) (hlen : data.length = count (ext s))
    (k : Nat) (c : List Nat) (hk : (coords (ext s))[k]? = some c) :
    ∃ x, data[k]? = some x ∧ callRead asserts s data (ints c) = .ok x ∧
      ∀ v, callWrite asserts s data (ints c) v = .ok (data.set k v) := by
  obtain ⟨hin, rfl⟩ := coords_eq_iff.1 hk
  have hlt := ravel_lt hin
  have hlt' : ravel (ext s) c < data.length := by omega
  refine ⟨data[ravel (ext s) c], List.getElem?_eq_getElem hlt', ?_, ?_⟩
  · simp [callRead, callIndex_ok asserts s hin, readAt_nat _ _ hlt']
  · intro v
    simp [callWrite, callIndex_ok asserts s hin, writeAt_nat _ _ _ hlt']

example : callRead true (.shape [2, 3, 4]) (List.range 24) [1, 2, 3] = .ok 23 := by decide
example : (coords [2, 3])[4]? = some [1, 1] := by decide

/-- Lexicographically smaller coordinates come first. -/
theorem ravel_lex {e c c' : List Nat} (h : Inside e c) (h' : Inside e c') (hl : List.Lex (· < ·) c c') :
    ravel e c < ravel e c' := by
  induction hl generalizing e with
  | nil => cases h; cases h'
  | rel hr =>
    cases h with
    | cons h1 h2 =>
      cases h' with
      | cons h3 h4 =>
        rename_i a as b bs d ds
        simp only [ravel]
        have := ravel_lt h2
        have h5 : (a + 1) * count ds ≤ b * count ds := Nat.mul_le_mul_right _ hr
        have h6 : (a + 1) * count ds = a * count ds + count ds := by ring
        omega
  | cons _ ih =>
    cases h with
    | cons h1 h2 =>
      cases h' with
      | cons h3 h4 =>
        have := ih h2 h4
        simp only [ravel]; omega

/-- **C16**, bijection: the valid coordinates of any shape map one-to-one onto the storage positions below the number of
elements, in lexicographic (row-major) order. -/
theorem C16_bijection (asserts : Bool) (s : AnyShape) :
    (∀ c ∈ coords (ext s), ∃ k : Nat, k < count (ext s) ∧ callIndex asserts s (ints c) = .ok (k : Int)) ∧
    (∀ k, k < count (ext s) → ∃ c ∈ coords (ext s), callIndex asserts s (ints c) = .ok (k : Int)) ∧
    (∀ c ∈ coords (ext s), ∀ c' ∈ coords (ext s),
      callIndex asserts s (ints c) = callIndex asserts s (ints c') → c = c') ∧
    (∀ c ∈ coords (ext s), ∀ c' ∈ coords (ext s), List.Lex (· < ·) c c' → ∀ k k' : Nat,
      callIndex asserts s (ints c) = .ok (k : Int) → callIndex asserts s (ints c') = .ok (k' : Int) → k < k') := by
  refine ⟨?_, ?_, ?_, ?_⟩
  · intro c hc
    have hin := mem_coords.1 hc
    exact ⟨_, ravel_lt hin, callIndex_ok asserts s hin⟩
  · intro k hk
    have hin := inside_unravel hk
    exact ⟨_, mem_coords.2 hin, by rw [callIndex_ok asserts s hin, ravel_unravel hk]⟩
  · intro c hc c' hc' h
    have hin := mem_coords.1 hc
    have hin' := mem_coords.1 hc'
    rw [callIndex_ok asserts s hin, callIndex_ok asserts s hin'] at h
    have h2 : ravel (ext s) c = ravel (ext s) c' := by
      have := Out.ok.inj h
      omega
    have e1 := coords_ravel hin
    rw [h2, coords_ravel hin'] at e1
    exact (Option.some.inj e1).symm
  · intro c hc c' hc' hl k k' hk hk'
    have hin := mem_coords.1 hc
    have hin' := mem_coords.1 hc'
    rw [callIndex_ok asserts s hin] at hk
    rw [callIndex_ok asserts s hin'] at hk'
    have h1 := Out.ok.inj hk
    have h2 := Out.ok.inj hk'
    have := ravel_lex hin hin' hl
    omega

/-- **C16**, rejection: with assertions on, any index list that is not a coordinate list of the array throws, for reads and
writes, whatever the storage. -/
theorem C16_reject {α : Type} (s : AnyShape) (data : List α) (is : List Int)
    (h : ∀ c ∈ coords (ext s), is ≠ ints c) :
    (∃ e, callRead true s data is = .throw e) ∧ ∀ v, ∃ e, callWrite true s data is v = .throw e := by
  have key : ∃ e, callIndex true s is = .throw e := by
    unfold callIndex
    by_cases c : ndim s = is.length
    · refine ⟨.outOfRange, ?_⟩
      rw [decide_eq_true c]
      simp only [Bool.not_true, Bool.and_false, Bool.false_eq_true, if_false]
      apply callLoop_reject
      · rw [← c, ndim_eq]; simp
      · rintro ⟨c', rfl, hin⟩
        exact h c' (mem_coords.2 (by simpa using hin)) rfl
    · exact ⟨.invalidArgument, by rw [decide_eq_false c]; rfl⟩
  obtain ⟨e, he⟩ := key
  exact ⟨⟨e, by simp [callRead, he]⟩, fun v => ⟨e, by simp [callWrite, he]⟩⟩

example : callRead true (.shape [2, 3]) (List.range 6) [1, 3] = .throw .outOfRange ∧
    callRead true (.shape [2, 3]) (List.range 6) [-1, 0] = .throw .outOfRange ∧
    callRead true (.matrix 2 3) (List.range 6) [1] = .throw .invalidArgument := by decide

/-! ### C17 -/

/-- The full property C17: chained subscripts denote the same element as the multi-index, for every array. -/
def C17Claim : Prop :=
  ∀ (α : Type) (asserts : Bool) (s : AnyShape) (data : List α), Valid s → data.length = count (ext s) →
    ∀ (i : Nat) (is : List Nat), i :: is ∈ coords (ext s) →
      ∃ v, chain asserts s i (ints is) = .ok v ∧
        get asserts v data = callRead asserts s data (ints (i :: is)) ∧
        ∀ x, assignScalar asserts v data x = callWrite asserts s data (ints (i :: is)) x

/-- Subscripting a one-dimensional `Array1D` (class `VectorShape`) gives a view of shape (0) instead of a scalar: reading it
throws with assertions on and divides by zero with assertions off. -/
theorem C17_vector_false : ∃ v, chain true (.vector 3) 1 [] = .ok v ∧ chain false (.vector 3) 1 [] = .ok v ∧
    get true v [10, 20, 30] = .throw .invalidArgument ∧ get false v [10, 20, 30] = .ub := by
  exact ⟨⟨.shape [0], [1], 1⟩, by decide, by decide, by decide, by decide⟩

/-- **C17** is false of the code. -/
theorem C17_false : ¬ C17Claim := by
  intro h
  obtain ⟨v, e1, e2, _⟩ := h Nat true (.vector 3) [10, 20, 30] (by decide) rfl 1 [] (by decide)
  obtain ⟨v', e3, _, e4, _⟩ := C17_vector_false
  have : v = v' := by
    have := e1.symm.trans e3
    exact Out.ok.inj this
  subst this
  rw [e4] at e2
  revert e2
  decide

/-- With 2^33 elements the strides, computed in 32 bits, wrap: `a[1][0][0]` is position 0 while `a(1, 0, 0)` is position
2^32. -/
theorem C17_large_false : ∃ v, chain true (.shape [2, 65536, 65536]) 1 [0, 0] = .ok v ∧ scalarPos v 0 = .ok 0 ∧
    callIndex true (.shape [2, 65536, 65536]) [1, 0, 0] = .ok 4294967296 :=
  ⟨⟨.shape [], [1], 0⟩, by decide, by decide, by decide⟩

theorem arrayView_ok {asserts : Bool} {s : AnyShape} (hv : ∀ n, s ≠ .vector n) (hc : count (ext s) < 2 ^ 32)
    {i : Nat} {is : List Nat} (hl : (i :: is).length ≤ (ext s).length)
    (hin : Inside ((ext s).take (i :: is).length) (i :: is)) (hp : 0 < count (ext s)) :
    ∃ v, chain asserts s i (ints is) = .ok v ∧
      IsView v ((ext s).drop (i :: is).length)
        (ravel ((ext s).take (i :: is).length) (i :: is) * count ((ext s).drop (i :: is).length)) := by
  have hne : ext s ≠ [] := by intro h; rw [h] at hl; simp at hl
  obtain ⟨v0, e0, p0⟩ := isView_ofArray hv hp hc hne
  obtain ⟨v, e1, p1⟩ := chainFrom_ok (asserts := asserts) (i :: is) p0 hl hin
  refine ⟨v, ?_, by simpa using p1⟩
  simp only [chainFrom, List.map_cons] at e1
  have hb : boundCheck asserts s (i : Int) = .ok () := by
    cases he : ext s with
    | nil => exact absurd he hne
    | cons d ds =>
      rw [he] at hin
      simp only [List.length_cons, List.take_succ_cons] at hin
      cases hin with
      | cons h1 h2 =>
        unfold boundCheck
        cases asserts with
        | true =>
          have hat := at_ok true s 0 (by rw [he]; simp)
          have : (ext s)[0]'(by rw [he]; simp) = d := by simp [he]
          rw [this] at hat
          have hcheck : (decide ((0 : Int) ≤ (i : Int)) && decide ((i : Int) < (d : Int))) = true := by
            simp; exact h1
          have hat' : at' true s 0 = .ok d := hat
          rw [if_pos rfl, hat', Out.ok_bind, hcheck]; rfl
        | false => rfl
  simp only [chain, arrayIndex, hb, Out.ok_bind, e0]
  exact e1

/-- **C17** for `Shape` and `MatrixShape` arrays of fewer than 2^32 elements: a full chain of subscripts denotes the same
element as the multi-index, for reads and for writes. -/
theorem C17_chain_partial {α : Type} (asserts : Bool) (s : AnyShape) (hv : ∀ n, s ≠ .vector n)
    (hc : count (ext s) < 2 ^ 32) (data : List α) (hlen : data.length = count (ext s)) (i : Nat) (is : List Nat)
    (hmem : i :: is ∈ coords (ext s)) :
    ∃ v, chain asserts s i (ints is) = .ok v ∧
      get asserts v data = callRead asserts s data (ints (i :: is)) ∧
      (∀ x, assignScalar asserts v data x = callWrite asserts s data (ints (i :: is)) x) ∧
      (get asserts v data).isOk = true := by
  have hin := mem_coords.1 hmem
  have hl : (i :: is).length = (ext s).length := hin.length_eq
  have hp := count_pos_of_inside hin
  obtain ⟨v, e1, p1⟩ := arrayView_ok (asserts := asserts) hv hc (Nat.le_of_eq hl) (by rw [hl]; simpa using hin) hp
  rw [hl] at p1
  simp only [List.take_length, List.drop_length, count, Nat.mul_one] at p1
  have hlt : ravel (ext s) (i :: is) < data.length := by rw [hlen]; exact ravel_lt hin
  have hpos := scalarPos_ok p1 (k := 0) (by simp [count])
  have hnd : ndim v.shape = 0 := by rw [ndim_eq, p1.ext_eq]; rfl
  have hg : get asserts v data = .ok data[ravel (ext s) (i :: is)] := by
    unfold get
    rw [decide_eq_true hnd]
    simp only [Bool.not_true, Bool.and_false, Bool.false_eq_true, if_false, scalar, hpos, Out.ok_bind, Nat.add_zero]
    exact readAt_nat _ _ hlt
  refine ⟨v, e1, ?_, ?_, by rw [hg]; rfl⟩
  · rw [hg, callRead, callIndex_ok asserts s hin, Out.ok_bind, readAt_nat _ _ hlt]
  · intro x
    unfold assignScalar
    rw [decide_eq_true hnd]
    simp only [Bool.not_true, Bool.and_false, Bool.false_eq_true, if_false, p1.off_eq, callWrite,
      callIndex_ok asserts s hin, Out.ok_bind]

example : ∃ v, chain true (.matrix 2 3) 1 [2] = .ok v ∧ get true v [0, 1, 2, 3, 4, 5] = .ok 5 :=
  ⟨⟨.shape [], [1], 5⟩, by decide, by decide⟩

/-- **C17**, rejection: with assertions on, a chain of subscripts of any length on any `Shape` or `MatrixShape` array is
rejected unless every index is inside its extent. -/
theorem C17_reject_partial (s : AnyShape) (hv : ∀ n, s ≠ .vector n) (i : Int) (is : List Int)
    (h : ∀ c ∈ coords ((ext s).take (i :: is).length), i :: is ≠ ints c) :
    chain true s i is = .throw .outOfRange := by
  have hbad : ¬ ∃ c' : List Nat, i :: is = c'.map (↑) ∧ c'.length ≤ (ext s).length ∧
      Inside ((ext s).take c'.length) c' := by
    rintro ⟨c', he, _, hin⟩
    have hl : (i :: is).length = c'.length := by rw [he]; simp
    refine h c' (mem_coords.2 ?_) he
    rw [hl]; exact hin
  by_cases hg : ∃ d ds, ext s = d :: ds ∧ 0 ≤ i ∧ i < d
  · obtain ⟨d, ds, he, h0, h1⟩ := hg
    have hat := at_ok true s 0 (by rw [he]; simp)
    have h3 : (ext s)[0]'(by rw [he]; simp) = d := by simp [he]
    rw [h3] at hat
    have hat' : at' true s 0 = .ok d := hat
    have hcheck : (decide (0 ≤ i) && decide (i < (d : Int))) = true := by simp [h0, h1]
    have hb : boundCheck true s i = .ok () := by
      rw [boundCheck, if_pos rfl, hat', Out.ok_bind, hcheck]; rfl
    obtain ⟨st, hst, _⟩ := mkStride_length (s := s) (by rw [he]; simp)
    have hrej := chainFrom_reject (v := ⟨s, st, 0⟩) (e := ext s) (i :: is) ⟨rfl, hv⟩ hbad
    simp only [chain, arrayIndex, hb, Out.ok_bind, ofArray, hst, Out.pure_eq]
    exact hrej
  · have hb : boundCheck true s i = .throw .outOfRange := by
      unfold boundCheck
      cases he : ext s with
      | nil =>
        cases s with
        | shape e => simp only [ext] at he; subst he; rfl
        | matrix r c => simp [ext] at he
        | vector n => exact absurd rfl (hv n)
      | cons d ds =>
        have hat := at_ok true s 0 (by rw [he]; simp)
        have h3 : (ext s)[0]'(by rw [he]; simp) = d := by simp [he]
        rw [h3] at hat
        have hat' : at' true s 0 = .ok d := hat
        have hc : (decide (0 ≤ i) && decide (i < (d : Int))) = false := by
          have h4 : ¬ (0 ≤ i ∧ i < (d : Int)) := fun h1 => hg ⟨d, ds, he, h1.1, h1.2⟩
          simp only [Bool.and_eq_false_iff, decide_eq_false_iff_not]
          omega
        simp only [if_true, hat', Out.ok_bind, hc, Out.guard_false]
    simp only [chain, arrayIndex, hb, Out.throw_bind]

example : chain true (.shape [2, 3]) 1 [3] = .throw .outOfRange ∧ chain true (.shape [2, 3]) 1 [2, 0] = .throw .outOfRange := by
  decide

/-! ### C18 -/

/-- The full property C18 for evaluation: any view of any array can be evaluated. -/
def C18EvalClaim : Prop :=
  ∀ (α : Type) (s : AnyShape) (data init : List α) (i : Nat) (is : List Nat) (v : View), Valid s →
    data.length = count (ext s) → chain true s i (ints is) = .ok v → init.length = size v.shape →
      ∃ res, eval v data init = .ok res

/-- **C18** is false of the code for empty views: evaluating row 0 of a 2 by 0 array reads one element out of bounds. -/
theorem C18_empty_false : ¬ C18EvalClaim := by
  intro h
  obtain ⟨res, e⟩ := h Nat (.shape [2, 0]) [] [] 0 [] ⟨.shape [0], [0], 0⟩ (by decide) rfl (by decide) rfl
  unfold eval doWhile at e
  revert e
  simp [evalBody, readAt, ndim]

theorem pos_split {e : List Nat} {n k q : Nat} {c c' : List Nat} (hl : c.length = n)
    (hk : (coords (e.drop n))[k]? = some c') (hq : (coords e)[q]? = some (c ++ c')) :
    Inside (e.take n) c ∧ n ≤ e.length ∧ q = ravel (e.take n) c * count (e.drop n) + k ∧ k < count (e.drop n) := by
  obtain ⟨hin', rfl⟩ := coords_eq_iff.1 hk
  obtain ⟨hin, rfl⟩ := coords_eq_iff.1 hq
  have hlen := hin.length_eq
  have hlen' := hin'.length_eq
  simp only [List.length_append, List.length_drop] at hlen hlen'
  have hn : n ≤ e.length := by omega
  have htl : (e.take n).length = c.length := by simp; omega
  refine ⟨?_, hn, ?_, ravel_lt hin'⟩
  · have h1 := List.forall₂_take n hin
    rw [List.take_append_of_le_length (by omega), List.take_of_length_le (by omega)] at h1
    exact h1
  · conv => lhs; rw [← List.take_append_drop n e]
    rw [ravel_append htl.symm]

/-- **C18**, flat access (arrays of class `Shape` or `MatrixShape` below 2^32 elements): for the view obtained by any chain
of in-range subscripts, flat position `k` reads the `k`-th element of the sub-array in row-major order. -/
theorem C18_flat_partial {α : Type} (asserts : Bool) (s : AnyShape) (hv : ∀ n, s ≠ .vector n)
    (hc : count (ext s) < 2 ^ 32) (data : List α) (hlen : data.length = count (ext s)) (i : Nat) (is : List Nat)
    (k q : Nat) (c' : List Nat)
    (hk : (coords ((ext s).drop (i :: is).length))[k]? = some c')
    (hq : (coords (ext s))[q]? = some ((i :: is) ++ c')) :
    ∃ v x, chain asserts s i (ints is) = .ok v ∧ data[q]? = some x ∧ scalar v data k = .ok x := by
  obtain ⟨hin, hn, rfl, hk'⟩ := pos_split rfl hk hq
  have hp : 0 < count (ext s) := count_pos_of_inside (coords_eq_iff.1 hq).1
  obtain ⟨v, e1, p1⟩ := arrayView_ok (asserts := asserts) hv hc hn hin hp
  have hlt : ravel ((ext s).take (i :: is).length) (i :: is) * count ((ext s).drop (i :: is).length) + k < data.length := by
    obtain ⟨h1, h2⟩ := coords_eq_iff.1 hq
    rw [hlen, h2]; exact ravel_lt h1
  refine ⟨v, data[_], e1, List.getElem?_eq_getElem hlt, ?_⟩
  unfold scalar
  rw [scalarPos_ok p1 hk', Out.ok_bind]
  exact readAt_nat _ _ hlt

example : ∃ v, chain true (.shape [2, 2, 3]) 1 [] = .ok v ∧ scalar v (List.range 12) 4 = .ok 10 :=
  ⟨⟨.shape [2, 3], [3, 1], 6⟩, by decide, by decide⟩

/-- **C18**, evaluation (non-empty arrays): evaluating the view gives the elements of the sub-array in row-major order, as
many as it has. -/
theorem C18_eval_partial {α : Type} (asserts : Bool) (s : AnyShape) (hv : ∀ n, s ≠ .vector n)
    (hc : count (ext s) < 2 ^ 32) (hp : 0 < count (ext s)) (data : List α) (hlen : data.length = count (ext s))
    (i : Nat) (is : List Nat) (hin : i :: is ∈ coords ((ext s).take (i :: is).length))
    (init : List α) (hinit : init.length = count ((ext s).drop (i :: is).length)) :
    ∃ v res, chain asserts s i (ints is) = .ok v ∧ size v.shape = init.length ∧ eval v data init = .ok res ∧
      res.length = count ((ext s).drop (i :: is).length) ∧
      ∀ (k q : Nat) (c' : List Nat), (coords ((ext s).drop (i :: is).length))[k]? = some c' →
        (coords (ext s))[q]? = some ((i :: is) ++ c') → res[k]? = data[q]? ∧ q < data.length := by
  have hin' := mem_coords.1 hin
  have hn : (i :: is).length ≤ (ext s).length := by
    have h1 := hin'.length_eq
    rw [List.length_take] at h1
    omega
  obtain ⟨v, e1, p1⟩ := arrayView_ok (asserts := asserts) hv hc hn hin' hp
  have hfit : ravel ((ext s).take (i :: is).length) (i :: is) * count ((ext s).drop (i :: is).length) +
      count ((ext s).drop (i :: is).length) ≤ data.length := by
    have h1 := ravel_lt hin'
    have h2 : count (ext s) = count ((ext s).take (i :: is).length) * count ((ext s).drop (i :: is).length) := by
      rw [← count_append, List.take_append_drop]
    rw [hlen, h2]
    have h3 : (ravel ((ext s).take (i :: is).length) (i :: is) + 1) * count ((ext s).drop (i :: is).length) ≤
      count ((ext s).take (i :: is).length) * count ((ext s).drop (i :: is).length) := Nat.mul_le_mul_right _ h1
    rw [Nat.add_mul, Nat.one_mul] at h3
    exact h3
  obtain ⟨res, e2, l2, h2⟩ := eval_ok p1 hfit hinit
  refine ⟨v, res, e1, ?_, e2, l2, ?_⟩
  · rw [size_small (by rw [p1.ext_eq]; exact p1.small), p1.ext_eq, hinit]
  · intro k q c' hk hq
    obtain ⟨_, _, rfl, hk'⟩ := pos_split rfl hk hq
    refine ⟨h2 k hk', by omega⟩

/-! ### C19 -/

/-- The full property C19: a copy of a view obtained by subscripts reads and writes the same elements. -/
def C19Claim : Prop :=
  ∀ (α : Type) (s : AnyShape) (data : List α) (i : Nat) (is : List Nat) (v : View), Valid s →
    data.length = count (ext s) → chain true s i (ints is) = .ok v →
      (∀ k, k < size v.shape → scalar (copy v) data k = scalar v data k) ∧
      (∀ x, assignScalar true (copy v) data x = assignScalar true v data x)

/-- **C19** is false of the code: a copy of row 1 reads row 0. -/
theorem C19_false : ¬ C19Claim := by
  intro h
  have h1 := (h Nat (.shape [2, 3]) (List.range 6) 1 [] ⟨.shape [3], [1], 3⟩ (by decide) rfl (by decide)).1 0 (by decide)
  revert h1
  decide

/-- Writing through a copy of a scalar view writes element 0 of the array. -/
theorem C19_write_false : ∃ v, chain true (.shape [3]) 2 [] = .ok v ∧
    assignScalar true (copy v) [1, 2, 3] 9 = .ok [9, 2, 3] ∧ assignScalar true v [1, 2, 3] 9 = .ok [1, 2, 9] :=
  ⟨⟨.shape [], [1], 2⟩, by decide, by decide, by decide⟩

/-- **C19**, what a copy denotes: the copy of the view at any in-range chain of subscripts is the view at the chain of zeros
of the same length; moving a view keeps its elements. -/
theorem C19_partial (asserts : Bool) (s : AnyShape) (hv : ∀ n, s ≠ .vector n) (hc : count (ext s) < 2 ^ 32)
    (hp : 0 < count (ext s)) (i : Nat) (is : List Nat) (hin : i :: is ∈ coords ((ext s).take (i :: is).length)) :
    ∃ v v0, chain asserts s i (ints is) = .ok v ∧
      chain asserts s 0 (ints (List.replicate is.length 0)) = .ok v0 ∧ move v = v ∧
      (∀ (α : Type) (data : List α) (k : Nat), k < size v.shape →
        scalar (copy v) data k = scalar v0 data k) ∧
      (∀ (α : Type) (data : List α) (x : α), assignScalar asserts (copy v) data x = assignScalar asserts v0 data x) := by
  have hin' := mem_coords.1 hin
  have hn : (i :: is).length ≤ (ext s).length := by
    have h1 := hin'.length_eq
    rw [List.length_take] at h1
    omega
  obtain ⟨v, e1, p1⟩ := arrayView_ok (asserts := asserts) hv hc hn hin' hp
  have hl0 : (0 :: List.replicate is.length 0).length = (i :: is).length := by simp
  have hpt : 0 < count ((ext s).take (i :: is).length) := count_pos_of_inside hin'
  have hz : Inside ((ext s).take (i :: is).length) (0 :: List.replicate is.length 0) := by
    have := inside_zero hpt
    rwa [List.length_take, Nat.min_eq_left hn, List.length_cons, List.replicate_succ] at this
  obtain ⟨v0, e0, p0⟩ := arrayView_ok (asserts := asserts) hv hc (i := 0) (is := List.replicate is.length 0)
    (by rw [hl0]; exact hn) (by rw [hl0]; exact hz) hp
  rw [hl0] at p0
  have hr0 : ravel ((ext s).take (i :: is).length) (0 :: List.replicate is.length 0) = 0 := by
    rw [← List.replicate_succ]; exact ravel_replicate _ _
  rw [hr0, Nat.zero_mul] at p0
  have pc : IsView (copy v) ((ext s).drop (i :: is).length) 0 := ⟨p1.ext_eq, p1.stride_eq, rfl, p1.notVec, p1.pos, p1.small⟩
  refine ⟨v, v0, e1, e0, rfl, ?_, ?_⟩
  · intro α data k hk
    rw [size_small (by rw [p1.ext_eq]; exact p1.small), p1.ext_eq] at hk
    unfold scalar
    rw [scalarPos_ok pc hk, scalarPos_ok p0 hk]
  · intro α data x
    unfold assignScalar
    rw [ndim_eq, ndim_eq, pc.ext_eq, p0.ext_eq, pc.off_eq, p0.off_eq]

/-! ### C20 -/

/-- The full property C20 with respect to empty views: assigning an expression of the same shape succeeds. -/
def C20Claim : Prop :=
  ∀ (α : Type) (s : AnyShape) (data : List α) (i : Nat) (is : List Nat) (v : View) (src : Nat → List α → Out α), Valid s →
    data.length = count (ext s) → chain true s i (ints is) = .ok v →
    (∀ k d, k < count (ext v.shape) → (src k d).isOk = true) →
      (assign true v v.shape src data).isOk = true

/-- **C20** is false of the code for empty views: assigning to row 0 of a 2 by 0 array writes out of bounds. -/
theorem C20_empty_false : ¬ C20Claim := by
  intro h
  have h1 := h Nat (.shape [2, 0]) [] 0 [] ⟨.shape [0], [0], 0⟩ (fun _ _ => .ok 5) (by decide) rfl (by decide)
    (fun _ _ _ => rfl)
  revert h1
  unfold assign doWhile
  simp [assignBody, writeAt, ndim, shapeEq, shapeEqLoop, ext, Out.isOk]

/-- **C20**, shape mismatch: with assertions on it is rejected and nothing is written. -/
theorem C20_reject {α : Type} (v : View) (srcShape : AnyShape) (src : Nat → List α → Out α) (data : List α)
    (h : ext v.shape ≠ ext srcShape) : assign true v srcShape src data = .throw .rangeError := by
  unfold assign
  have : shapeEq (ext v.shape) (ext srcShape) = false := by
    cases hb : shapeEq (ext v.shape) (ext srcShape) with
    | false => rfl
    | true => exact absurd (shapeEq_iff.1 hb) h
  simp [this]

example : assign true ⟨.shape [3], [1], 3⟩ (.shape [2]) (fun k _ => .ok k) (List.range 6) = .throw .rangeError :=
  C20_reject _ _ _ _ (by decide)

/-- **C20** for non-empty arrays below 2^32 elements: the view at any in-range chain of subscripts is assigned element by
element, element `k` of the source to element `k` of the sub-array, and every other element of the array is unchanged. The
source may read the array being written as long as element `k` of the source does not depend on the elements written
before it. -/
theorem C20_assign_partial {α : Type} (asserts : Bool) (s : AnyShape) (hv : ∀ n, s ≠ .vector n)
    (hc : count (ext s) < 2 ^ 32) (hp : 0 < count (ext s)) (data : List α) (hlen : data.length = count (ext s))
    (i : Nat) (is : List Nat) (hin : i :: is ∈ coords ((ext s).take (i :: is).length))
    (srcShape : AnyShape) (hshape : ext srcShape = (ext s).drop (i :: is).length)
    (src : Nat → List α → Out α) (val : Nat → α)
    (hsrc : ∀ k, k < count (ext srcShape) → ∀ data' : List α, data'.length = data.length →
      (∀ (q : Nat) full, (coords (ext s))[q]? = some full →
        (∀ (k' : Nat) c', k' < k → (coords (ext srcShape))[k']? = some c' → full ≠ (i :: is) ++ c') → data'[q]? = data[q]?) →
      src k data' = .ok (val k)) :
    ∃ v data', chain asserts s i (ints is) = .ok v ∧ assign asserts v srcShape src data = .ok data' ∧
      data'.length = data.length ∧
      (∀ (k q : Nat) c', (coords (ext srcShape))[k]? = some c' → (coords (ext s))[q]? = some ((i :: is) ++ c') →
        data'[q]? = some (val k)) ∧
      (∀ (q : Nat) full, (coords (ext s))[q]? = some full → ¬ (i :: is) <+: full → data'[q]? = data[q]?) := by
  have hin' := mem_coords.1 hin
  have hn : (i :: is).length ≤ (ext s).length := by
    have h1 := hin'.length_eq
    rw [List.length_take] at h1
    omega
  obtain ⟨v, e1, p1⟩ := arrayView_ok (asserts := asserts) hv hc hn hin' hp
  generalize hoff : ravel ((ext s).take (i :: is).length) (i :: is) * count ((ext s).drop (i :: is).length) = off at p1
  have hfit : off + count ((ext s).drop (i :: is).length) ≤ data.length := by
    have h1 := ravel_lt hin'
    have h2 : count (ext s) = count ((ext s).take (i :: is).length) * count ((ext s).drop (i :: is).length) := by
      rw [← count_append, List.take_append_drop]
    rw [hlen, h2, ← hoff]
    have h3 : (ravel ((ext s).take (i :: is).length) (i :: is) + 1) * count ((ext s).drop (i :: is).length) ≤
      count ((ext s).take (i :: is).length) * count ((ext s).drop (i :: is).length) := Nat.mul_le_mul_right _ h1
    rw [Nat.add_mul, Nat.one_mul] at h3
    exact h3
  have hpos : ∀ (k q : Nat) c', (coords ((ext s).drop (i :: is).length))[k]? = some c' →
      (coords (ext s))[q]? = some ((i :: is) ++ c') → q = off + k ∧ k < count ((ext s).drop (i :: is).length) := by
    intro k q c' hk hq
    obtain ⟨_, _, h3, h4⟩ := pos_split rfl hk hq
    rw [hoff] at h3
    exact ⟨h3, h4⟩
  have hpos' : ∀ (k : Nat) c', (coords ((ext s).drop (i :: is).length))[k]? = some c' →
      (coords (ext s))[off + k]? = some ((i :: is) ++ c') := by
    intro k c' hk
    obtain ⟨h1, h2⟩ := coords_eq_iff.1 hk
    have happ : Inside (ext s) ((i :: is) ++ c') := by
      rw [← List.take_append_drop (i :: is).length (ext s)]
      exact List.rel_append hin' h1
    rw [coords_eq_iff]
    refine ⟨happ, ?_⟩
    conv => rhs; rw [← List.take_append_drop (i :: is).length (ext s)]
    rw [ravel_append (by rw [List.length_take]; omega), hoff, h2]
  obtain ⟨data', e2, l2, h2⟩ := assign_ok (asserts := asserts) p1 hshape (src := src) (data := data) val hfit (by
    intro k hk d' ⟨hl', hag⟩
    refine hsrc k (by rw [hshape]; exact hk) d' hl' ?_
    intro q full hq hne
    apply hag
    rintro ⟨h3, h4⟩
    have hk' : q - off < count ((ext s).drop (i :: is).length) := by omega
    obtain ⟨c', hc'⟩ : ∃ c', (coords ((ext s).drop (i :: is).length))[q - off]? = some c' :=
      ⟨_, List.getElem?_eq_getElem (by rw [length_coords]; exact hk')⟩
    refine hne (q - off) c' (by omega) (by rw [hshape]; exact hc') ?_
    have h5 := hpos' _ _ hc'
    rw [show off + (q - off) = q by omega, hq] at h5
    exact Option.some.inj h5)
  refine ⟨v, data', e1, e2, l2, ?_, ?_⟩
  · intro k q c' hk hq
    rw [hshape] at hk
    obtain ⟨rfl, h4⟩ := hpos k q c' hk hq
    rw [h2, if_pos ⟨by omega, by omega⟩, Nat.add_sub_cancel_left]
  · intro q full hq hnp
    rw [h2, if_neg]
    rintro ⟨h3, h4⟩
    obtain ⟨c', hc'⟩ : ∃ c', (coords ((ext s).drop (i :: is).length))[q - off]? = some c' :=
      ⟨_, List.getElem?_eq_getElem (by rw [length_coords]; omega)⟩
    have h5 := hpos' _ _ hc'
    rw [show off + (q - off) = q by omega, hq] at h5
    exact hnp ⟨c', (Option.some.inj h5).symm⟩

/-- A concrete use of `C20_assign_partial`: row 1 of a 2 by 3 array receives a source of three elements. -/
example : ∃ v data', chain true (.shape [2, 3]) 1 [] = .ok v ∧
    assign true v (.shape [3]) (fun k _ => .ok (10 * k)) [0, 1, 2, 3, 4, 5] = .ok data' ∧ data'.length = 6 := by
  obtain ⟨v, d, h1, h2, h3, _⟩ := C20_assign_partial true (.shape [2, 3]) (by simp) (by decide) (by decide) [0, 1, 2, 3, 4, 5]
    rfl 1 [] (by decide) (.shape [3]) rfl (fun k _ => .ok (10 * k)) (fun k => 10 * k) (fun _ _ _ _ _ => rfl)
  exact ⟨v, d, h1, h2, h3⟩

/-- **C20**, in-place operators (`view += other` and the like, generalArrayView.hpp 514-544): element `k` of the view becomes
`op old (other k)`, every other element of the array is unchanged. -/
theorem C20_compound_partial {α β : Type} (asserts : Bool) (s : AnyShape) (hv : ∀ n, s ≠ .vector n)
    (hc : count (ext s) < 2 ^ 32) (hp : 0 < count (ext s)) (data : List α) (hlen : data.length = count (ext s))
    (i : Nat) (is : List Nat) (hin : i :: is ∈ coords ((ext s).take (i :: is).length))
    (op : α → β → α) (other : Nat → β) :
    ∃ v data', chain asserts s i (ints is) = .ok v ∧
      assign asserts v v.shape (fun k d => do let x ← scalar v d k; return op x (other k)) data = .ok data' ∧
      data'.length = data.length ∧
      (∀ (k q : Nat) c' x, (coords ((ext s).drop (i :: is).length))[k]? = some c' →
        (coords (ext s))[q]? = some ((i :: is) ++ c') → data[q]? = some x → data'[q]? = some (op x (other k))) ∧
      (∀ (q : Nat) full, (coords (ext s))[q]? = some full → ¬ (i :: is) <+: full → data'[q]? = data[q]?) := by
  have hin' := mem_coords.1 hin
  have hn : (i :: is).length ≤ (ext s).length := by
    have h1 := hin'.length_eq
    rw [List.length_take] at h1
    omega
  obtain ⟨v, e1, p1⟩ := arrayView_ok (asserts := asserts) hv hc hn hin' hp
  generalize hoff : ravel ((ext s).take (i :: is).length) (i :: is) * count ((ext s).drop (i :: is).length) = off at p1
  have hfit : off + count ((ext s).drop (i :: is).length) ≤ data.length := by
    have h1 := ravel_lt hin'
    have h2 : count (ext s) = count ((ext s).take (i :: is).length) * count ((ext s).drop (i :: is).length) := by
      rw [← count_append, List.take_append_drop]
    rw [hlen, h2, ← hoff]
    have h3 : (ravel ((ext s).take (i :: is).length) (i :: is) + 1) * count ((ext s).drop (i :: is).length) ≤
      count ((ext s).take (i :: is).length) * count ((ext s).drop (i :: is).length) := Nat.mul_le_mul_right _ h1
    rw [Nat.add_mul, Nat.one_mul] at h3
    exact h3
  have hne : data ≠ [] := by
    intro h; rw [h] at hlen; simp at hlen; omega
  obtain ⟨a0, d0, rfl⟩ := List.exists_cons_of_ne_nil hne
  generalize hD : a0 :: d0 = D at *
  obtain ⟨data', e2, l2, h2⟩ := assign_ok (asserts := asserts) p1 (srcShape := v.shape) p1.ext_eq (data := D)
    (src := fun k d => do let x ← scalar v d k; return op x (other k))
    (fun k => op ((D[off + k]?).getD a0) (other k)) hfit (by
      intro k hk d' ⟨hl', hag⟩
      have hlt : off + k < d'.length := by omega
      have h3 := hag (off + k) (by omega)
      have hs : scalar v d' k = .ok d'[off + k] := by
        unfold scalar
        rw [scalarPos_ok p1 hk, Out.ok_bind]
        exact readAt_nat _ _ hlt
      rw [List.getElem?_eq_getElem hlt] at h3
      simp only [hs, Out.ok_bind, Out.pure_eq]
      rw [← h3]; rfl)
  refine ⟨v, data', e1, e2, l2, ?_, ?_⟩
  · intro k q c' x hk hq hx
    obtain ⟨_, _, h3, h4⟩ := pos_split rfl hk hq
    rw [hoff] at h3
    subst h3
    rw [h2, if_pos ⟨by omega, by omega⟩, Nat.add_sub_cancel_left, hx]; rfl
  · intro q full hq hnp
    rw [h2, if_neg]
    rintro ⟨h3, h4⟩
    obtain ⟨c', hc'⟩ : ∃ c', (coords ((ext s).drop (i :: is).length))[q - off]? = some c' :=
      ⟨_, List.getElem?_eq_getElem (by rw [length_coords]; omega)⟩
    obtain ⟨g1, g2⟩ := coords_eq_iff.1 hc'
    obtain ⟨f1, f2⟩ := coords_eq_iff.1 hq
    have happ : Inside (ext s) ((i :: is) ++ c') := by
      rw [← List.take_append_drop (i :: is).length (ext s)]
      exact List.rel_append hin' g1
    have h5 : (coords (ext s))[q]? = some ((i :: is) ++ c') := by
      rw [coords_eq_iff]
      refine ⟨happ, ?_⟩
      conv => rhs; rw [← List.take_append_drop (i :: is).length (ext s)]
      rw [ravel_append (by rw [List.length_take]; omega), hoff, ← g2]
      omega
    rw [hq] at h5
    exact hnp ⟨c', (Option.some.inj h5).symm⟩

/-- **C20**, assignment between two views of one array (`a[i] = a[j]`, also `a[i] = a[i]`): the destination receives the
previous elements of the source. -/
theorem C20_view_to_view_partial {α : Type} (asserts : Bool) (s : AnyShape) (hv : ∀ n, s ≠ .vector n)
    (hc : count (ext s) < 2 ^ 32) (hp : 0 < count (ext s)) (data : List α) (hlen : data.length = count (ext s))
    (i : Nat) (is : List Nat) (hin : i :: is ∈ coords ((ext s).take (i :: is).length))
    (j : Nat) (js : List Nat) (hjn : j :: js ∈ coords ((ext s).take (j :: js).length)) (hlj : js.length = is.length) :
    ∃ v w data', chain asserts s i (ints is) = .ok v ∧ chain asserts s j (ints js) = .ok w ∧
      assign asserts v w.shape (fun k d => scalar w d k) data = .ok data' ∧ data'.length = data.length ∧
      (∀ (q q' : Nat) c', (coords (ext s))[q]? = some ((i :: is) ++ c') → (coords (ext s))[q']? = some ((j :: js) ++ c') →
        data'[q]? = data[q']?) ∧
      (∀ (q : Nat) full, (coords (ext s))[q]? = some full → ¬ (i :: is) <+: full → data'[q]? = data[q]?) := by
  have hin' := mem_coords.1 hin
  have hjn' := mem_coords.1 hjn
  have hlen2 : (j :: js).length = (i :: is).length := by simp [hlj]
  have hn : (i :: is).length ≤ (ext s).length := by
    have h1 := hin'.length_eq
    rw [List.length_take] at h1
    omega
  obtain ⟨v, e1, p1⟩ := arrayView_ok (asserts := asserts) hv hc hn hin' hp
  obtain ⟨w, e1', p1'⟩ := arrayView_ok (asserts := asserts) hv hc (by rw [hlen2]; exact hn) hjn' hp
  rw [hlen2] at p1' hjn'
  have bound : ∀ c, Inside ((ext s).take (i :: is).length) c →
      ravel ((ext s).take (i :: is).length) c * count ((ext s).drop (i :: is).length) +
        count ((ext s).drop (i :: is).length) ≤ data.length := by
    intro c hcin
    have h1 := ravel_lt hcin
    have h2 : count (ext s) = count ((ext s).take (i :: is).length) * count ((ext s).drop (i :: is).length) := by
      rw [← count_append, List.take_append_drop]
    rw [hlen, h2]
    have h3 : (ravel ((ext s).take (i :: is).length) c + 1) * count ((ext s).drop (i :: is).length) ≤
      count ((ext s).take (i :: is).length) * count ((ext s).drop (i :: is).length) := Nat.mul_le_mul_right _ h1
    rw [Nat.add_mul, Nat.one_mul] at h3
    exact h3
  have hfit := bound _ hin'
  have hfit' := bound _ hjn'
  have hne : data ≠ [] := by
    intro h; rw [h] at hlen; simp at hlen; omega
  obtain ⟨a0, d0, hD⟩ := List.exists_cons_of_ne_nil hne
  generalize hri : ravel ((ext s).take (i :: is).length) (i :: is) = ri at *
  generalize hrj : ravel ((ext s).take (i :: is).length) (j :: js) = rj at *
  generalize hN : count ((ext s).drop (i :: is).length) = N at *
  obtain ⟨data', e2, l2, h2⟩ := assign_ok (asserts := asserts) p1 (srcShape := w.shape) p1'.ext_eq (data := data)
    (src := fun k d => scalar w d k)
    (fun k => (data[rj * N + k]?).getD a0) (by rw [hN]; exact hfit) (by
      intro k hk d' ⟨hl', hag⟩
      rw [hN] at hk
      have hlt : rj * N + k < d'.length := by omega
      have h3 := hag (rj * N + k) (by
        rintro ⟨h4, h5⟩
        rcases Nat.lt_trichotomy ri rj with h6 | h6 | h6
        · have : (ri + 1) * N ≤ rj * N := Nat.mul_le_mul_right _ h6
          rw [Nat.add_mul, Nat.one_mul] at this
          omega
        · subst h6; omega
        · have : (rj + 1) * N ≤ ri * N := Nat.mul_le_mul_right _ h6
          rw [Nat.add_mul, Nat.one_mul] at this
          omega)
      have hs : scalar w d' k = .ok d'[rj * N + k] := by
        unfold scalar
        rw [scalarPos_ok p1' (by rw [hN]; exact hk), Out.ok_bind]
        exact readAt_nat _ _ hlt
      rw [List.getElem?_eq_getElem hlt] at h3
      simp only [hs]
      rw [← h3]; rfl)
  rw [hN] at h2
  have split : ∀ (c : List Nat), c.length = (i :: is).length → ∀ (q : Nat) c', (coords (ext s))[q]? = some (c ++ c') →
      ∃ k, k < N ∧ q = ravel ((ext s).take (i :: is).length) c * N + k ∧
        k = ravel ((ext s).drop (i :: is).length) c' := by
    intro c hcl q c' hq
    obtain ⟨f1, f2⟩ := coords_eq_iff.1 hq
    have hd : Inside ((ext s).drop (i :: is).length) c' := by
      have h1 := List.forall₂_drop (i :: is).length f1
      rw [List.drop_append_of_le_length (by omega), List.drop_eq_nil_of_le (by omega), List.nil_append] at h1
      exact h1
    refine ⟨_, by rw [← hN]; exact ravel_lt hd, ?_, rfl⟩
    rw [f2]
    conv => lhs; rw [← List.take_append_drop (i :: is).length (ext s)]
    rw [ravel_append (by rw [List.length_take]; omega), hN]
  refine ⟨v, w, data', e1, e1', e2, l2, ?_, ?_⟩
  · intro q q' c' hq hq'
    obtain ⟨k, hk, rfl, hk2⟩ := split (i :: is) rfl q c' hq
    obtain ⟨k', hk', rfl, hk2'⟩ := split (j :: js) hlen2 q' c' hq'
    have : k' = k := by rw [hk2, hk2']
    subst this
    rw [h2, hri, hrj, if_pos ⟨by omega, by omega⟩, Nat.add_sub_cancel_left]
    have hlt : rj * N + k' < data.length := by omega
    rw [List.getElem?_eq_getElem hlt]; rfl
  · intro q full hq hnp
    rw [h2, if_neg]
    rintro ⟨h3, h4⟩
    obtain ⟨c', hc'⟩ : ∃ c', (coords ((ext s).drop (i :: is).length))[q - ri * N]? = some c' :=
      ⟨_, List.getElem?_eq_getElem (by rw [length_coords, hN]; omega)⟩
    obtain ⟨g1, g2⟩ := coords_eq_iff.1 hc'
    have happ : Inside (ext s) ((i :: is) ++ c') := by
      rw [← List.take_append_drop (i :: is).length (ext s)]
      exact List.rel_append hin' g1
    have h5 : (coords (ext s))[q]? = some ((i :: is) ++ c') := by
      rw [coords_eq_iff]
      refine ⟨happ, ?_⟩
      conv => rhs; rw [← List.take_append_drop (i :: is).length (ext s)]
      rw [ravel_append (by rw [List.length_take]; omega), hri, hN, ← g2]
      omega
    rw [hq] at h5
    exact hnp ⟨c', (Option.some.inj h5).symm⟩

/-- Hypotheses of the three theorems above for row 1 and row 0 of a 2 by 3 array. -/
example : [1] ∈ coords ([2, 3].take 1) ∧ [0] ∈ coords ([2, 3].take 1) ∧ count [2, 3] = 6 := by decide

end Verif.ViewM
