import Verif.Lemmas.FromData

/-!
# Arrays built from nested data (C30) and comma initialisation (C32)

`fromData asserts junk form d x` is the constructor of `Array` from data nested `d + 1` deep; `matrixFromRows` the one of
`ArrayContainer<MatrixShape, ...>`. `coords dims` lists the coordinates in row-major order.
-/

namespace Verif.FromDataM

open Grid ShapeM

/-- The full property: rectangular data (even empty) give an array with that shape and those elements, anything else gives no
array. -/
def C30Claim : Prop :=
  ∀ (asserts : Bool) (α : Type) (junk : Nat → α) (form : Form) (d : Nat) (x : Nest α (d + 1)), leaves (d + 1) x < 2 ^ 32 →
    (∀ dims, Regular (d + 1) x dims → ∃ out, fromData asserts junk form d x = .ok (dims, out) ∧
      ∀ (k : Nat) c, (coords dims)[k]? = some c → out[k]? = itemAt (d + 1) x c) ∧
    ((¬ ∃ dims, Regular (d + 1) x dims) → ∃ e, fromData asserts junk form d x = .throw e)

/-- **C30** is false of the code: without assertions `{{1}, {2, 3}}` is accepted and 3 is dropped ... -/
theorem C30_false : ¬ C30Claim := by
  intro h
  have h1 := (h false Nat (fun _ => 0) .initList 1 ([[1], [2, 3]] : List (List Nat)) (by decide)).2 (by
    rintro ⟨dims, ds, rfl, hx⟩
    obtain ⟨_, e1, _⟩ := hx ([1] : List Nat) (List.mem_cons_self)
    obtain ⟨_, e2, _⟩ := hx ([2, 3] : List Nat) (List.mem_cons_of_mem _ List.mem_cons_self)
    rw [e1] at e2
    have e3 : (1 : Nat) = 2 := (List.cons.inj e2).1
    cases e3)
  obtain ⟨e, he⟩ := h1
  have h3 : fromData (α := Nat) false (fun _ => 0) .initList 1 ([[1], [2, 3]] : List (List Nat)) = .ok ([2, 1], [1, 2]) := by
    have e1 : setRow (α := Nat) false [2, 1] 0 ([1], [1]) [0, 0] = .ok [1, 0] :=
      setRow_ok (by decide) (by decide) (by decide) rfl rfl
    have e2 : setRow (α := Nat) false [2, 1] 1 ([2], [2, 3]) [1, 0] = .ok [1, 2] :=
      setRow_ok' (asserts := false) (n := 2) (ds := [1]) (t := [2, 3]) (by decide) (by decide) (by decide) (by decide) rfl
    change fromRows false (fun _ => 0) .initList [[1], [2, 3]] = _
    simp only [fromRows, fillRows]
    change (setRow (α := Nat) false [2, 1] 0 ([1], [1]) [0, 0] >>= fun r => setRow false [2, 1] 1 ([2], [2, 3]) r >>= fun r =>
      Out.ok r) >>= (fun r => Out.ok ([2, 1], r)) = _
    rw [e1, Out.ok_bind, e2]
    rfl
  rw [h3] at he
  cases he

/-- ... and with assertions `{{}, {}}`, which is rectangular, is rejected; without them building it writes out of bounds. -/
theorem C30_empty_false : (∃ dims, Regular (α := Nat) 2 ([[], []] : List (List Nat)) dims) ∧
    fromData (α := Nat) true (fun _ => 0) .vector 1 ([[], []] : List (List Nat)) = .throw .invalidArgument ∧
    fromData (α := Nat) false (fun _ => 0) .vector 1 ([[], []] : List (List Nat)) = .ub := by
  refine ⟨⟨[2, 0], [0], rfl, ?_⟩, rfl, ?_⟩
  · intro x hx
    have : x = ([] : List Nat) := by
      rcases List.mem_cons.1 hx with h | h
      · exact h
      · rcases List.mem_cons.1 h with h | h
        · exact h
        · cases h
    subst this
    exact ⟨[], rfl, fun _ h => by cases h⟩
  · change fromRows false (fun _ => 0) .vector [[], []] = _
    have : setRow (α := Nat) false [2, 0] 0 ([0], []) [] = .ub := by
      unfold setRow
      have h1 : ViewM.arrayIndex false (.shape [2, 0]) ((0 : Nat) : Int) = .ok ⟨.shape [0], [0], 0⟩ := by decide +kernel
      rw [h1, Out.ok_bind]
      unfold ViewM.assign doWhile
      rfl
    change (setRow (α := Nat) false [2, 0] 0 ([0], []) [] >>= fun r => setRow false [2, 0] 1 ([0], []) r >>= fun r =>
      Out.ok r) >>= (fun r => Out.ok ([2, 0], r)) = _
    rw [this]
    rfl

/-- **C30** for rectangular data with at least one element and fewer than 2^32: the shape is the extents and the element at
coordinates `c` is the item at `c`, whatever the memory held before and with or without assertions. -/
theorem C30_partial {α : Type} (asserts : Bool) (junk : Nat → α) (form : Form) (d : Nat) (x : Nest α (d + 1)) (dims : List Nat)
    (h : Regular (d + 1) x dims) (hp : 0 < count dims) (hc : count dims < 2 ^ 32) :
    ∃ out, fromData asserts junk form d x = .ok (dims, out) ∧ out.length = count dims ∧
      ∀ (k : Nat) c, (coords dims)[k]? = some c → out[k]? = itemAt (d + 1) x c :=
  ⟨_, fromData_ok d x dims h hp hc, length_flat _ _ _ h, fun k c hk => by
    obtain ⟨h1, rfl⟩ := coords_eq_iff.1 hk
    exact flat_itemAt _ _ _ _ h h1⟩

/-- Every in-range item is a scalar of the data, so the theorem above does describe every element. -/
theorem C30_items {α : Type} (d : Nat) (x : Nest α d) (dims c : List Nat) (h : Regular d x dims) (hc : c ∈ coords dims) :
    ∃ a, itemAt d x c = some a := by
  have hin := mem_coords.1 hc
  have h1 := flat_itemAt d x dims c h hin
  have h2 : ravel dims c < (flat d x).length := by rw [length_flat d x dims h]; exact ravel_lt hin
  rw [List.getElem?_eq_getElem h2] at h1
  exact ⟨_, h1.symm⟩

/-- **C30**, rejection: with assertions compiled in, data that are ragged at any depth or contain no scalar always throw and never
yield an array. -/
theorem C30_reject {α : Type} (junk : Nat → α) (form : Form) (d : Nat) (x : Nest α (d + 1)) (hs : leaves (d + 1) x < 2 ^ 32)
    (h : ¬ ∃ dims, Regular (d + 1) x dims ∧ 0 < count dims) : ∃ e, fromData true junk form d x = .throw e :=
  (fromData_total d x hs).resolve_left h

/-- **C30** for `MatrixShape`: rows of equal length, of any length including none, give that matrix. -/
theorem C30_matrix {α : Type} (asserts : Bool) (junk : Nat → α) (rows : List (List α)) (m : Nat) (hne : rows ≠ [])
    (h : ∀ r ∈ rows, r.length = m) (hn : rows.length < 2 ^ 32) (hm : m < 2 ^ 32) :
    ∃ out, matrixFromRows asserts junk rows = .ok (.matrix rows.length m, out) ∧ out.length = rows.length * m ∧
      ∀ (k i j : Nat), (coords [rows.length, m])[k]? = some [i, j] → out[k]? = (rows[i]?).bind fun r => r[j]? := by
  refine ⟨rows.flatten, ?_, ?_, ?_⟩
  · cases rows with
    | nil => exact absurd rfl hne
    | cons r rs =>
      simp only [matrixFromRows]
      rw [u32_nat hn, h r List.mem_cons_self, u32_nat hm, setRows_ok (r :: rs) 0 _ (by omega) h
        (by rw [length_fresh]; simp [ext, count])]
      simp
  · rw [← List.flatMap_id]
    have := length_flat (α := α) 2 rows [rows.length, m] ⟨[m], rfl, fun x hx => ⟨[], by rw [← h x hx]; rfl, fun _ _ => rfl⟩⟩
    simp only [count, Nat.mul_one] at this
    rw [← this, List.flatMap_id]
    have h2 : ∀ l : List (List α), l.flatten.length = (l.flatMap (flat 1)).length := by
      intro l
      rw [← List.flatMap_id]
      congr 2
      funext r
      exact (flat_one r).symm
    exact h2 rows
  · intro k i j hk
    obtain ⟨hin, rfl⟩ := coords_eq_iff.1 hk
    cases hin with
    | cons hi hin2 => cases hin2 with
      | cons hj _ =>
        have := getElem?_flatMap rows id m i j h hj
        rw [List.flatMap_id] at this
        simpa [ravel, count] using this

/-- **C30** for `MatrixShape`, rejection: with assertions compiled in, rows of different lengths, or no rows, throw. -/
theorem C30_matrix_reject {α : Type} (junk : Nat → α) (rows : List (List α)) (hn : rows.length < 2 ^ 32)
    (hm : ∀ r ∈ rows, r.length < 2 ^ 32) (h : rows = [] ∨ ∃ r ∈ rows, ∃ r' ∈ rows, r.length ≠ r'.length) :
    ∃ e, matrixFromRows true junk rows = .throw e := by
  cases rows with
  | nil => exact ⟨_, rfl⟩
  | cons r rs =>
    obtain ⟨r1, h1, r2, h2, hne⟩ := h.resolve_left (by simp)
    refine ⟨.rangeError, ?_⟩
    simp only [matrixFromRows]
    rw [u32_nat hn, u32_nat (hm r List.mem_cons_self), setRows_throw (r :: rs) 0 _ (by omega)
      (fun hall => hne ((hall r1 h1).trans (hall r2 h2).symm)) (by rw [length_fresh]; simp [ext, count])]
    rfl

/-! Concrete cases. -/

/-- Three levels: a 2 by 1 by 2 block. -/
example : ∃ out, fromData (α := Nat) true (fun _ => 0) .initList 2 ([[[1, 2]], [[3, 4]]] : List (List (List Nat))) =
    .ok ([2, 1, 2], out) ∧ out.length = 4 ∧ ∀ (k : Nat) c, (coords [2, 1, 2])[k]? = some c →
      out[k]? = itemAt (α := Nat) 3 ([[[1, 2]], [[3, 4]]] : List (List (List Nat))) c :=
  C30_partial true _ _ 2 _ [2, 1, 2] ⟨[1, 2], rfl, by
    intro x hx
    rcases List.mem_cons.1 hx with rfl | hx
    · exact ⟨[2], rfl, fun y hy => by
        rcases List.mem_cons.1 hy with rfl | hy
        · exact ⟨[], rfl, fun _ _ => rfl⟩
        · cases hy⟩
    · rcases List.mem_cons.1 hx with rfl | hx
      · exact ⟨[2], rfl, fun y hy => by
          rcases List.mem_cons.1 hy with rfl | hy
          · exact ⟨[], rfl, fun _ _ => rfl⟩
          · cases hy⟩
      · cases hx⟩ (by decide) (by decide)

/-- A ragged block whose raggedness is two levels down. -/
example : ∃ e, fromData (α := Nat) true (fun _ => 0) .initList 2 ([[[1], [2]], [[3], [4, 5]]] : List (List (List Nat))) = .throw e :=
  C30_reject _ _ 2 _ (by decide) (by
    rintro ⟨dims, ⟨ds, rfl, h⟩, -⟩
    obtain ⟨ds', rfl, h2⟩ := h ([[3], [4, 5]] : List (List Nat)) (List.mem_cons_of_mem _ List.mem_cons_self)
    obtain ⟨_, e1, _⟩ := h2 ([3] : List Nat) List.mem_cons_self
    obtain ⟨_, e2, _⟩ := h2 ([4, 5] : List Nat) (List.mem_cons_of_mem _ List.mem_cons_self)
    rw [e1] at e2
    have e3 : (1 : Nat) = 2 := (List.cons.inj e2).1
    cases e3)

example : matrixFromRows true (fun _ => 0) [[1, 2, 3], [4, 5, 6]] = .ok (.matrix 2 3, [1, 2, 3, 4, 5, 6]) := by decide +kernel
example : matrixFromRows true (fun _ => 0) [[1, 2, 3], [4, 5]] = .throw .rangeError := by decide +kernel

/-! ### C32 -/

/-- **C32**: with no more values than elements, the values become the first elements in order and the rest keep theirs. -/
theorem C32 {α : Type} (asserts : Bool) (data xs : List α) (h : xs.length ≤ data.length) :
    ∃ out, comma asserts data xs = .ok out ∧ out.length = data.length ∧
      (∀ k : Nat, k < xs.length → out[k]? = xs[k]?) ∧ (∀ k : Nat, xs.length ≤ k → out[k]? = data[k]?) := by
  refine ⟨xs ++ data.drop xs.length, ?_, ?_, ?_, ?_⟩
  · simpa [comma] using commaFrom_ok (asserts := asserts) xs data 0 (by omega)
  · simp only [List.length_append, List.length_drop]; omega
  · intro k hk
    exact List.getElem?_append_left hk
  · intro k hk
    rw [List.getElem?_append_right hk, List.getElem?_drop]
    congr 1
    omega

/-- More values than elements are rejected when assertions are compiled in. -/
theorem C32_reject {α : Type} (data xs : List α) (h : data.length < xs.length) : comma true data xs = .throw .assertion :=
  commaFrom_throw xs data 0 (by omega) (by omega)

example : comma true [0, 0, 0, 9] [1, 2, 3] = .ok [1, 2, 3, 9] := by decide +kernel
example : comma true [0, 0] [1, 2, 3] = .throw .assertion := C32_reject _ _ (by decide)

end Verif.FromDataM
