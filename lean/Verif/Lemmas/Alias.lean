import Verif.Model.Alias
import Verif.Props.View
import Verif.Props.Expr
import Verif.Props.Matmul
import Verif.Props.Transpose

/-! Lemmas about assignments whose source mentions the destination. -/

namespace Verif.AliasM

open ShapeM Conc Grid ViewM

variable {α : Type}

@[simp] theorem setData_same (m : Mem α) (d : Nat) (l : List α) : setData m d l d = l := by simp [setData]

theorem setData_other (m : Mem α) {d id : Nat} (l : List α) (h : id ≠ d) : setData m d l id = m id := by simp [setData, h]

theorem setData_eq (m : Mem α) (d : Nat) : setData m d (m d) = m := by
  funext id
  unfold setData
  split
  · rename_i h; rw [h]
  · rfl

theorem setData_twice (m : Mem α) (d : Nat) (l l' : List α) : setData (setData m d l) d l' = setData m d l' := by
  funext id
  unfold setData
  split <;> rfl

theorem size_view {v : View} {e : List Nat} {off : Nat} (h : IsView v e off) : size v.shape = count e := by
  rw [size_small (by rw [h.ext_eq]; exact h.small), h.ext_eq]

theorem scalar_ok {v : View} {e : List Nat} {off k : Nat} (h : IsView v e off) (hk : k < count e) {data : List α}
    (hl : off + k < data.length) : scalar v data k = .ok data[off + k] := by
  unfold scalar
  rw [scalarPos_ok h hk, Out.ok_bind]
  exact readAt_nat _ _ hl

/-- Copying an array that starts where the view starts onto itself changes nothing. -/
theorem self_copy {v : View} {e : List Nat} (h : IsView v e 0) {m : Mem α} {d : Nat} (hl : (m d).length = count e) :
    forUp 0 (count e) (copyBody d d v) m = .ok m := by
  obtain ⟨m', h1, h2⟩ := forUp_inv (P := fun _ m' => m' = m) (Nat.zero_le (count e)) (body := copyBody d d v) (s := m) rfl (by
    rintro i s _ hi rfl
    have hlt : 0 + i < (s d).length := by omega
    refine ⟨s, ?_, rfl⟩
    unfold copyBody
    rw [scalar_ok h hi hlt, Out.ok_bind, writeAt_nat _ _ _ (by omega), Out.ok_bind]
    simp only [Nat.zero_add, Out.pure_eq]
    rw [List.set_getElem_self, setData_eq])
  rw [h1, h2]

/-- A view that starts behind the end cannot be read. -/
theorem behind_ub {v : View} {e : List Nat} {off : Nat} (h : IsView v e off) {m : Mem α} {d : Nat} (hl : (m d).length ≤ off) :
    forUp 0 (count e) (copyBody d d v) m = .ub := by
  have hp := h.pos
  rw [forUp, if_pos hp]
  have : copyBody d d v 0 m = .ub := by
    unfold copyBody scalar
    rw [scalarPos_ok h hp, Out.ok_bind]
    have : readAt (m d) ((off + 0 : Nat) : Int) = .ub := by
      unfold readAt
      rw [if_pos (by omega), List.getElem?_eq_none (by omega)]
    rw [this]; rfl
  rw [this]

/-- Copying a view of another array. -/
theorem other_copy {v : View} {e : List Nat} {off : Nat} (h : IsView v e off) {m : Mem α} {d id : Nat} (hne : id ≠ d)
    (hd : (m d).length = count e) (hl : off + count e ≤ (m id).length) :
    forUp 0 (count e) (copyBody d id v) m = .ok (setData m d (((m id).drop off).take (count e))) := by
  obtain ⟨m', h1, h2, h3, h4⟩ := forUp_inv (P := fun i m' => (m' d).length = count e ∧ (∀ k, k < i → (m' d)[k]? = (m id)[off + k]?) ∧
      ∀ j, j ≠ d → m' j = m j) (Nat.zero_le (count e)) (body := copyBody d id v) (s := m) ⟨hd, by omega, fun _ _ => rfl⟩ (by
    rintro i s _ hi ⟨s1, s2, s3⟩
    have hid := s3 id hne
    have hlt : off + i < (s id).length := by rw [hid]; omega
    refine ⟨setData s d ((s d).set i (s id)[off + i]), ?_, ?_, ?_, ?_⟩
    · unfold copyBody
      rw [scalar_ok h hi hlt, Out.ok_bind, writeAt_nat _ _ _ (by omega), Out.ok_bind]; rfl
    · simp [s1]
    · intro k hk
      rw [setData_same, List.getElem?_set]
      by_cases hik : i = k
      · subst hik
        rw [if_pos rfl, if_pos (by omega), ← hid, List.getElem?_eq_getElem hlt]
      · rw [if_neg hik]
        exact s2 k (by omega)
    · intro j hj
      rw [setData_other _ _ hj, s3 j hj])
  rw [h1]
  congr 1
  funext j
  by_cases hj : j = d
  · subst hj
    rw [setData_same]
    apply List.ext_getElem?
    intro k
    by_cases hk : k < count e
    · rw [h3 k hk, List.getElem?_take_of_lt hk, List.getElem?_drop]
    · rw [List.getElem?_eq_none (by omega), List.getElem?_eq_none]
      rw [List.length_take]; omega
  · rw [setData_other _ _ hj, h4 j hj]

/-- The view behind a chain of subscripts. -/
theorem chain_view {asserts : Bool} {e : List Nat} (hc : count e < 2 ^ 32) (hp : 0 < count e) {i : Nat} {is : List Nat}
    (hin : i :: is ∈ coords (e.take (i :: is).length)) :
    ∃ v, chain asserts (.shape e) i (ints is) = .ok v ∧
      IsView v (e.drop (i :: is).length) (ravel (e.take (i :: is).length) (i :: is) * count (e.drop (i :: is).length)) ∧
      ravel (e.take (i :: is).length) (i :: is) * count (e.drop (i :: is).length) + count (e.drop (i :: is).length) ≤ count e ∧
      count e = count (e.take (i :: is).length) * count (e.drop (i :: is).length) ∧ (i :: is).length ≤ e.length := by
  have hin' := mem_coords.1 hin
  have hn : (i :: is).length ≤ e.length := by
    have h1 := hin'.length_eq
    rw [List.length_take] at h1
    omega
  obtain ⟨v, e1, p1⟩ := arrayView_ok (asserts := asserts) (s := .shape e) (by simp) hc hn hin' hp
  have h2 : count e = count (e.take (i :: is).length) * count (e.drop (i :: is).length) := by
    rw [← count_append, List.take_append_drop]
  refine ⟨v, e1, p1, ?_, h2, hn⟩
  have h1 := ravel_lt hin'
  have h3 : (ravel (e.take (i :: is).length) (i :: is) + 1) * count (e.drop (i :: is).length) ≤
    count (e.take (i :: is).length) * count (e.drop (i :: is).length) := Nat.mul_le_mul_right _ h1
  rw [Nat.add_mul, Nat.one_mul] at h3
  omega

theorem resize_pos {asserts : Bool} {junk : List α} {d n : Nat} {m : Mem α} (h : 0 < n) :
    resize asserts junk d n m = if (m d).length = n then .ok m else .ok (setData m d junk) := by
  unfold resize
  rw [if_neg]
  intro h0
  have := (Bool.and_eq_true _ _).mp h0
  have h2 := of_decide_eq_true this.2
  omega

theorem resize_ok {asserts : Bool} {junk : List α} {d n : Nat} {m : Mem α} (h : 0 < n) (hj : junk.length = n) :
    ∃ m', resize asserts junk d n m = .ok m' ∧ (m' d).length = n ∧ ∀ j, j ≠ d → m' j = m j := by
  rw [resize_pos h]
  split
  · rename_i h; exact ⟨_, rfl, h, fun _ _ => rfl⟩
  · exact ⟨_, rfl, by simpa using hj, fun j hjd => setData_other _ _ hjd⟩

theorem transposeScalar_ok [MulOneClass α] {asserts : Bool} {blockSize rows cols off : Nat} {junk junk' data : List α} {w : View}
    (hw : IsView w [rows, cols] off) (hb : 0 < blockSize) (hfit : off + rows * cols ≤ data.length) (hj : junk.length = rows * cols)
    (hj' : junk'.length = rows * cols) {r c : Nat} (hr : r < rows) (hc : c < cols) {x : α} (hx : data[off + (r * cols + c)]? = some x) :
    transposeScalar (· * ·) 1 asserts blockSize junk junk' w (c * rows + r) data = .ok x := by
  have hcount : count [rows, cols] = rows * cols := by simp [count]
  have hlt : r * cols + c < rows * cols := by
    have : (r + 1) * cols ≤ rows * cols := Nat.mul_le_mul_right _ hr
    rw [Nat.add_mul, Nat.one_mul] at this
    omega
  obtain ⟨l, l1, l2, l3⟩ := eval_ok hw (data := data) (init := junk) (by rw [hcount]; exact hfit) (by rw [hcount]; exact hj)
  rw [hcount] at l2 l3
  obtain ⟨res, h1, h2, h3, h4⟩ := TransM.transpose_loop (mul := (· * ·)) (alpha := (1 : α)) (src := 0) (dst := 1) (rows := rows)
    (cols := cols) (m0 := fun id => if id = 0 then l else junk') (by decide) (by simpa using l2) (by simpa using hj') hb
  have h5 := h3 r c x hr hc (by simpa [l3 _ hlt] using hx)
  unfold transposeScalar
  rw [hw.ext_eq]
  simp only [l1, Out.ok_bind, seq_result h1]
  rw [mul_one] at h5
  obtain ⟨h6, h7⟩ := List.getElem?_eq_some_iff.1 h5
  rw [readAt_nat _ _ h6, h7]

end Verif.AliasM
