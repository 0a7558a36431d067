import Verif.Model.Transpose
import Verif.Lemmas.Scatter
import Verif.Lemmas.Grid

/-! The blocked transpose writes every element once. -/

namespace Verif.TransM

open ShapeM Conc Grid

variable {α : Type}

theorem mem_indices_mul {lo hi step i : Nat} (hs : 0 < step) : i ∈ indices lo hi step ↔ ∃ k, i = lo + k * step ∧ i < hi := by
  induction hn : hi - lo using Nat.strongRecOn generalizing lo with
  | _ n ih =>
    rw [indices]
    by_cases h : lo < hi
    · rw [if_pos ⟨h, hs⟩, List.mem_cons, ih (hi - (lo + step)) (by omega) rfl]
      constructor
      · rintro (rfl | ⟨k, rfl, hk⟩)
        · exact ⟨0, by omega, h⟩
        · exact ⟨k + 1, by rw [Nat.add_mul]; omega, hk⟩
      · rintro ⟨k, rfl, hk⟩
        cases k with
        | zero => left; omega
        | succ k => right; exact ⟨k, by rw [Nat.add_mul]; omega, hk⟩
    · rw [if_neg (by omega)]
      constructor
      · intro h'; cases h'
      · rintro ⟨k, rfl, hk⟩; omega

/-- Every position below `hi` lies in exactly one block. -/
theorem block_of {hi step x : Nat} (hs : 0 < step) (hx : x < hi) :
    ∃ i ∈ indices 0 hi step, i ≤ x ∧ x < i + step := by
  refine ⟨x / step * step, (mem_indices_mul hs).2 ⟨x / step, by omega, ?_⟩, Nat.div_mul_le_self x step, ?_⟩
  · exact Nat.lt_of_le_of_lt (Nat.div_mul_le_self x step) hx
  · have h1 := Nat.div_add_mod x step
    have h2 := Nat.mod_lt x hs
    rw [Nat.mul_comm] at h1
    omega

theorem block_unique {hi step x i j : Nat} (hs : 0 < step) (hi' : i ∈ indices 0 hi step) (hj : j ∈ indices 0 hi step)
    (h1 : i ≤ x) (h2 : x < i + step) (h3 : j ≤ x) (h4 : x < j + step) : i = j := by
  obtain ⟨k, rfl, _⟩ := (mem_indices_mul hs).1 hi'
  obtain ⟨l, rfl, _⟩ := (mem_indices_mul hs).1 hj
  have : k = l := by
    rcases Nat.lt_trichotomy k l with h | h | h
    · have := Nat.mul_le_mul_right step (show k + 1 ≤ l by omega)
      rw [Nat.add_mul] at this
      omega
    · exact h
    · have := Nat.mul_le_mul_right step (show l + 1 ≤ k by omega)
      rw [Nat.add_mul] at this
      omega
  rw [this]

theorem mem_blockRange {lo bs hi x : Nat} : x ∈ blockRange lo bs hi ↔ lo ≤ x ∧ x < lo + bs ∧ x < hi := by
  unfold blockRange
  rw [List.mem_range'_1]
  omega

theorem pos_lt {rows cols row col : Nat} (h1 : row < rows) (h2 : col < cols) : col * rows + row < rows * cols := by
  have : (col + 1) * rows ≤ cols * rows := Nat.mul_le_mul_right _ h2
  rw [Nat.add_mul, Nat.one_mul] at this
  rw [Nat.mul_comm rows cols]
  omega

theorem pos_inj {rows r c r' c' : Nat} (h1 : r < rows) (h2 : r' < rows) (h : c * rows + r = c' * rows + r') : r = r' ∧ c = c' := by
  have hm : (c * rows + r) % rows = r := by rw [Nat.mul_add_mod_self_right]; exact Nat.mod_eq_of_lt h1
  have hm' : (c' * rows + r') % rows = r' := by rw [Nat.mul_add_mod_self_right]; exact Nat.mod_eq_of_lt h2
  have hr : r = r' := by rw [← hm, ← hm', h]
  refine ⟨hr, ?_⟩
  subst hr
  have : c * rows = c' * rows := by omega
  exact Nat.eq_of_mul_eq_mul_right (by omega) this

/-- The memories in which the loop runs: the source as it was, a target of the right size. -/
def Pre (m0 : Mem α) (src dst n : Nat) (m : Mem α) : Prop := m src = m0 src ∧ (m dst).length = n

/-- The final value of each element of the target. -/
def tval (mul : α → α → α) (m0 : Mem α) (src rows cols : Nat) (alpha : α) (a : Addr) : α :=
  match (m0 src)[(a.2 % rows) * cols + a.2 / rows]? with
  | some v => mul v alpha
  | none => alpha

theorem tval_eq {mul : α → α → α} {m0 : Mem α} {src dst rows cols : Nat} {alpha v : α} {row col : Nat} (hr : row < rows)
    (hv : (m0 src)[row * cols + col]? = some v) :
    tval mul m0 src rows cols alpha (dst, col * rows + row) = mul v alpha := by
  have h1 : (col * rows + row) % rows = row := by rw [Nat.mul_add_mod_self_right]; exact Nat.mod_eq_of_lt hr
  have h2 : (col * rows + row) / rows = col := by
    rw [Nat.mul_comm, Nat.mul_add_div (by omega), Nat.div_eq_of_lt hr, Nat.add_zero]
  unfold tval
  simp only [h1, h2, hv]

theorem does_cell {mul : α → α → α} {m0 : Mem α} {src dst rows cols : Nat} {alpha : α} (hne : src ≠ dst)
    (hsrc : (m0 src).length = rows * cols) {row col : Nat} (hr : row < rows) (hc : col < cols) :
    Does (Pre m0 src dst (rows * cols)) (fun a => a = (dst, col * rows + row)) (tval mul m0 src rows cols alpha)
      (cell mul src dst rows cols alpha row col) := by
  rintro m ⟨h1, h2⟩
  have hp : row * cols + col < (m0 src).length := by
    rw [hsrc, Nat.mul_comm rows cols]
    exact pos_lt hc hr
  have hq : col * rows + row < (m dst).length := by
    rw [h2]
    exact pos_lt hr hc
  have g1 : m.get? (src, row * cols + col) = some (m0 src)[row * cols + col] := by
    simp only [Mem.get?, h1]
    exact List.getElem?_eq_getElem hp
  have g2 : m.get? (dst, col * rows + row) = some (m dst)[col * rows + row] := by
    simp only [Mem.get?]
    exact List.getElem?_eq_getElem hq
  refine ⟨m.set (dst, col * rows + row) (mul (m0 src)[row * cols + col] alpha), ?_, ⟨?_, ?_⟩, ?_, ?_⟩
  · simp only [cell, run, g1, g2]
  · rw [set_other (by exact hne)]
    exact h1
  · rw [length_set]
    exact h2
  · rintro a rfl
    rw [get?_set_self g2, tval_eq hr (List.getElem?_eq_getElem hp)]
  · intro a ha
    exact get?_set_ne ha

/-- The elements written for rows `i .. i + blockSize`. -/
def Band (dst rows cols bs i : Nat) (a : Addr) : Prop :=
  ∃ row col, i ≤ row ∧ row < i + bs ∧ row < rows ∧ col < cols ∧ a = (dst, col * rows + row)

theorem does_row {mul : α → α → α} {m0 : Mem α} {src dst rows cols : Nat} {alpha : α} (hne : src ≠ dst)
    (hsrc : (m0 src).length = rows * cols) {bs : Nat} (hb : 0 < bs) (i : Nat) :
    Does (Pre m0 src dst (rows * cols)) (Band dst rows cols bs i) (tval mul m0 src rows cols alpha)
      (rowOfBlocks mul src dst rows cols alpha bs i) := by
  unfold rowOfBlocks
  rw [if_neg (by omega)]
  refine (does_seqAll (S := fun j a => ∃ row ∈ blockRange i bs rows, ∃ col ∈ blockRange j bs cols, a = (dst, col * rows + row))
    fun j _ => ?_).congr ?_
  · refine does_seqAll (S := fun row a => ∃ col ∈ blockRange j bs cols, a = (dst, col * rows + row)) fun row hrow => ?_
    exact does_seqAll (S := fun col a => a = (dst, col * rows + row)) fun col hcol =>
      does_cell hne hsrc (mem_blockRange.1 hrow).2.2 (mem_blockRange.1 hcol).2.2
  · intro a
    constructor
    · rintro ⟨j, _, row, hrow, col, hcol, rfl⟩
      exact ⟨row, col, (mem_blockRange.1 hrow).1, (mem_blockRange.1 hrow).2.1, (mem_blockRange.1 hrow).2.2,
        (mem_blockRange.1 hcol).2.2, rfl⟩
    · rintro ⟨row, col, h1, h2, h3, h4, rfl⟩
      obtain ⟨j, hj, h5, h6⟩ := block_of hb h4
      exact ⟨j, hj, row, mem_blockRange.2 ⟨h1, h2, h3⟩, col, mem_blockRange.2 ⟨h5, h6, h4⟩, rfl⟩

theorem fits_row {mul : α → α → α} {src dst rows cols : Nat} {alpha : α} {bs : Nat} (hb : 0 < bs) (i : Nat) :
    Fits (fun a => a.1 = src) (Band dst rows cols bs i) (rowOfBlocks mul src dst rows cols alpha bs i) := by
  unfold rowOfBlocks
  rw [if_neg (by omega)]
  refine fits_seqAll fun j _ => fits_seqAll fun row hrow => fits_seqAll fun col hcol => ⟨.inl rfl, fun v => ⟨?_, trivial⟩⟩
  exact ⟨row, col, (mem_blockRange.1 hrow).1, (mem_blockRange.1 hrow).2.1, (mem_blockRange.1 hrow).2.2,
    (mem_blockRange.1 hcol).2.2, rfl⟩

theorem transpose_loop {mul : α → α → α} {m0 : Mem α} {src dst rows cols : Nat} {alpha : α} (hne : src ≠ dst)
    (hsrc : (m0 src).length = rows * cols) (hdst : (m0 dst).length = rows * cols) {bs : Nat} (hb : 0 < bs) :
    ∃ res, LoopOK (rowOfBlocks mul src dst rows cols alpha bs) (indices 0 rows (max bs 1)) (fun _ a => a.1 = src)
        (Band dst rows cols bs) m0 res ∧ (res dst).length = rows * cols ∧
      (∀ row col v, row < rows → col < cols → (m0 src)[row * cols + col]? = some v →
        (res dst)[col * rows + row]? = some (mul v alpha)) ∧
      ∀ id, id ≠ dst → res id = m0 id := by
  rw [show max bs 1 = bs by omega]
  obtain ⟨res, h1, h2, h3, h4⟩ := loop_of_does (Pre := Pre m0 src dst (rows * cols)) (R := fun _ a => a.1 = src)
    (S := Band dst rows cols bs) (val := tval mul m0 src rows cols alpha)
    (body := rowOfBlocks mul src dst rows cols alpha bs) (its := indices 0 rows bs) (m0 := m0) nodup_indices ⟨rfl, hdst⟩
    (fun i _ => does_row hne hsrc hb i) (fun i _ => fits_row hb i) (by
      rintro i hi j hj hij a ⟨row, col, b1, b2, b3, b4, rfl⟩
      refine ⟨?_, fun h => hne h.symm⟩
      rintro ⟨row', col', c1, c2, c3, c4, hh⟩
      have := pos_inj b3 c3 (Prod.mk.inj hh).2
      obtain ⟨rfl, rfl⟩ := this
      exact hij (block_unique hb hi hj b1 b2 c1 c2))
  refine ⟨res, h1, h2.2, ?_, ?_⟩
  · intro row col v hr hc hv
    obtain ⟨i, hi, c1, c2⟩ := block_of hb hr
    have := h3 (dst, col * rows + row) ⟨i, hi, row, col, c1, c2, hr, hc, rfl⟩
    rw [tval_eq hr hv] at this
    exact this
  · intro id hid
    apply List.ext_getElem?
    intro q
    exact h4 (id, q) (by
      rintro ⟨i, _, row, col, _, _, _, _, hh⟩
      exact hid (Prod.mk.inj hh).1)

/-- A loop satisfying `LoopOK` has exactly one outcome, run either way. -/
theorem outcome_iff {body : Nat → Prog α Unit} {its : List Nat} {R W : Nat → Addr → Prop} {m0 res : Mem α}
    (hl : LoopOK body its R W m0 res) {par : Bool} {o : Out (Mem α)} : LoopOutcome body its par m0 o ↔ o = .ok res := by
  have hp := par_result hl
  have hs := seq_result hl
  constructor
  · intro h
    cases h with
    | seq h1 h2 =>
      rw [hs] at h2
      exact congrArg Out.ok (Prod.mk.inj (Out.ok.inj h2)).2.symm
    | seqUb h1 h2 => rw [hs] at h2; cases h2
    | par h1 h2 h3 h4 => exact congrArg Out.ok (hp.result _ h2 _ h3 h4)
    | parUb h1 h2 h3 h4 =>
      rcases h4 with h | h
      · exact absurd h (hp.noRace _ h2 _ h3)
      · exact absurd h (hp.noBad _ h2 _ h3)
  · rintro rfl
    cases par with
    | false => exact .seq rfl hs
    | true =>
      have hsch : IsSchedule [its] its := by simp [IsSchedule]
      obtain ⟨c, h1, h2⟩ := hp.finishes _ hsch
      rw [← hp.result _ hsch _ h1 h2]
      exact .par rfl hsch h1 h2

end Verif.TransM
