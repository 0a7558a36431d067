import Verif.Spec.Storage

/-! Lemmas about the storage model. -/

namespace Verif.StorageM

variable {α β γ : Type}

/-- No double free and no use after free; normal results satisfy `Q`, exceptional ones `E`. -/
def Sat (r : Res α β) (Q : β → St α → Prop) (E : St α → Prop) : Prop :=
  match r with
  | .ok b s => Q b s
  | .throw _ s => E s
  | .ub k => k ≠ .doubleFree ∧ k ≠ .useAfterFree

theorem bind_def (x : SM α β) (f : β → SM α γ) (s : St α) :
    (x >>= f) s = match x s with
      | .ok b s' => f b s'
      | .throw e s' => .throw e s'
      | .ub k => .ub k := rfl

theorem pure_def (b : β) (s : St α) : (pure b : SM α β) s = .ok b s := rfl

theorem sat_bind {x : SM α β} {f : β → SM α γ} {s : St α} {Q : γ → St α → Prop} {E : St α → Prop}
    (h : Sat (x s) (fun b s' => Sat (f b s') Q E) E) : Sat ((x >>= f) s) Q E := by
  rw [bind_def]
  cases hx : x s <;> rw [hx] at h <;> exact h

theorem sat_pure {b : β} {s : St α} {Q : β → St α → Prop} {E : St α → Prop} (h : Q b s) : Sat ((pure b : SM α β) s) Q E := h

theorem sat_mono {r : Res α β} {Q Q' : β → St α → Prop} {E E' : St α → Prop} (h : Sat r Q E) (hQ : ∀ b s, Q b s → Q' b s)
    (hE : ∀ s, E s → E' s) : Sat r Q' E' := by
  cases r with
  | ok b s => exact hQ b s h
  | throw e s => exact hE s h
  | ub k => exact h

theorem sat_assert {asserts c : Bool} {s : St α} {Q : Unit → St α → Prop} {E : St α → Prop} (hE : asserts = true → c = false → E s)
    (hQ : (asserts = true → c = true) → Q () s) : Sat (assertThat asserts c s) Q E := by
  unfold assertThat
  split
  · next h => simp only [Bool.and_eq_true, Bool.not_eq_true'] at h; exact hE h.1 h.2
  · next h =>
    apply hQ
    intro ha
    cases c <;> simp_all

theorem sat_getObj {x : Nat} {s : St α} {Q : Obj → St α → Prop} {E : St α → Prop} (h : ∀ o, s.objs x = some o → Q o s) :
    Sat (getObj x s) Q E := by
  unfold getObj
  cases hx : s.objs x with
  | none => exact ⟨by simp, by simp⟩
  | some o => exact h o hx

/-- The state with variable `x` set to `o`. -/
def St.put (s : St α) (x : Nat) (o : Obj) : St α := { s with objs := fun y => if y = x then some o else s.objs y }

theorem setObj_eq (x : Nat) (o : Obj) (s : St α) : setObj x o s = .ok () (s.put x o) := rfl

theorem sat_setObj {x : Nat} {o : Obj} {s : St α} {Q : Unit → St α → Prop} {E : St α → Prop} (h : Q () (s.put x o)) :
    Sat (setObj x o s) Q E := h

theorem sat_alloc {n : Nat} {s : St α} {Q : Option Nat → St α → Prop} {E : St α → Prop} (h0 : n = 0 → Q none s)
    (h1 : n ≠ 0 → Q (some s.blocks.length) { s with blocks := s.blocks ++ [.live (List.replicate n none)] }) :
    Sat (safeAllocate n s) Q E := by
  unfold safeAllocate
  split
  · exact h0 ‹_›
  · exact h1 ‹_›

theorem sat_free {p : Option Nat} {s : St α} {Q : Unit → St α → Prop} {E : St α → Prop} (hp : ∀ b, p = some b → ∃ cs, LiveAt s b cs)
    (h0 : p = none → Q () s) (h1 : ∀ b, p = some b → Q () { s with blocks := s.blocks.set b .freed }) :
    Sat (safeDeallocate p s) Q E := by
  unfold safeDeallocate
  cases p with
  | none => exact h0 rfl
  | some b =>
    obtain ⟨cs, hcs⟩ := hp b rfl
    unfold LiveAt at hcs
    simp only [hcs]
    exact h1 b rfl

theorem sat_cells {p : Option Nat} {s : St α} {Q : List (Option α) → St α → Prop} {E : St α → Prop}
    (hp : ∀ b, p = some b → ∃ cs, LiveAt s b cs) (h1 : ∀ b cs, p = some b → LiveAt s b cs → Q cs s) : Sat (cellsAt p s) Q E := by
  unfold cellsAt
  cases p with
  | none => exact ⟨by simp, by simp⟩
  | some b =>
    obtain ⟨cs, hcs⟩ := hp b rfl
    have := h1 b cs rfl hcs
    unfold LiveAt at hcs
    simp only [hcs]
    exact this

theorem sat_setCells {p : Option Nat} {s : St α} {cs : List (Option α)} {Q : Unit → St α → Prop} {E : St α → Prop}
    (hp : ∀ b, p = some b → ∃ cs, LiveAt s b cs)
    (h1 : ∀ b, p = some b → Q () { s with blocks := s.blocks.set b (.live cs) }) : Sat (setCells p cs s) Q E := by
  unfold setCells
  cases p with
  | none => exact ⟨by simp, by simp⟩
  | some b =>
    obtain ⟨cs', hcs⟩ := hp b rfl
    unfold LiveAt at hcs
    simp only [hcs]
    exact h1 b rfl

theorem sat_bounds {c : Bool} {s : St α} {Q : Unit → St α → Prop} {E : St α → Prop} (h : c = true → Q () s) :
    Sat (boundsCheck c s) Q E := by
  unfold boundsCheck
  split
  · exact h ‹_›
  · exact ⟨by simp, by simp⟩

theorem sat_copyInto {dst : Option Nat} {vals : List (Option α)} {s : St α} {Q : Unit → St α → Prop} {E : St α → Prop}
    (hp : ∀ b, dst = some b → ∃ cs, LiveAt s b cs)
    (h : ∀ b cs, dst = some b → LiveAt s b cs → vals.length ≤ cs.length →
      Q () { s with blocks := s.blocks.set b (.live (vals ++ cs.drop vals.length)) }) : Sat (copyInto dst vals s) Q E := by
  unfold copyInto
  apply sat_bind
  apply sat_cells hp
  intro b cs hb hcs
  apply sat_bind
  apply sat_bounds
  intro hle
  apply sat_setCells hp
  intro b' hb'
  rw [hb] at hb'
  injection hb' with hb'
  subst hb'
  exact h b cs hb hcs (of_decide_eq_true hle)

theorem sat_fastCopyVals {asserts : Bool} {dst : Option Nat} {vals : List (Option α)} {s : St α} {Q : Unit → St α → Prop}
    {E : St α → Prop} (hp : ∀ b, dst = some b → ∃ cs, LiveAt s b cs) (hE : E s) (h0 : vals = [] → Q () s)
    (h : ∀ b cs, vals ≠ [] → dst = some b → LiveAt s b cs → vals.length ≤ cs.length →
      Q () { s with blocks := s.blocks.set b (.live (vals ++ cs.drop vals.length)) }) :
    Sat (fastCopyVals asserts dst vals s) Q E := by
  unfold fastCopyVals
  split
  · exact h0 ‹_›
  · apply sat_bind
    apply sat_assert (fun _ _ => hE)
    intro _
    exact sat_copyInto hp (fun b cs => h b cs ‹_›)

theorem sat_fastCopy {asserts : Bool} {dst src : Option Nat} {n : Nat} {s : St α} {Q : Unit → St α → Prop}
    {E : St α → Prop} (hp : ∀ b, dst = some b → ∃ cs, LiveAt s b cs) (hp' : ∀ b, src = some b → ∃ cs, LiveAt s b cs)
    (hE : E s) (h0 : n = 0 → Q () s)
    (h : ∀ b cs b' cs', n ≠ 0 → dst = some b → LiveAt s b cs → src = some b' → LiveAt s b' cs' → n ≤ cs.length → n ≤ cs'.length →
      Q () { s with blocks := s.blocks.set b (.live (cs'.take n ++ cs.drop n)) }) :
    Sat (fastCopy asserts dst src n s) Q E := by
  unfold fastCopy
  split
  · exact h0 ‹_›
  · apply sat_bind
    apply sat_assert (fun _ _ => hE)
    intro _
    apply sat_bind
    apply sat_assert (fun _ _ => hE)
    intro _
    apply sat_bind
    apply sat_cells hp'
    intro b' cs' hb' hcs'
    apply sat_bind
    apply sat_bounds
    intro hle
    apply sat_copyInto hp
    intro b cs hb hcs hle2
    have hle := of_decide_eq_true hle
    have e : (cs'.take n).length = n := by simp [hle]
    rw [e] at hle2 ⊢
    exact h b cs b' cs' ‹_› hb hcs hb' hcs' hle2 hle

/-- Distinct live variables refer to distinct live blocks. -/
structure Inv (s : St α) : Prop where
  live : ∀ x o b, s.objs x = some o → o.ptr = some b → ∃ cs, LiveAt s b cs
  uniq : ∀ x y o o' b, s.objs x = some o → s.objs y = some o' → o.ptr = some b → o'.ptr = some b → x = y

/-- `s'` satisfies the invariant, and the variables outside `ch` keep their members and their memory. -/
structure Good (s : St α) (ch : List Nat) (s' : St α) : Prop where
  inv : Inv s'
  objs : ∀ y, y ∉ ch → s'.objs y = s.objs y
  mem : ∀ y o b, y ∉ ch → s.objs y = some o → o.ptr = some b → s'.blocks[b]? = s.blocks[b]?

theorem Good.refl {s : St α} (h : Inv s) (ch : List Nat) : Good s ch s := ⟨h, fun _ _ => rfl, fun _ _ _ _ _ _ => rfl⟩

theorem Good.trans {s s' s'' : St α} {ch : List Nat} (h : Good s ch s') (h' : Good s' ch s'') : Good s ch s'' :=
  ⟨h'.inv, fun y hy => (h'.objs y hy).trans (h.objs y hy),
    fun y o b hy ho hb => (h'.mem y o b hy ((h.objs y hy).trans ho) hb).trans (h.mem y o b hy ho hb)⟩

theorem Good.mono {s s' : St α} {ch ch' : List Nat} (h : Good s ch s') (hs : ∀ y, y ∈ ch → y ∈ ch') : Good s ch' s' :=
  ⟨h.inv, fun y hy => h.objs y (fun h1 => hy (hs y h1)), fun y o b hy => h.mem y o b (fun h1 => hy (hs y h1))⟩

theorem put_self (s : St α) (x : Nat) (o : Obj) : (s.put x o).objs x = some o := by simp [St.put]

theorem put_other (s : St α) {x y : Nat} (o : Obj) (h : y ≠ x) : (s.put x o).objs y = s.objs y := by simp [St.put, h]

/-- Setting a variable to members whose pointer is null, or is the variable's own, is fine. -/
theorem good_put {s : St α} (h : Inv s) {x : Nat} {o : Obj} (ho : ∀ b, o.ptr = some b → ∃ o', s.objs x = some o' ∧ o'.ptr = some b) :
    Good s [x] (s.put x o) := by
  constructor
  · constructor
    · intro y o' b hy hb
      by_cases hyx : y = x
      · subst hyx
        rw [put_self] at hy
        injection hy with hy
        subst hy
        obtain ⟨o', h1, h2⟩ := ho b hb
        exact h.live y o' b h1 h2
      · rw [put_other _ _ hyx] at hy
        exact h.live y o' b hy hb
    · intro y z o1 o2 b h1 h2 h3 h4
      by_cases hyx : y = x <;> by_cases hzx : z = x
      · rw [hyx, hzx]
      · subst hyx
        rw [put_self] at h1
        injection h1 with h1
        subst h1
        rw [put_other _ _ hzx] at h2
        obtain ⟨o', h5, h6⟩ := ho b h3
        exact h.uniq _ _ _ _ _ h5 h2 h6 h4
      · subst hzx
        rw [put_self] at h2
        injection h2 with h2
        subst h2
        rw [put_other _ _ hyx] at h1
        obtain ⟨o', h5, h6⟩ := ho b h4
        exact h.uniq _ _ _ _ _ h1 h5 h3 h6
      · rw [put_other _ _ hyx] at h1
        rw [put_other _ _ hzx] at h2
        exact h.uniq _ _ _ _ _ h1 h2 h3 h4
  · intro y hy
    exact put_other _ _ (by simpa using hy)
  · intro y o' b _ _ _
    rfl

theorem liveAt_append {s : St α} {b : Nat} {cs : List (Option α)} (h : LiveAt s b cs) (bs : List (Block α)) :
    LiveAt { s with blocks := s.blocks ++ bs } b cs := by
  have h' : s.blocks[b]? = some (.live cs) := h
  have hlt : b < s.blocks.length := by
    rcases Nat.lt_or_ge b s.blocks.length with h1 | h1
    · exact h1
    · rw [List.getElem?_eq_none h1] at h'; cases h'
  show (s.blocks ++ bs)[b]? = some (.live cs)
  rw [List.getElem?_append_left hlt]
  exact h'

theorem liveAt_lt {s : St α} {b : Nat} {cs : List (Option α)} (h : LiveAt s b cs) : b < s.blocks.length := by
  have h' : s.blocks[b]? = some (.live cs) := h
  rcases Nat.lt_or_ge b s.blocks.length with h1 | h1
  · exact h1
  · rw [List.getElem?_eq_none h1] at h'; cases h'

/-- Allocating a block changes nothing else. -/
theorem good_append {s : St α} (h : Inv s) (bs : List (Block α)) : Good s [] { s with blocks := s.blocks ++ bs } := by
  constructor
  · constructor
    · intro x o b hx hb
      obtain ⟨cs, hcs⟩ := h.live x o b hx hb
      exact ⟨cs, liveAt_append hcs bs⟩
    · exact h.uniq
  · intros; rfl
  · intro y o b _ hy hb
    obtain ⟨cs, hcs⟩ := h.live y o b hy hb
    exact List.getElem?_append_left (liveAt_lt hcs)

/-- Giving a new block to a variable. -/
theorem good_alloc {s : St α} (h : Inv s) {x : Nat} {o : Obj} {cs : List (Option α)} (ho : o.ptr = some s.blocks.length) :
    Good s [x] (St.put { s with blocks := s.blocks ++ [.live cs] } x o) := by
  constructor
  · constructor
    · intro y o' b hy hb
      by_cases hyx : y = x
      · subst hyx
        rw [put_self] at hy
        injection hy with hy
        subst hy
        rw [ho] at hb
        injection hb with hb
        subst hb
        refine ⟨cs, ?_⟩
        show (s.blocks ++ [Block.live cs])[s.blocks.length]? = some (.live cs)
        simp
      · rw [put_other _ _ hyx] at hy
        obtain ⟨cs', hcs⟩ := h.live y o' b hy hb
        exact ⟨cs', liveAt_append hcs _⟩
    · intro y z o1 o2 b h1 h2 h3 h4
      by_cases hyx : y = x <;> by_cases hzx : z = x
      · rw [hyx, hzx]
      · subst hyx
        rw [put_self] at h1
        injection h1 with h1
        subst h1
        rw [put_other _ _ hzx] at h2
        obtain ⟨cs', hcs⟩ := h.live z o2 b h2 h4
        have := liveAt_lt hcs
        rw [ho] at h3
        injection h3 with h3
        omega
      · subst hzx
        rw [put_self] at h2
        injection h2 with h2
        subst h2
        rw [put_other _ _ hyx] at h1
        obtain ⟨cs', hcs⟩ := h.live y o1 b h1 h3
        have := liveAt_lt hcs
        rw [ho] at h4
        injection h4 with h4
        omega
      · rw [put_other _ _ hyx] at h1
        rw [put_other _ _ hzx] at h2
        exact h.uniq _ _ _ _ _ h1 h2 h3 h4
  · intro y hy
    exact put_other _ _ (by simpa using hy)
  · intro y o' b hy hy' hb
    obtain ⟨cs', hcs⟩ := h.live y o' b hy' hb
    exact List.getElem?_append_left (liveAt_lt hcs)

/-- Changing a block that no variable outside `ch` refers to; live stays live unless nobody refers to it. -/
theorem good_setBlock {s : St α} (h : Inv s) {ch : List Nat} {b : Nat} {blk : Block α}
    (hb : ∀ y o, s.objs y = some o → o.ptr = some b → y ∈ ch ∧ ∃ cs, blk = .live cs) :
    Good s ch { s with blocks := s.blocks.set b blk } := by
  constructor
  · constructor
    · intro y o b' hy hb'
      obtain ⟨cs, hcs⟩ := h.live y o b' hy hb'
      by_cases hbb : b = b'
      · subst hbb
        obtain ⟨_, cs', rfl⟩ := hb y o hy hb'
        refine ⟨cs', ?_⟩
        show (s.blocks.set b (.live cs'))[b]? = _
        rw [List.getElem?_set_self (liveAt_lt hcs)]
      · refine ⟨cs, ?_⟩
        show (s.blocks.set b blk)[b']? = _
        rw [List.getElem?_set_ne hbb]
        exact hcs
    · exact h.uniq
  · intros; rfl
  · intro y o b' hy hyo hb'
    have hbb : b ≠ b' := by
      rintro rfl
      exact hy (hb y o hyo hb').1
    show (s.blocks.set b blk)[b']? = _
    rw [List.getElem?_set_ne hbb]

/-- Changing the cells of a variable's own block. -/
theorem good_cells {s : St α} (h : Inv s) {x : Nat} {o : Obj} {b : Nat} {cs : List (Option α)} (hx : s.objs x = some o)
    (hb : o.ptr = some b) : Good s [x] { s with blocks := s.blocks.set b (.live cs) } := by
  apply good_setBlock h
  intro y o' hy hb'
  rw [h.uniq _ _ _ _ _ hy hx hb' hb]
  exact ⟨by simp, cs, rfl⟩

/-- Freeing a block that no variable refers to. -/
theorem good_free {s : St α} (h : Inv s) {b : Nat} (hb : ∀ y o, s.objs y = some o → o.ptr ≠ some b) :
    Good s [] { s with blocks := s.blocks.set b .freed } := by
  apply good_setBlock h
  intro y o' hy hb'
  exact absurd hb' (hb y o' hy)

/-- Moving members from one variable to another. -/
theorem good_move {s : St α} (h : Inv s) {x y : Nat} {o : Obj} (hxy : x ≠ y) (hy : s.objs y = some o) :
    Good s [x, y] ((s.put x o).put y ⟨none, 0, false⟩) := by
  have key : ∀ z o', ((s.put x o).put y ⟨none, 0, false⟩).objs z = some o' → ∀ b, o'.ptr = some b →
      (z = x ∧ o' = o) ∨ (z ≠ x ∧ z ≠ y ∧ s.objs z = some o') := by
    intro z o' hz b hb
    by_cases hzy : z = y
    · subst hzy
      rw [put_self] at hz
      injection hz with hz
      subst hz
      cases hb
    · rw [put_other _ _ hzy] at hz
      by_cases hzx : z = x
      · subst hzx
        rw [put_self] at hz
        injection hz with hz
        exact Or.inl ⟨rfl, hz.symm⟩
      · rw [put_other _ _ hzx] at hz
        exact Or.inr ⟨hzx, hzy, hz⟩
  constructor
  · constructor
    · intro z o' b hz hb
      rcases key z o' hz b hb with ⟨_, rfl⟩ | ⟨_, _, hz'⟩
      · exact h.live y o' b hy hb
      · exact h.live z o' b hz' hb
    · intro z w o1 o2 b h1 h2 h3 h4
      rcases key z o1 h1 b h3 with ⟨e1, rfl⟩ | ⟨n1, n1', h1'⟩ <;> rcases key w o2 h2 b h4 with ⟨e2, rfl⟩ | ⟨n2, n2', h2'⟩
      · rw [e1, e2]
      · exact absurd (h.uniq _ _ _ _ _ hy h2' h3 h4).symm n2'
      · exact absurd (h.uniq _ _ _ _ _ h1' hy h3 h4) n1'
      · exact h.uniq _ _ _ _ _ h1' h2' h3 h4
  · intro z hz
    simp only [List.mem_cons, List.not_mem_nil, or_false, not_or] at hz
    rw [put_other _ _ hz.2, put_other _ _ hz.1]
  · intros; rfl

/-- The end of a variable's life, after its block (if it owned one) was freed. -/
theorem good_drop {s : St α} (h : Inv s) (x : Nat) : Good s [x] { s with objs := fun y => if y = x then none else s.objs y } := by
  constructor
  · constructor
    · intro y o b hy hb
      by_cases hyx : y = x
      · simp [hyx] at hy
      · simp only [hyx, if_false] at hy
        exact h.live y o b hy hb
    · intro y z o1 o2 b h1 h2 h3 h4
      by_cases hyx : y = x
      · simp [hyx] at h1
      · by_cases hzx : z = x
        · simp [hzx] at h2
        · simp only [hyx, hzx, if_false] at h1 h2
          exact h.uniq _ _ _ _ _ h1 h2 h3 h4
  · intro y hy
    have : y ≠ x := by simpa using hy
    simp [this]
  · intros; rfl

theorem put_put (s : St α) (x : Nat) (o o' : Obj) : (s.put x o).put x o' = s.put x o' := by
  unfold St.put
  congr 1
  funext y
  by_cases h : y = x <;> simp [h]

theorem put_blocks (s : St α) (x : Nat) (o : Obj) (bs : List (Block α)) :
    St.put { s with blocks := bs } x o = { s.put x o with blocks := bs } := rfl

/-- The state after `x` got the new block `cs` instead of its old one, which was freed. -/
theorem good_replace {s : St α} (h : Inv s) {x : Nat} {o o' : Obj} {b : Nat} {cs : List (Option α)} (hx : s.objs x = some o)
    (hb : o.ptr = some b) (ho : o'.ptr = some s.blocks.length) :
    Good s [x] (St.put { s with blocks := s.blocks.set b .freed ++ [.live cs] } x o') := by
  have g1 : Good s [x] (s.put x ⟨none, 0, true⟩) := good_put h (by simp)
  have g2 : Good (s.put x ⟨none, 0, true⟩) [] { s.put x ⟨none, 0, true⟩ with blocks := s.blocks.set b .freed } := by
    apply good_free g1.inv
    intro y o1 hy hb'
    by_cases hyx : y = x
    · subst hyx
      rw [put_self] at hy
      injection hy with hy
      subst hy
      cases hb'
    · rw [put_other _ _ hyx] at hy
      exact hyx (h.uniq _ _ _ _ _ hy hx hb' hb)
  have g3 := good_alloc (x := x) (o := o') (cs := cs) g2.inv (by simp [ho])
  have := (g1.trans (g2.mono (by simp))).trans g3
  rw [put_blocks, put_blocks, put_put] at this
  exact this

/-- The state after `x` got no new block and its old one was freed. -/
theorem good_release {s : St α} (h : Inv s) {x : Nat} {o o' : Obj} {b : Nat} (hx : s.objs x = some o)
    (hb : o.ptr = some b) (ho : o'.ptr = none) : Good s [x] (St.put { s with blocks := s.blocks.set b .freed } x o') := by
  have g1 : Good s [x] (s.put x o') := good_put h (by simp [ho])
  have g2 : Good (s.put x o') [] { s.put x o' with blocks := s.blocks.set b .freed } := by
    apply good_free g1.inv
    intro y o1 hy hb'
    by_cases hyx : y = x
    · subst hyx
      rw [put_self] at hy
      injection hy with hy
      subst hy
      rw [ho] at hb'
      cases hb'
    · rw [put_other _ _ hyx] at hy
      exact hyx (h.uniq _ _ _ _ _ hy hx hb' hb)
  exact g1.trans (g2.mono (by simp))

theorem good_initFrom {asserts : Bool} {s s0 : St α} {x y : Nat} {o : Obj} {n : Nat} (hg : Good s0 [x] s)
    (hxy : x ≠ y) (hy : s.objs y = some o) (hx : ∀ o', s.objs x = some o' → o'.ptr = none) :
    Sat (initFrom asserts x o.ptr n s) (fun _ => Good s0 [x]) (Good s0 [x]) := by
  unfold initFrom
  split
  · exact hg
  · rename_i hn
    apply sat_bind
    apply sat_alloc
    · intro h0; exact absurd (Or.inr h0) hn
    · intro _
      apply sat_bind
      apply sat_setObj
      have g := good_alloc (x := x) (o := ⟨some s.blocks.length, n, true⟩) (cs := List.replicate n none) hg.inv rfl
      have gg := hg.trans g
      apply sat_fastCopy
      · intro b hb
        exact g.inv.live x _ b (put_self _ _ _) hb
      · intro b hb
        exact g.inv.live y o b (by rw [put_other _ _ (Ne.symm hxy)]; exact hy) hb
      · exact gg
      · intro _; exact gg
      · intro b cs b' cs' _ hb _ _ _ _ _
        exact gg.trans (good_cells g.inv (put_self _ _ _) hb)

/-- Every command keeps the invariant, changes only what it may, and neither frees twice nor uses freed memory. -/
theorem exec_good {asserts : Bool} {c : Cmd α} {s : St α} (hc : c.Owning) (h : Inv s)
    (hfresh : ∀ x, c.creates = some x → s.objs x = none) :
    Sat (exec asserts c s) (fun _ => Good s c.changes) (Good s c.changes) := by
  cases c with
  | ctorDefault x => exact good_put h (by simp [fresh])
  | ctorSize x n =>
    apply sat_bind
    apply sat_alloc
    · intro _; exact good_put h (by simp)
    · intro _; exact good_alloc h rfl
  | ctorFill x n v =>
    apply sat_bind
    apply sat_alloc
    · intro h0
      subst h0
      apply sat_bind
      apply sat_setObj
      exact good_put h (by simp)
    · intro _
      apply sat_bind
      apply sat_setObj
      have g := good_alloc (x := x) (o := ⟨some s.blocks.length, n, true⟩) (cs := List.replicate n none) h rfl
      apply sat_fastCopyVals
      · intro b hb; exact g.inv.live x _ b (put_self _ _ _) hb
      · exact g
      · intro _; exact g
      · intro b cs _ hb _ _
        exact g.trans (good_cells g.inv (put_self _ _ _) hb)
  | ctorList x vals =>
    apply sat_bind
    apply sat_setObj
    have g0 : Good s [x] (s.put x fresh) := good_put h (by simp [fresh])
    unfold initVals
    split
    · exact g0
    · apply sat_bind
      apply sat_alloc
      · intro h0
        exact absurd (List.length_eq_zero_iff.1 h0) ‹_›
      · intro _
        apply sat_bind
        apply sat_setObj
        have g := good_alloc (x := x) (o := ⟨some (s.put x fresh).blocks.length, vals.length, true⟩)
          (cs := List.replicate vals.length none) g0.inv rfl
        have gg := g0.trans g
        apply sat_fastCopyVals
        · intro b hb; exact g.inv.live x _ b (put_self _ _ _) hb
        · exact gg
        · intro _; exact gg
        · intro b cs _ hb _ _
          exact gg.trans (good_cells g.inv (put_self _ _ _) hb)
  | ctorCopy x y =>
    apply sat_bind
    apply sat_getObj
    intro o hy
    apply sat_bind
    apply sat_setObj
    have hxy : x ≠ y := by
      rintro rfl
      rw [hfresh x rfl] at hy; cases hy
    have g0 : Good s [x] (s.put x ⟨none, o.size, true⟩) := good_put h (by simp)
    split
    · exact g0
    · apply good_initFrom g0 hxy
      · rw [put_other _ _ (Ne.symm hxy)]; exact hy
      · intro o' ho'
        rw [put_self] at ho'
        injection ho' with ho'
        subst ho'; rfl
  | ctorMove x y =>
    apply sat_bind
    apply sat_getObj
    intro o hy
    have hxy : x ≠ y := by
      rintro rfl
      rw [hfresh x rfl] at hy; cases hy
    apply sat_bind
    apply sat_setObj
    exact good_move h hxy hy
  | copyOf x y =>
    apply sat_bind
    apply sat_getObj
    intro o hy
    have hxy : x ≠ y := by
      rintro rfl
      rw [hfresh x rfl] at hy; cases hy
    apply sat_bind
    apply sat_setObj
    have g0 : Good s [x] (s.put x fresh) := good_put h (by simp [fresh])
    apply good_initFrom g0 hxy
    · rw [put_other _ _ (Ne.symm hxy)]; exact hy
    · intro o' ho'
      rw [put_self] at ho'
      injection ho' with ho'
      subst ho'; rfl
  | ctorDependent x y => exact absurd hc (by simp [Cmd.Owning])
  | assignCopy x y =>
    apply sat_bind
    apply sat_getObj
    intro o hx
    apply sat_bind
    apply sat_getObj
    intro o' hy
    split
    · exact Good.refl h _
    · rename_i hxy
      split
      · exact Good.refl h _
      · rename_i hn
        apply sat_bind
        apply sat_setObj
        apply sat_bind
        -- what the copy at the end needs
        have fin : ∀ s1 : St α, Good s [x] s1 → Sat ((do
            let o'' ← getObj x
            fastCopy asserts o''.ptr o'.ptr o''.size : SM α Unit) s1) (fun _ => Good s [x]) (Good s [x]) := by
          intro s1 g1
          apply sat_bind
          apply sat_getObj
          intro o2 h2
          apply sat_fastCopy
          · intro b hb; exact g1.inv.live x o2 b h2 hb
          · intro b hb
            have hy1 : s1.objs y = some o' := by rw [g1.objs y (by simpa using Ne.symm hxy)]; exact hy
            exact g1.inv.live y o' b hy1 hb
          · exact g1
          · intro _; exact g1
          · intro b cs b' cs' _ hb _ _ _ _ _
            exact g1.trans (good_cells g1.inv h2 hb)
        have g0 : Good s [x] (s.put x { o with size := o'.size }) := by
          apply good_put h
          intro b hb
          exact ⟨o, hx, hb⟩
        unfold reallocate
        split
        · split
          · apply sat_bind
            apply sat_free
            · intro b hb
              exact h.live x o b hx hb
            · intro hp
              apply sat_bind
              apply sat_alloc
              · intro h0; exact absurd h0 hn
              · intro _
                apply fin
                have := good_alloc (x := x) (o := ⟨some (s.put x { o with size := o'.size }).blocks.length, o'.size, o.owns⟩)
                  (cs := List.replicate o'.size none) g0.inv rfl
                exact g0.trans this
            · intro b hb
              apply sat_bind
              apply sat_alloc
              · intro h0; exact absurd h0 hn
              · intro _
                apply fin
                have := good_replace (o' := ⟨some s.blocks.length, o'.size, o.owns⟩) (cs := List.replicate o'.size none) h hx hb rfl
                rw [put_blocks] at this
                have e : (St.put ({ s.put x { o with size := o'.size } with
                    blocks := (s.put x { o with size := o'.size }).blocks.set b .freed ++ [.live (List.replicate o'.size none)] } : St α)
                    x ⟨some ((s.put x { o with size := o'.size }).blocks.set b .freed).length, o'.size, o.owns⟩) =
                  { s.put x ⟨some s.blocks.length, o'.size, o.owns⟩ with
                    blocks := s.blocks.set b .freed ++ [.live (List.replicate o'.size none)] } := by
                  rw [put_blocks, put_put]
                  simp [St.put]
                show Good s [x] (St.put ({ s.put x { o with size := o'.size } with
                    blocks := (s.put x { o with size := o'.size }).blocks.set b .freed ++ [.live (List.replicate o'.size none)] } : St α)
                    x ⟨some ((s.put x { o with size := o'.size }).blocks.set b .freed).length, o'.size, o.owns⟩)
                rw [e]
                exact this
          · apply sat_assert
            · intro _ _; exact g0
            · intro _; exact fin _ g0
        · exact fin _ g0
  | assignMove x y =>
    apply sat_bind
    apply sat_getObj
    intro _ _
    apply sat_bind
    apply sat_getObj
    intro o hy
    split
    · exact Good.refl h _
    · apply sat_bind
      apply sat_setObj
      exact good_move h ‹_› hy
  | dtor x =>
    apply sat_bind
    apply sat_getObj
    intro o hx
    apply sat_bind
    have drop : ∀ s1 : St α, Good s [x] s1 → Good s [x] { s1 with objs := fun y => if y = x then none else s1.objs y } :=
      fun s1 g1 => g1.trans (good_drop g1.inv x)
    unfold release
    split
    · apply sat_free
      · intro b hb; exact h.live x o b hx hb
      · intro _; exact drop _ (Good.refl h _)
      · intro b hb
        have g1 := good_release (o' := ⟨none, 0, true⟩) h hx hb rfl
        have g2 := drop _ g1
        have e : ({ St.put { s with blocks := s.blocks.set b .freed } x ⟨none, 0, true⟩ with
            objs := fun y => if y = x then none else (St.put { s with blocks := s.blocks.set b .freed } x ⟨none, 0, true⟩).objs y } : St α)
          = { s with blocks := s.blocks.set b .freed, objs := fun y => if y = x then none else s.objs y } := by
          simp only [St.put]
          congr 1
          funext y
          by_cases hyx : y = x <;> simp [hyx]
        rw [e] at g2
        exact g2
    · exact drop _ (Good.refl h _)
  | resize x n =>
    apply sat_bind
    apply sat_getObj
    intro o hx
    apply sat_bind
    apply sat_assert (fun _ _ => Good.refl h _)
    intro _
    split
    · exact Good.refl h _
    · apply sat_bind
      apply sat_assert (fun _ _ => Good.refl h _)
      intro _
      apply sat_bind
      apply sat_alloc
      · intro h0
        subst h0
        apply sat_bind
        apply sat_setObj
        apply sat_bind
        simp only [Nat.min_zero, fastCopy, if_true]
        apply sat_pure
        apply sat_free
        · intro b hb; exact h.live x o b hx hb
        · intro _; exact good_put h (by simp)
        · intro b hb; exact good_release h hx hb rfl
      · intro _
        apply sat_bind
        apply sat_setObj
        apply sat_bind
        have g := good_alloc (x := x) (o := ⟨some s.blocks.length, n, o.owns⟩) (cs := List.replicate n none) h rfl
        have old : ∀ b, o.ptr = some b → ∃ cs, LiveAt s b cs := fun b hb => h.live x o b hx hb
        -- the old block is not referred to any more
        have free : ∀ s1 : St α, Good s [x] s1 → s1.blocks.length = s.blocks.length + 1 →
            s1.objs x = some ⟨some s.blocks.length, n, o.owns⟩ →
            (∀ b, o.ptr = some b → ∃ cs, LiveAt s1 b cs) →
            Sat (safeDeallocate o.ptr s1) (fun _ => Good s [x]) (Good s [x]) := by
          intro s1 g1 _ hx1 hlive
          apply sat_free hlive
          · intro _; exact g1
          · intro b hb
            refine g1.trans ((good_free g1.inv ?_).mono (by simp))
            intro z oz hz hzb
            by_cases hzx : z = x
            · subst hzx
              rw [hx1] at hz
              injection hz with hz
              subst hz
              injection hzb with hzb
              obtain ⟨cs, hcs⟩ := old b hb
              have := liveAt_lt hcs
              omega
            · rw [g1.objs z (by simpa using hzx)] at hz
              exact hzx (h.uniq _ _ _ _ _ hz hx hzb hb)
        apply sat_fastCopy
        · intro b hb; exact g.inv.live x _ b (put_self _ _ _) hb
        · intro b hb
          obtain ⟨cs, hcs⟩ := old b hb
          exact ⟨cs, liveAt_append hcs _⟩
        · exact g
        · intro _
          apply free _ g (by simp [St.put]) (put_self _ _ _)
          intro b hb
          obtain ⟨cs, hcs⟩ := old b hb
          exact ⟨cs, liveAt_append hcs _⟩
        · intro b cs b' cs' _ hb _ hb' _ _ _
          injection hb with hb
          subst hb
          refine free _ (g.trans (good_cells g.inv (put_self _ _ _) rfl)) (by simp [St.put]) (put_self _ _ _) ?_
          intro b2 hb2
          obtain ⟨cs2, hcs2⟩ := old b2 hb2
          have hlt := liveAt_lt hcs2
          refine ⟨cs2, ?_⟩
          show (List.set _ _ _)[b2]? = _
          rw [List.getElem?_set_ne (by omega)]
          exact liveAt_append hcs2 _
  | resizeDiscard x n =>
    apply sat_bind
    apply sat_getObj
    intro o hx
    apply sat_bind
    apply sat_assert (fun _ _ => Good.refl h _)
    intro _
    split
    · exact Good.refl h _
    · apply sat_bind
      apply sat_assert (fun _ _ => Good.refl h _)
      intro _
      apply sat_bind
      apply sat_alloc
      · intro h0
        apply sat_bind
        apply sat_setObj
        apply sat_free
        · intro b hb; exact h.live x o b hx hb
        · intro _; exact good_put h (by simp)
        · intro b hb; exact good_release h hx hb rfl
      · intro _
        apply sat_bind
        apply sat_setObj
        have g := good_alloc (x := x) (o := ⟨some s.blocks.length, n, o.owns⟩) (cs := List.replicate n none) h rfl
        apply sat_free
        · intro b hb
          obtain ⟨cs, hcs⟩ := h.live x o b hx hb
          exact ⟨cs, liveAt_append hcs _⟩
        · intro _; exact g
        · intro b hb
          refine g.trans ((good_free g.inv ?_).mono (by simp))
          intro z oz hz hzb
          obtain ⟨cs, hcs⟩ := h.live x o b hx hb
          have := liveAt_lt hcs
          by_cases hzx : z = x
          · subst hzx
            rw [put_self] at hz
            injection hz with hz
            subst hz
            injection hzb with hzb
            omega
          · rw [put_other _ _ hzx] at hz
            exact hzx (h.uniq _ _ _ _ _ hz hx hzb hb)
  | read x i =>
    apply sat_bind
    apply sat_bind
    apply sat_getObj
    intro o hx
    apply sat_bind
    apply sat_assert (fun _ _ => Good.refl h _)
    intro _
    apply sat_bind
    apply sat_cells (fun b hb => h.live x o b hx hb)
    intro b cs _ _
    unfold elemAt
    split
    · exact Good.refl h _
    · exact ⟨by simp, by simp⟩
  | write x i v =>
    apply sat_bind
    apply sat_getObj
    intro o hx
    apply sat_bind
    apply sat_assert (fun _ _ => Good.refl h _)
    intro _
    apply sat_bind
    apply sat_cells (fun b hb => h.live x o b hx hb)
    intro b cs hb _
    apply sat_bind
    apply sat_bounds
    intro _
    apply sat_setCells (fun b hb => h.live x o b hx hb)
    intro b' hb'
    exact good_cells h hx hb'

/-! ### Leaks -/

/-- Variables own what they point to, and every live block outside `L` is pointed to. -/
structure Own (L : List Nat) (s : St α) : Prop where
  owns : ∀ x o b, s.objs x = some o → o.ptr = some b → o.owns = true
  ref : ∀ b cs, LiveAt s b cs → (∃ x o, s.objs x = some o ∧ o.ptr = some b) ∨ b ∈ L

theorem own_put {s : St α} {L : List Nat} (h : Own L s) {x : Nat} {o' : Obj} (ho : ∀ b, o'.ptr = some b → o'.owns = true)
    (hp : ∀ o b, s.objs x = some o → o.ptr = some b → o'.ptr = some b ∨ b ∈ L) : Own L (s.put x o') := by
  constructor
  · intro y o b hy hb
    by_cases hyx : y = x
    · subst hyx
      rw [put_self] at hy
      injection hy with hy
      subst hy
      exact ho b hb
    · rw [put_other _ _ hyx] at hy
      exact h.owns y o b hy hb
  · intro b cs hb
    rcases h.ref b cs hb with ⟨y, o, h1, h2⟩ | h1
    · by_cases hyx : y = x
      · subst hyx
        rcases hp o b h1 h2 with h3 | h3
        · exact Or.inl ⟨y, o', put_self _ _ _, h3⟩
        · exact Or.inr h3
      · exact Or.inl ⟨y, o, by rw [put_other _ _ hyx]; exact h1, h2⟩
    · exact Or.inr h1

theorem own_append {s : St α} {L : List Nat} (h : Own L s) {cs : List (Option α)} :
    Own (s.blocks.length :: L) { s with blocks := s.blocks ++ [.live cs] } := by
  constructor
  · exact h.owns
  · intro b cs' hb
    by_cases hlt : b < s.blocks.length
    · have h1 : s.blocks[b]? = some (.live cs') := by
        rw [← List.getElem?_append_left (l₂ := [Block.live cs]) hlt]; exact hb
      rcases h.ref b cs' h1 with h2 | h2
      · exact Or.inl h2
      · exact Or.inr (List.mem_cons_of_mem _ h2)
    · have := liveAt_lt hb
      simp at this
      have : b = s.blocks.length := by omega
      exact Or.inr (by simp [this])

theorem own_take {s : St α} {L : List Nat} {b : Nat} (h : Own (b :: L) s) {x : Nat} {o : Obj} (hx : s.objs x = some o)
    (hb : o.ptr = some b) : Own L s := by
  refine ⟨h.owns, ?_⟩
  intro b' cs hb'
  rcases h.ref b' cs hb' with h1 | h1
  · exact Or.inl h1
  · rcases List.mem_cons.1 h1 with h2 | h2
    · subst h2
      exact Or.inl ⟨x, o, hx, hb⟩
    · exact Or.inr h2

theorem own_alloc {s : St α} {L : List Nat} (h : Own L s) {x : Nat} {o' : Obj} {cs : List (Option α)}
    (ho : o'.ptr = some s.blocks.length) (how : o'.owns = true)
    (hp : ∀ o b, s.objs x = some o → o.ptr = some b → b ∈ L) :
    Own L (St.put { s with blocks := s.blocks ++ [.live cs] } x o') := by
  apply own_take (b := s.blocks.length) (own_put (own_append h) (fun _ _ => how) _) (put_self _ _ _) ho
  intro o b h1 h2
  exact Or.inr (List.mem_cons_of_mem _ (hp o b h1 h2))

theorem own_free {s : St α} {L : List Nat} {b : Nat} (h : Own (b :: L) s) : Own L { s with blocks := s.blocks.set b .freed } := by
  refine ⟨h.owns, ?_⟩
  intro b' cs hb'
  have hb1 : (s.blocks.set b .freed)[b']? = some (.live cs) := hb'
  by_cases hbb : b = b'
  · subst hbb
    by_cases hlt : b < s.blocks.length
    · rw [List.getElem?_set_self hlt] at hb1
      injection hb1 with hb1
      cases hb1
    · rw [List.getElem?_eq_none (by simp; omega)] at hb1; cases hb1
  · rw [List.getElem?_set_ne hbb] at hb1
    rcases h.ref b' cs hb1 with h1 | h1
    · exact Or.inl h1
    · rcases List.mem_cons.1 h1 with h2 | h2
      · exact absurd h2.symm hbb
      · exact Or.inr h2

theorem own_cells {s : St α} {L : List Nat} {b : Nat} {cs cs' : List (Option α)} (h : Own L s) (hb : LiveAt s b cs) :
    Own L { s with blocks := s.blocks.set b (.live cs') } := by
  refine ⟨h.owns, ?_⟩
  intro b' cs2 hb'
  by_cases hbb : b = b'
  · subst hbb
    exact h.ref b cs hb
  · have hb1 : (s.blocks.set b (.live cs'))[b']? = some (.live cs2) := hb'
    rw [List.getElem?_set_ne hbb] at hb1
    exact h.ref b' cs2 hb1

theorem own_more {s : St α} {L : List Nat} (h : Own L s) (b : Nat) : Own (b :: L) s :=
  ⟨h.owns, fun b' cs hb' => (h.ref b' cs hb').imp id (List.mem_cons_of_mem _)⟩

theorem own_drop {s : St α} {L : List Nat} (h : Own L s) {x : Nat} (hx : ∀ o b, s.objs x = some o → o.ptr = some b → b ∈ L) :
    Own L { s with objs := fun y => if y = x then none else s.objs y } := by
  constructor
  · intro y o b hy hb
    by_cases hyx : y = x
    · simp [hyx] at hy
    · simp only [hyx, if_false] at hy
      exact h.owns y o b hy hb
  · intro b cs hb
    rcases h.ref b cs hb with ⟨y, o, h1, h2⟩ | h1
    · by_cases hyx : y = x
      · subst hyx
        exact Or.inr (hx o b h1 h2)
      · exact Or.inl ⟨y, o, by simp only [hyx, if_false]; exact h1, h2⟩
    · exact Or.inr h1

theorem own_move {s : St α} {L : List Nat} (h : Own L s) {x y : Nat} {o : Obj} (hxy : x ≠ y) (hy : s.objs y = some o)
    (hx : ∀ o b, s.objs x = some o → o.ptr = some b → b ∈ L) : Own L ((s.put x o).put y ⟨none, 0, false⟩) := by
  have h1 : Own L (s.put x o) := own_put h (fun b hb => h.owns y o b hy hb) (fun o' b h1 h2 => Or.inr (hx o' b h1 h2))
  cases hp : o.ptr with
  | none =>
    apply own_put h1 (by simp)
    intro o' b h2 h3
    rw [put_other _ _ (Ne.symm hxy), hy] at h2
    injection h2 with h2
    subst h2
    rw [hp] at h3; cases h3
  | some b0 =>
    have h2 : Own (b0 :: L) ((s.put x o).put y ⟨none, 0, false⟩) := by
      apply own_put (own_more h1 b0) (by simp)
      intro o' b h2 h3
      rw [put_other _ _ (Ne.symm hxy), hy] at h2
      injection h2 with h2
      subst h2
      rw [hp] at h3
      injection h3 with h3
      subst h3
      exact Or.inr (by simp)
    exact own_take h2 (by rw [put_other _ _ hxy]; exact put_self _ _ _) hp

theorem own_initFrom {asserts : Bool} {s : St α} {x y : Nat} {o : Obj} {n : Nat} (hi : Inv s) (h : Own [] s) (hxy : x ≠ y)
    (hy : s.objs y = some o) (hx : ∀ o', s.objs x = some o' → o'.ptr = none) :
    Sat (initFrom asserts x o.ptr n s) (fun _ => Own []) (Own []) := by
  unfold initFrom
  split
  · exact h
  · rename_i hn
    apply sat_bind
    apply sat_alloc
    · intro h0; exact absurd (Or.inr h0) hn
    · intro _
      apply sat_bind
      apply sat_setObj
      have g := good_alloc (x := x) (o := ⟨some s.blocks.length, n, true⟩) (cs := List.replicate n none) hi rfl
      have gg : Own [] _ := own_alloc (x := x) (o' := ⟨some s.blocks.length, n, true⟩) (cs := List.replicate n none) h rfl rfl
        (fun o' b h1 h2 => by rw [hx o' h1] at h2; cases h2)
      apply sat_fastCopy
      · intro b hb
        exact g.inv.live x _ b (put_self _ _ _) hb
      · intro b hb
        exact g.inv.live y o b (by rw [put_other _ _ (Ne.symm hxy)]; exact hy) hb
      · exact gg
      · intro _; exact gg
      · intro b cs b' cs' _ hb hcs _ _ _ _
        exact own_cells gg hcs

/-- Tidy commands lose no block. -/
theorem exec_own {asserts : Bool} {c : Cmd α} {s : St α} (hc : c.Tidy asserts s) (hi : Inv s) (h : Own [] s)
    (hfresh : ∀ x, c.creates = some x → s.objs x = none) : Sat (exec asserts c s) (fun _ => Own []) (Own []) := by
  cases c with
  | ctorDefault x => exact own_put h (by simp [fresh]) (fun o b h1 _ => by rw [hfresh x rfl] at h1; cases h1)
  | ctorSize x n =>
    apply sat_bind
    apply sat_alloc
    · intro _; exact own_put h (by simp) (fun o b h1 _ => by rw [hfresh x rfl] at h1; cases h1)
    · intro _; exact own_alloc h rfl rfl (fun o b h1 _ => by rw [hfresh x rfl] at h1; cases h1)
  | ctorFill x n v =>
    apply sat_bind
    apply sat_alloc
    · intro h0
      subst h0
      apply sat_bind
      apply sat_setObj
      exact own_put h (by simp) (fun o b h1 _ => by rw [hfresh x rfl] at h1; cases h1)
    · intro _
      apply sat_bind
      apply sat_setObj
      have g := good_alloc (x := x) (o := ⟨some s.blocks.length, n, true⟩) (cs := List.replicate n none) hi rfl
      have gg := own_alloc (x := x) (o' := ⟨some s.blocks.length, n, true⟩) (cs := List.replicate n none) h rfl rfl
        (fun o b h1 _ => by rw [hfresh x rfl] at h1; cases h1)
      apply sat_fastCopyVals
      · intro b hb; exact g.inv.live x _ b (put_self _ _ _) hb
      · exact gg
      · intro _; exact gg
      · intro b cs _ hb hcs _
        exact own_cells gg hcs
  | ctorList x vals =>
    apply sat_bind
    apply sat_setObj
    have g0 : Good s [x] (s.put x fresh) := good_put hi (by simp [fresh])
    have w0 : Own [] (s.put x fresh) := own_put h (by simp [fresh]) (fun o b h1 _ => by rw [hfresh x rfl] at h1; cases h1)
    unfold initVals
    split
    · exact w0
    · apply sat_bind
      apply sat_alloc
      · intro h0
        exact absurd (List.length_eq_zero_iff.1 h0) ‹_›
      · intro _
        apply sat_bind
        apply sat_setObj
        have g := good_alloc (x := x) (o := ⟨some (s.put x fresh).blocks.length, vals.length, true⟩)
          (cs := List.replicate vals.length none) g0.inv rfl
        have gg := own_alloc (x := x) (o' := ⟨some (s.put x fresh).blocks.length, vals.length, true⟩)
          (cs := List.replicate vals.length none) w0 rfl rfl (fun o b h1 h2 => by
            rw [put_self] at h1; injection h1 with h1; subst h1; cases h2)
        apply sat_fastCopyVals
        · intro b hb; exact g.inv.live x _ b (put_self _ _ _) hb
        · exact gg
        · intro _; exact gg
        · intro b cs _ hb hcs _
          exact own_cells gg hcs
  | ctorCopy x y =>
    apply sat_bind
    apply sat_getObj
    intro o hy
    apply sat_bind
    apply sat_setObj
    have hxy : x ≠ y := by
      rintro rfl
      rw [hfresh x rfl] at hy; cases hy
    have g0 : Good s [x] (s.put x ⟨none, o.size, true⟩) := good_put hi (by simp)
    have w0 : Own [] (s.put x ⟨none, o.size, true⟩) :=
      own_put h (by simp) (fun o b h1 _ => by rw [hfresh x rfl] at h1; cases h1)
    split
    · exact w0
    · apply own_initFrom g0.inv w0 hxy
      · rw [put_other _ _ (Ne.symm hxy)]; exact hy
      · intro o' ho'
        rw [put_self] at ho'
        injection ho' with ho'
        subst ho'; rfl
  | ctorMove x y =>
    apply sat_bind
    apply sat_getObj
    intro o hy
    have hxy : x ≠ y := by
      rintro rfl
      rw [hfresh x rfl] at hy; cases hy
    apply sat_bind
    apply sat_setObj
    exact own_move h hxy hy (fun o b h1 _ => by rw [hfresh x rfl] at h1; cases h1)
  | copyOf x y =>
    apply sat_bind
    apply sat_getObj
    intro o hy
    have hxy : x ≠ y := by
      rintro rfl
      rw [hfresh x rfl] at hy; cases hy
    apply sat_bind
    apply sat_setObj
    have g0 : Good s [x] (s.put x fresh) := good_put hi (by simp [fresh])
    have w0 : Own [] (s.put x fresh) := own_put h (by simp [fresh]) (fun o b h1 _ => by rw [hfresh x rfl] at h1; cases h1)
    apply own_initFrom g0.inv w0 hxy
    · rw [put_other _ _ (Ne.symm hxy)]; exact hy
    · intro o' ho'
      rw [put_self] at ho'
      injection ho' with ho'
      subst ho'; rfl
  | ctorDependent x y => exact absurd hc (by simp [Cmd.Tidy])
  | assignCopy x y =>
    apply sat_bind
    apply sat_getObj
    intro o hx
    apply sat_bind
    apply sat_getObj
    intro o' hy
    split
    · exact h
    · rename_i hxy
      split
      · exact h
      · rename_i hn
        apply sat_bind
        apply sat_setObj
        apply sat_bind
        have fin : ∀ s1 : St α, Own [] s1 → (∀ o2 b, s1.objs x = some o2 → o2.ptr = some b → ∃ cs, LiveAt s1 b cs) →
            (∀ b, o'.ptr = some b → ∃ cs, LiveAt s1 b cs) → Sat ((do
            let o'' ← getObj x
            fastCopy asserts o''.ptr o'.ptr o''.size : SM α Unit) s1) (fun _ => Own []) (Own []) := by
          intro s1 g1 hlx hly
          apply sat_bind
          apply sat_getObj
          intro o2 h2
          apply sat_fastCopy
          · intro b hb; exact hlx o2 b h2 hb
          · exact hly
          · exact g1
          · intro _; exact g1
          · intro b cs b' cs' _ hb hcs _ _ _ _
            exact own_cells g1 hcs
        have w0 : Own [] (s.put x { o with size := o'.size }) := by
          apply own_put h
          · intro b hb
            exact h.owns x o b hx hb
          · intro o1 b h1 h2
            rw [hx] at h1
            injection h1 with h1
            subst h1
            exact Or.inl h2
        have fin0 : Sat ((do
            let o'' ← getObj x
            fastCopy asserts o''.ptr o'.ptr o''.size : SM α Unit) (s.put x { o with size := o'.size }))
            (fun _ => Own []) (Own []) := by
          apply fin _ w0
          · intro o2 b h2 hb
            rw [put_self] at h2
            injection h2 with h2
            subst h2
            exact hi.live x o b hx hb
          · intro b hb; exact hi.live y o' b hy hb
        unfold reallocate
        split
        · split
          · rename_i how
            apply sat_bind
            apply sat_free
            · intro b hb
              exact hi.live x o b hx hb
            · intro hp
              apply sat_bind
              apply sat_alloc
              · intro h0; exact absurd h0 hn
              · intro _
                have w1 := own_alloc (x := x) (o' := ⟨some (s.put x { o with size := o'.size }).blocks.length, o'.size, o.owns⟩)
                  (cs := List.replicate o'.size none) w0 rfl how (fun o1 b h1 h2 => by
                    rw [put_self] at h1; injection h1 with h1; subst h1; rw [hp] at h2; cases h2)
                apply fin _ w1
                · intro o2 b h2 hb
                  rw [put_self] at h2
                  injection h2 with h2
                  subst h2
                  injection hb with hb
                  subst hb
                  exact ⟨List.replicate o'.size none, by simp [LiveAt, St.put]⟩
                · intro b hb
                  obtain ⟨cs, hcs⟩ := hi.live y o' b hy hb
                  exact ⟨cs, liveAt_append hcs _⟩
            · intro b hb
              apply sat_bind
              apply sat_alloc
              · intro h0; exact absurd h0 hn
              · intro _
                obtain ⟨csb, hcsb⟩ := hi.live x o b hx hb
                have hltb := liveAt_lt hcsb
                have w1 : Own [] (St.put { s.put x { o with size := o'.size } with
                    blocks := (s.put x { o with size := o'.size }).blocks.set b .freed ++ [.live (List.replicate o'.size none)] }
                    x ⟨some ((s.put x { o with size := o'.size }).blocks.set b .freed).length, o'.size, o.owns⟩) := by
                  -- as if the new block came first, then the old one was freed
                  have v1 := own_put (own_more w0 b) (x := x) (o' := ⟨none, 0, true⟩) (by simp) (fun o1 b1 h1 h2 => by
                    rw [put_self] at h1; injection h1 with h1; subst h1
                    rw [hb] at h2; injection h2 with h2; subst h2; exact Or.inr (by simp))
                  have v2 := own_free v1
                  have v3 := own_alloc (x := x)
                    (o' := ⟨some ((s.put x { o with size := o'.size }).blocks.set b .freed).length, o'.size, o.owns⟩)
                    (cs := List.replicate o'.size none) v2 rfl how (fun o1 b1 h1 h2 => by
                      simp only [St.put, if_true] at h1
                      injection h1 with h1; subst h1; cases h2)
                  rw [put_blocks, put_blocks] at v3 ⊢
                  rw [put_put] at v3 ⊢
                  rw [put_put] at v3
                  exact v3
                apply fin _ w1
                · intro o2 b2 h2 hb2
                  rw [put_self] at h2
                  injection h2 with h2
                  subst h2
                  injection hb2 with hb2
                  subst hb2
                  exact ⟨List.replicate o'.size none, by simp [LiveAt, St.put]⟩
                · intro b2 hb2
                  obtain ⟨cs, hcs⟩ := hi.live y o' b2 hy hb2
                  refine ⟨cs, ?_⟩
                  have hne : b ≠ b2 := by
                    rintro rfl
                    exact hxy (hi.uniq _ _ _ _ _ hx hy hb hb2)
                  have hlt2 := liveAt_lt hcs
                  show (s.blocks.set b .freed ++ _)[b2]? = _
                  rw [List.getElem?_append_left (by simpa using hlt2), List.getElem?_set_ne hne]
                  exact hcs
          · apply sat_assert
            · intro _ _; exact w0
            · intro _; exact fin0
        · exact fin0
  | assignMove x y =>
    apply sat_bind
    apply sat_getObj
    intro ox hx
    apply sat_bind
    apply sat_getObj
    intro o hy
    split
    · exact h
    · rename_i hxy
      apply sat_bind
      apply sat_setObj
      refine own_move h ‹_› hy ?_
      intro o' b h1 h2
      rcases hc with hc | hc
      · exact absurd hc hxy
      · rw [hc o' h1] at h2; cases h2
  | dtor x =>
    apply sat_bind
    apply sat_getObj
    intro o hx
    apply sat_bind
    unfold release
    split
    · apply sat_free
      · intro b hb; exact hi.live x o b hx hb
      · intro hp
        exact own_drop h (fun o1 b h1 h2 => by
          rw [hx] at h1; injection h1 with h1; subst h1; rw [hp] at h2; cases h2)
      · intro b hb
        have v1 := own_drop (x := x) (own_more h b) (fun o1 b1 h1 h2 => by
          rw [hx] at h1; injection h1 with h1; subst h1; rw [hb] at h2; injection h2 with h2; subst h2; simp)
        exact own_free v1
    · rename_i how
      refine own_drop h (fun o1 b h1 h2 => ?_)
      rw [hx] at h1
      injection h1 with h1
      subst h1
      exact absurd (h.owns x o b hx h2) how
  | resize x n =>
    apply sat_bind
    apply sat_getObj
    intro o hx
    apply sat_bind
    apply sat_assert (fun _ _ => h)
    intro _
    split
    · exact h
    · apply sat_bind
      apply sat_assert (fun _ _ => h)
      intro hassert
      have how : o.owns = true := by
        rcases hc with hc | hc
        · exact hassert hc
        · obtain ⟨o1, h1, h2⟩ := hc
          rw [hx] at h1
          injection h1 with h1
          subst h1
          exact h2
      apply sat_bind
      apply sat_alloc
      · intro h0
        subst h0
        apply sat_bind
        apply sat_setObj
        apply sat_bind
        simp only [Nat.min_zero, fastCopy, if_true]
        apply sat_pure
        apply sat_free
        · intro b hb; exact hi.live x o b hx hb
        · intro hp; exact own_put h (by simp) (fun o1 b1 h1 h2 => by
            rw [hx] at h1; injection h1 with h1; subst h1; rw [hp] at h2; cases h2)
        · intro b hb
          exact own_free (own_put (own_more h b) (by simp) (fun o1 b1 h1 h2 => by
            rw [hx] at h1; injection h1 with h1; subst h1; rw [hb] at h2; injection h2 with h2; subst h2; exact Or.inr (by simp)))
      · intro _
        apply sat_bind
        apply sat_setObj
        apply sat_bind
        have old : ∀ b, o.ptr = some b → ∃ cs, LiveAt s b cs := fun b hb => hi.live x o b hx hb
        have e1 : ∀ b, o.ptr = some b → Own [b] (St.put { s with blocks := s.blocks ++ [.live (List.replicate n none)] } x
            ⟨some s.blocks.length, n, o.owns⟩) := by
          intro b hb
          exact own_alloc (own_more h b) rfl how (fun o1 b1 h1 h2 => by
            rw [hx] at h1; injection h1 with h1; subst h1; rw [hb] at h2; injection h2 with h2; subst h2; simp)
        have e0 : o.ptr = none → Own [] (St.put { s with blocks := s.blocks ++ [.live (List.replicate n none)] } x
            ⟨some s.blocks.length, n, o.owns⟩) := by
          intro hp
          exact own_alloc h rfl how (fun o1 b1 h1 h2 => by
            rw [hx] at h1; injection h1 with h1; subst h1; rw [hp] at h2; cases h2)
        have liveOld : ∀ b, o.ptr = some b → ∃ cs, LiveAt (St.put { s with blocks := s.blocks ++ [.live (List.replicate n none)] } x
            ⟨some s.blocks.length, n, o.owns⟩) b cs := by
          intro b hb
          obtain ⟨cs, hcs⟩ := old b hb
          exact ⟨cs, liveAt_append hcs _⟩
        have liveNew : ∀ b, some s.blocks.length = some b → ∃ cs, LiveAt (St.put { s with blocks := s.blocks ++
            [.live (List.replicate n none)] } x ⟨some s.blocks.length, n, o.owns⟩) b cs := by
          intro b hb
          injection hb with hb
          subst hb
          exact ⟨List.replicate n none, by simp [LiveAt, St.put]⟩
        unfold fastCopy
        split
        · apply sat_pure
          apply sat_free liveOld
          · exact e0
          · intro b hb; exact own_free (e1 b hb)
        · cases hp : o.ptr with
          | none =>
            apply sat_bind
            apply sat_assert (fun _ _ => e0 hp)
            intro _
            apply sat_bind
            apply sat_assert (fun _ _ => e0 hp)
            intro _
            exact ⟨by simp, by simp⟩
          | some b =>
            apply sat_bind
            apply sat_assert
            · intro _ hf; cases hf
            intro _
            apply sat_bind
            apply sat_assert
            · intro _ hf; cases hf
            intro _
            apply sat_bind
            apply sat_cells (fun b1 hb1 => liveOld b1 (hp.trans hb1))
            intro b1 cs1 hb1 hcs1
            apply sat_bind
            apply sat_bounds
            intro _
            apply sat_copyInto liveNew
            intro b2 cs2 hb2 hcs2 _
            have v := own_cells (cs' := (cs1.take (min o.size n)) ++ cs2.drop (cs1.take (min o.size n)).length) (e1 b hp) hcs2
            apply sat_free
            · intro b3 hb3
              injection hb3 with hb3
              subst hb3
              injection hb2 with hb2
              subst hb2
              obtain ⟨cs3, hcs3⟩ := old b hp
              have := liveAt_lt hcs3
              refine ⟨cs3, ?_⟩
              show (List.set _ _ _)[b]? = _
              rw [List.getElem?_set_ne (by omega)]
              exact liveAt_append hcs3 _
            · intro hf; cases hf
            · intro b3 hb3
              injection hb3 with hb3
              subst hb3
              exact own_free v
  | resizeDiscard x n =>
    apply sat_bind
    apply sat_getObj
    intro o hx
    apply sat_bind
    apply sat_assert (fun _ _ => h)
    intro _
    split
    · exact h
    · apply sat_bind
      apply sat_assert (fun _ _ => h)
      intro hassert
      have how : o.owns = true := by
        rcases hc with hc | hc
        · exact hassert hc
        · obtain ⟨o1, h1, h2⟩ := hc
          rw [hx] at h1
          injection h1 with h1
          subst h1
          exact h2
      apply sat_bind
      apply sat_alloc
      · intro h0
        apply sat_bind
        apply sat_setObj
        apply sat_free
        · intro b hb; exact hi.live x o b hx hb
        · intro hp; exact own_put h (by simp) (fun o1 b1 h1 h2 => by
            rw [hx] at h1; injection h1 with h1; subst h1; rw [hp] at h2; cases h2)
        · intro b hb
          exact own_free (own_put (own_more h b) (by simp) (fun o1 b1 h1 h2 => by
            rw [hx] at h1; injection h1 with h1; subst h1; rw [hb] at h2; injection h2 with h2; subst h2; exact Or.inr (by simp)))
      · intro _
        apply sat_bind
        apply sat_setObj
        apply sat_free
        · intro b hb
          obtain ⟨cs, hcs⟩ := hi.live x o b hx hb
          exact ⟨cs, liveAt_append hcs _⟩
        · intro hp
          exact own_alloc h rfl how (fun o1 b1 h1 h2 => by
            rw [hx] at h1; injection h1 with h1; subst h1; rw [hp] at h2; cases h2)
        · intro b hb
          exact own_free (own_alloc (own_more h b) rfl how (fun o1 b1 h1 h2 => by
            rw [hx] at h1; injection h1 with h1; subst h1; rw [hb] at h2; injection h2 with h2; subst h2; simp))
  | read x i =>
    apply sat_bind
    apply sat_bind
    apply sat_getObj
    intro o hx
    apply sat_bind
    apply sat_assert (fun _ _ => h)
    intro _
    apply sat_bind
    apply sat_cells (fun b hb => hi.live x o b hx hb)
    intro b cs _ _
    unfold elemAt
    split
    · exact h
    · exact ⟨by simp, by simp⟩
  | write x i v =>
    apply sat_bind
    apply sat_getObj
    intro o hx
    apply sat_bind
    apply sat_assert (fun _ _ => h)
    intro _
    apply sat_bind
    apply sat_cells (fun b hb => hi.live x o b hx hb)
    intro b cs hb hcs
    apply sat_bind
    apply sat_bounds
    intro _
    apply sat_setCells (fun b hb => hi.live x o b hx hb)
    intro b' hb'
    rw [hb] at hb'
    injection hb' with hb'
    subst hb'
    exact own_cells h hcs

end Verif.StorageM
