import Verif.Spec.StorageOom

/-! Lemmas about storages that run out of memory. -/

namespace Verif.StorageOom

variable {α β γ : Type}

/-- The variable `o` is consistent with the blocks: without memory and empty, or the owner of a live block of its size. -/
def ObjOk (env : Env α) (bs : List (Block α)) (o : Obj) : Prop :=
  (o.ptr = none ∧ o.size = 0) ∨
    ∃ b cs, o.ptr = some b ∧ bs[b]? = some (.live cs) ∧ cs.length = o.size ∧ o.size ≠ 0 ∧ o.owns = true ∧
      o.size * env.esize < 2 ^ 64 ∧ (env.fresh.isSome = true → ∀ c ∈ cs, c.isSome = true)

/-- All variables are consistent, and no two share memory. -/
structure Inv (env : Env α) (s : St α) : Prop where
  obj : ∀ x o, s.objs x = some o → ObjOk env s.blocks o
  uniq : ∀ x y o o' b, s.objs x = some o → s.objs y = some o' → o.ptr = some b → o'.ptr = some b → x = y

/-- Every live block belongs to a variable. -/
def NoLeak (s : St α) : Prop := ∀ b cs, s.blocks[b]? = some (.live cs) → ∃ x o, s.objs x = some o ∧ o.ptr = some b

/-- A command does what it should: it keeps the invariants, or throws and has changed nothing. -/
def Good (env : Env α) (s : St α) (tidy : Prop) (r : Res α Unit) : Prop :=
  match r with
  | .ok _ s' => Inv env s' ∧ (tidy → NoLeak s → NoLeak s')
  | .throw _ s' => s'.objs = s.objs ∧ s'.blocks = s.blocks
  | .ub k => k = .badObject

/-- The blocks after the memory of `x` was released. -/
def freedOf (s : St α) (x : Nat) : List (Block α) :=
  match (s.objs x).bind Obj.ptr with
  | some b => s.blocks.set b .freed
  | none => s.blocks

/-- Variable `x` gets a new block with the cells `cs` in place of its memory. -/
def grow (s : St α) (x : Nat) (cs : List (Option α)) : St α :=
  ⟨freedOf s x ++ [.live cs], s.calls + 1, fun y => if y = x then some ⟨some s.blocks.length, cs.length, true⟩ else s.objs y⟩

theorem freedOf_length (s : St α) (x : Nat) : (freedOf s x).length = s.blocks.length := by
  unfold freedOf; split <;> simp

theorem freedOf_get (s : St α) (x : Nat) {b : Nat} (h : (s.objs x).bind Obj.ptr ≠ some b) :
    (freedOf s x)[b]? = s.blocks[b]? := by
  unfold freedOf
  split
  · next b' hb' =>
    rw [List.getElem?_set_ne]
    intro e; subst e; exact h hb'
  · rfl

theorem freedOf_live {s : St α} {x b : Nat} {cs : List (Option α)} (h : (freedOf s x)[b]? = some (.live cs)) :
    s.blocks[b]? = some (.live cs) ∧ (s.objs x).bind Obj.ptr ≠ some b := by
  by_cases hb : (s.objs x).bind Obj.ptr = some b
  · exfalso
    unfold freedOf at h
    rw [hb] at h
    simp only [List.getElem?_set] at h
    split at h
    · split at h <;> simp at h
    · contradiction
  · rw [freedOf_get s x hb] at h
    exact ⟨h, hb⟩

theorem get_append_left {l : List (Block α)} {x : Block α} {b : Nat} {y : Block α} (h : l[b]? = some y) :
    (l ++ [x])[b]? = some y := by
  have hb : b < l.length := (List.getElem?_eq_some_iff.1 h).1
  rw [List.getElem?_append_left hb, h]

theorem inv_lt {env : Env α} {s : St α} (h : Inv env s) {x : Nat} {o : Obj} {b : Nat} (ho : s.objs x = some o) (hb : o.ptr = some b) :
    b < s.blocks.length := by
  rcases h.obj x o ho with h1 | ⟨b', cs, h1, h2, -⟩
  · rw [h1.1] at hb; cases hb
  · rw [h1] at hb; cases hb
    exact (List.getElem?_eq_some_iff.1 h2).1

theorem inv_grow {env : Env α} {s : St α} (h : Inv env s) {x : Nat} {cs : List (Option α)} (hn : cs.length ≠ 0)
    (hb : cs.length * env.esize < 2 ^ 64) (hc : env.fresh.isSome = true → ∀ c ∈ cs, c.isSome = true) : Inv env (grow s x cs) := by
  have hnew : ∀ {y o b}, s.objs y = some o → o.ptr = some b → b ≠ s.blocks.length := fun ho hb =>
    Nat.ne_of_lt (inv_lt h ho hb)
  constructor
  · intro y o ho
    simp only [grow] at ho ⊢
    split at ho
    · injection ho with ho
      subst ho
      refine Or.inr ⟨s.blocks.length, cs, rfl, ?_, rfl, hn, rfl, hb, hc⟩
      rw [List.getElem?_append_right (by simp [freedOf_length]), freedOf_length]
      simp
    · next hyx =>
      rcases h.obj y o ho with h1 | ⟨b, cs', h1, h2, h3⟩
      · exact Or.inl h1
      · refine Or.inr ⟨b, cs', h1, ?_, h3⟩
        apply get_append_left
        rw [freedOf_get, h2]
        intro hxb
        cases hx : s.objs x with
        | none => rw [hx] at hxb; cases hxb
        | some ox =>
          rw [hx] at hxb
          exact hyx (h.uniq y x o ox b ho hx h1 hxb)
  · intro y z o o' b hy hz hb1 hb2
    simp only [grow] at hy hz
    split at hy <;> split at hz
    · next h1 h2 => rw [h1, h2]
    · injection hy with hy; subst hy
      injection hb1 with hb1; subst hb1
      exact absurd rfl (hnew hz hb2)
    · injection hz with hz; subst hz
      injection hb2 with hb2; subst hb2
      exact absurd rfl (hnew hy hb1)
    · exact h.uniq y z o o' b hy hz hb1 hb2

theorem noLeak_grow {s : St α} (h : NoLeak s) (x : Nat) (cs : List (Option α)) : NoLeak (grow s x cs) := by
  intro b cs' hb
  simp only [grow] at hb ⊢
  by_cases hlt : b < (freedOf s x).length
  · rw [List.getElem?_append_left hlt] at hb
    obtain ⟨h1, h2⟩ := freedOf_live hb
    obtain ⟨y, o, hy, ho⟩ := h b cs' h1
    refine ⟨y, o, ?_, ho⟩
    have hyx : y ≠ x := by
      intro e; subst e
      rw [hy] at h2
      exact h2 ho
    simp [hyx, hy]
  · have hle : (freedOf s x).length ≤ b := by omega
    rw [List.getElem?_append_right hle] at hb
    have : b - (freedOf s x).length = 0 := by
      cases hk : b - (freedOf s x).length with
      | zero => rfl
      | succ k => rw [hk] at hb; simp at hb
    have hbl : b = s.blocks.length := by rw [freedOf_length] at hle this; omega
    exact ⟨x, ⟨some s.blocks.length, cs.length, true⟩, by simp, by simp [hbl]⟩

/-- Block `b` gets the cells `cs`. -/
def fill (s : St α) (b : Nat) (cs : List (Option α)) : St α := { s with blocks := s.blocks.set b (.live cs) }

theorem fill_get {s : St α} {b : Nat} {cs cs' : List (Option α)} (h : s.blocks[b]? = some (.live cs)) (c : Nat) :
    (fill s b cs').blocks[c]? = if c = b then some (.live cs') else s.blocks[c]? := by
  have hb := (List.getElem?_eq_some_iff.1 h).1
  simp only [fill, List.getElem?_set]
  by_cases hc : b = c
  · subst hc; simp [hb]
  · simp [hc, Ne.symm hc]

theorem inv_fill {env : Env α} {s : St α} (h : Inv env s) {b : Nat} {cs cs' : List (Option α)} (hb : s.blocks[b]? = some (.live cs))
    (hl : cs'.length = cs.length) (hc : env.fresh.isSome = true → ∀ c ∈ cs', c.isSome = true) : Inv env (fill s b cs') := by
  constructor
  · intro y o ho
    rcases h.obj y o ho with h1 | ⟨b', cs₁, h1, h2, h3, h4⟩
    · exact Or.inl h1
    · by_cases e : b' = b
      · subst e
        rw [hb] at h2
        cases h2
        refine Or.inr ⟨b', cs', h1, ?_, by omega, h4.1, h4.2.1, h4.2.2.1, hc⟩
        rw [fill_get hb]; simp
      · refine Or.inr ⟨b', cs₁, h1, ?_, h3, h4⟩
        rw [fill_get hb]; simp [e, h2]
  · exact h.uniq

theorem noLeak_fill {s : St α} (h : NoLeak s) {b : Nat} {cs cs' : List (Option α)} (hb : s.blocks[b]? = some (.live cs)) :
    NoLeak (fill s b cs') := by
  intro c cs₁ hc
  rw [fill_get hb] at hc
  split at hc
  · next e => subst e; exact h c cs hb
  · exact h c cs₁ hc

theorem bind_def (x : SM α β) (f : β → SM α γ) (s : St α) :
    (x >>= f) s = match x s with
      | .ok b s' => f b s'
      | .throw e s' => .throw e s'
      | .ub k => .ub k := rfl

theorem pure_def (b : β) (s : St α) : (pure b : SM α β) s = .ok b s := rfl

theorem assert_true (env : Env α) (s : St α) : assertThat env true s = .ok () s := by simp [assertThat]

theorem getObj_some {s : St α} {x : Nat} {o : Obj} (h : s.objs x = some o) : getObj x s = .ok o s := by simp [getObj, h]

theorem getObj_none {s : St α} {x : Nat} (h : s.objs x = none) : getObj x s = .ub .badObject := by simp [getObj, h]

/-- The state after a successful request. -/
def push (s : St α) (cs : List (Option α)) : St α := { s with blocks := s.blocks ++ [.live cs], calls := s.calls + 1 }

theorem bytes_eq {env : Env α} {n : Nat} (h : n * env.esize < 2 ^ 64) : bytes env n = n * env.esize := Nat.mod_eq_of_lt h

theorem alloc_ok {env : Env α} (he : 0 < env.esize) {n : Nat} (hn : n ≠ 0) (hb : n * env.esize < 2 ^ 64) {s : St α}
    (hf : env.fails s.calls (n * env.esize) = false) :
    safeAllocate env n s = .ok (some s.blocks.length) (push s (List.replicate n env.fresh)) := by
  have hd : n * env.esize / env.esize = n := Nat.mul_div_cancel n he
  simp [safeAllocate, hn, bytes_eq hb, hf, hd, push]

theorem alloc_fail {env : Env α} (ha : env.asserts = true) {n : Nat} (hn : n ≠ 0) (hb : n * env.esize < 2 ^ 64) {s : St α}
    (hf : env.fails s.calls (n * env.esize) = true) :
    safeAllocate env n s = .throw .assertion { s with calls := s.calls + 1 } := by
  simp [safeAllocate, hn, bytes_eq hb, hf, ha]

theorem alloc_zero (env : Env α) (s : St α) : safeAllocate env 0 s = .ok none s := by simp [safeAllocate]

theorem copyInto_ok {env : Env α} {s : St α} {b : Nat} {cs vals : List (Option α)} (hb : s.blocks[b]? = some (.live cs))
    (hl : vals.length ≤ cs.length) (hc : env.fresh.isSome = true → ∀ c ∈ cs, c.isSome = true) :
    copyInto env (some b) vals s = .ok () (fill s b (vals ++ cs.drop vals.length)) := by
  simp only [copyInto, hb, fill]
  rw [if_neg (by omega)]
  by_cases hf : env.fresh.isSome = true
  · have : (cs.take vals.length).all Option.isSome = true := by
      rw [List.all_eq_true]
      intro c hcm
      exact hc hf c (List.mem_of_mem_take hcm)
    simp [this]
  · simp [hf]

theorem dealloc_ok {env : Env α} {s : St α} {b n : Nat} {cs : List (Option α)} (hb : s.blocks[b]? = some (.live cs))
    (hl : cs.length = n) (hc : env.fresh.isSome = true → ∀ c ∈ cs, c.isSome = true) :
    safeDeallocate env (some b) n s = .ok () { s with blocks := s.blocks.set b .freed } := by
  simp only [safeDeallocate, hb]
  by_cases hf : env.fresh.isSome = true
  · have : cs.all Option.isSome = true := by
      rw [List.all_eq_true]; exact hc hf
    simp [this, hl]
  · simp [hf]

theorem get_new (s : St α) (cs : List (Option α)) : (push s cs).blocks[s.blocks.length]? = some (.live cs) := by
  simp [push]

theorem fill_new (s : St α) (cs cs' : List (Option α)) : fill (push s cs) s.blocks.length cs' = push s cs' := by
  simp [fill, push]

theorem fresh_all {env : Env α} {n : Nat} : env.fresh.isSome = true → ∀ c ∈ List.replicate n env.fresh, c.isSome = true := by
  intro h c hc
  rw [List.eq_of_mem_replicate hc]; exact h

/-- Giving the memory of `push` to a variable without memory. -/
theorem put_push {s : St α} {x n : Nat} {cs : List (Option α)} (hx : (s.objs x).bind Obj.ptr = none) (hn : cs.length = n) :
    setObj x ⟨some s.blocks.length, n, true⟩ (push s cs) = .ok () (grow s x cs) := by
  subst hn
  simp [setObj, push, grow, freedOf, hx]

/-- Giving a variable no memory. -/
theorem good_put_null {env : Env α} {s : St α} (h : Inv env s) {x : Nat} (hx : (s.objs x).bind Obj.ptr = none) (w : Bool) (p : Prop) :
    Good env s p (setObj x ⟨none, 0, w⟩ s) := by
  refine ⟨⟨?_, ?_⟩, ?_⟩
  · intro y o ho
    simp only [] at ho
    split at ho
    · injection ho with ho; subst ho; exact Or.inl ⟨rfl, rfl⟩
    · exact h.obj y o ho
  · intro y z o o' b hy hz hb1 hb2
    simp only [] at hy hz
    split at hy <;> split at hz
    · next h1 h2 => rw [h1, h2]
    · injection hy with hy; subst hy; cases hb1
    · injection hz with hz; subst hz; cases hb2
    · exact h.uniq y z o o' b hy hz hb1 hb2
  · intro _ hl b cs hb
    obtain ⟨y, o, hy, ho⟩ := hl b cs hb
    refine ⟨y, o, ?_, ho⟩
    have : y ≠ x := by
      intro e; subst e
      rw [hy] at hx
      simp [ho] at hx
    simp [this, hy]

theorem good_grow {env : Env α} {s : St α} (h : Inv env s) {x : Nat} {cs : List (Option α)} (hn : cs.length ≠ 0)
    (hb : cs.length * env.esize < 2 ^ 64) (hc : env.fresh.isSome = true → ∀ c ∈ cs, c.isSome = true) (p : Prop) :
    Good env s p (.ok () (grow s x cs)) :=
  ⟨inv_grow h hn hb hc, fun _ hl => noLeak_grow hl x cs⟩

theorem good_ok {env : Env α} {s : St α} (h : Inv env s) (p : Prop) : Good env s p (.ok () s) := ⟨h, fun _ hl => hl⟩

theorem good_ctorSize {env : Env α} (ha : env.asserts = true) (he : 0 < env.esize) {s : St α} (h : Inv env s) {x n : Nat}
    (hx : s.objs x = none) (hb : n * env.esize < 2 ^ 64) (p : Prop) : Good env s p (ctorSize env x n s) := by
  unfold ctorSize
  rw [bind_def]
  by_cases hn : n = 0
  · subst hn
    rw [alloc_zero]
    exact good_put_null h (by simp [hx]) true p
  · cases hf : env.fails s.calls (n * env.esize) with
    | true => rw [alloc_fail ha hn hb hf]; exact ⟨rfl, rfl⟩
    | false =>
      rw [alloc_ok he hn hb hf]
      simp only []
      rw [put_push (by simp [hx]) (by simp)]
      exact good_grow h (by simpa using hn) (by simpa using hb) fresh_all p

theorem vals_into_new {env : Env α} {s : St α} {n : Nat} {vals : List (Option α)} (hl : vals.length = n) (hn : n ≠ 0) :
    fastCopyVals env (some s.blocks.length) vals (push s (List.replicate n env.fresh)) = .ok () (push s vals) := by
  have hv : vals ≠ [] := by
    intro e; subst e; exact hn hl.symm
  unfold fastCopyVals
  rw [if_neg hv, bind_def]
  simp only [Option.isSome_some, assert_true]
  rw [copyInto_ok (get_new s _) (by simp [hl]) fresh_all, fill_new]
  simp [hl]

theorem good_ctorVals {env : Env α} (ha : env.asserts = true) (he : 0 < env.esize) {s : St α} (h : Inv env s) {x n : Nat}
    {vals : List (Option α)} (hl : vals.length = n) (hv : ∀ c ∈ vals, c.isSome = true) (hx : s.objs x = none)
    (hb : n * env.esize < 2 ^ 64) (p : Prop) :
    Good env s p ((safeAllocate env n >>= fun q => fastCopyVals env q vals >>= fun _ => setObj x ⟨q, n, true⟩) s) := by
  rw [bind_def]
  by_cases hn : n = 0
  · subst hn
    have : vals = [] := List.length_eq_zero_iff.1 hl
    subst this
    rw [alloc_zero]
    exact good_put_null h (by simp [hx]) true p
  · cases hf : env.fails s.calls (n * env.esize) with
    | true => rw [alloc_fail ha hn hb hf]; exact ⟨rfl, rfl⟩
    | false =>
      rw [alloc_ok he hn hb hf]
      simp only [bind_def]
      rw [vals_into_new hl hn]
      simp only []
      rw [put_push (by simp [hx]) hl]
      exact good_grow h (by omega) (by rw [hl]; exact hb) (fun _ => hv) p

/-- Copying between two live blocks. -/
theorem fastCopy_ok {env : Env α} {s : St α} {b b' n : Nat} {cs cs' : List (Option α)} (hn : n ≠ 0)
    (hb : s.blocks[b]? = some (.live cs)) (hb' : s.blocks[b']? = some (.live cs')) (h1 : n ≤ cs.length) (h2 : n ≤ cs'.length)
    (hc : env.fresh.isSome = true → ∀ c ∈ cs, c.isSome = true) :
    fastCopy env (some b) (some b') n s = .ok () (fill s b (cs'.take n ++ cs.drop n)) := by
  unfold fastCopy
  rw [if_neg hn]
  simp only [bind_def, Option.isSome_some, assert_true, cellsAt, hb', boundsCheck, h2, decide_true, if_true]
  rw [copyInto_ok hb (by simp; omega) hc]
  simp [Nat.min_eq_left h2]

theorem good_initFrom {env : Env α} (ha : env.asserts = true) (he : 0 < env.esize) {s : St α} (h : Inv env s) {x y : Nat} {o o₀ : Obj}
    (hx : s.objs x = none) (hy : s.objs y = some o) (ho₀ : o.size = 0 → o₀ = ⟨none, 0, true⟩) (p : Prop) :
    Good env s p (initFrom env x o₀ o.ptr o.size s) := by
  unfold initFrom
  rcases h.obj y o hy with ⟨h1, h2⟩ | ⟨b, cs, h1, h2, h3, h4, h5, h6, h7⟩
  · rw [if_pos (Or.inl h1), ho₀ h2]
    exact good_put_null h (by simp [hx]) true p
  · rw [if_neg (by simp [h1, h4]), bind_def]
    cases hf : env.fails s.calls (o.size * env.esize) with
    | true => rw [alloc_fail ha h4 h6 hf]; exact ⟨rfl, rfl⟩
    | false =>
      rw [alloc_ok he h4 h6 hf, h1]
      simp only [bind_def]
      rw [fastCopy_ok h4 (get_new s _) (get_append_left h2) (by simp) (by omega) fresh_all, fill_new]
      have e : (List.take o.size cs ++ List.drop o.size (List.replicate o.size env.fresh)) = cs := by simp [← h3]
      rw [e]
      simp only []
      rw [put_push (by simp [hx]) h3]
      exact good_grow h (by omega) (by rw [h3]; exact h6) h7 p

theorem free_grow {s : St α} {x b n : Nat} {o : Obj} {cs : List (Option α)} (hx : s.objs x = some o) (hp : o.ptr = some b)
    (hb : b < s.blocks.length) (hn : cs.length = n) :
    ({ blocks := (s.blocks ++ [Block.live cs]).set b .freed, calls := s.calls + 1,
       objs := fun y => if y = x then some ⟨some s.blocks.length, n, true⟩ else s.objs y } : St α) = grow s x cs := by
  subst hn
  simp [grow, freedOf, hx, hp, List.set_append_left _ _ hb]

theorem good_resizeBody {env : Env α} (ha : env.asserts = true) (he : 0 < env.esize) {s : St α} (h : Inv env s) {x n : Nat} {o : Obj}
    (hx : s.objs x = some o) (hn : n ≠ 0) (hb : n * env.esize < 2 ^ 64) (p : Prop) : Good env s p (resizeBody env x n o s) := by
  unfold resizeBody
  rw [bind_def]
  cases hw : o.owns with
  | false =>
    simp only [assertThat, ha]
    exact ⟨rfl, rfl⟩
  | true =>
    rw [assert_true]
    simp only [bind_def]
    cases hf : env.fails s.calls (n * env.esize) with
    | true => rw [alloc_fail ha hn hb hf]; exact ⟨rfl, rfl⟩
    | false =>
      rw [alloc_ok he hn hb hf]
      rcases h.obj x o hx with ⟨h1, h2⟩ | ⟨b, cs, h1, h2, h3, h4, h5, h6, h7⟩
      · simp only []
        rw [put_push (by simp [hx, h1]) (by simp)]
        simp only [h1, h2, Nat.zero_min, fastCopy, if_true, pure_def, safeDeallocate]
        exact good_grow h (by simpa using hn) (by simpa using hb) fresh_all p
      · simp only [setObj, h1]
        have hbl := (List.getElem?_eq_some_iff.1 h2).1
        generalize hs1 : (St.mk (push s (List.replicate n env.fresh)).blocks (push s (List.replicate n env.fresh)).calls
          (fun y => if y = x then some (Obj.mk (some s.blocks.length) n true) else (push s (List.replicate n env.fresh)).objs y)) = s1
        have e1 : s1.blocks[s.blocks.length]? = some (.live (List.replicate n env.fresh)) := by
          rw [← hs1]; exact get_new s _
        have e2 : s1.blocks[b]? = some (.live cs) := by
          rw [← hs1]; exact get_append_left h2
        rw [fastCopy_ok (by omega) e1 e2 (by simp; omega) (by omega) fresh_all]
        simp only []
        generalize hcs' : (List.take (min o.size n) cs ++ List.drop (min o.size n) (List.replicate n env.fresh)) = cs'
        have hl : cs'.length = n := by rw [← hcs']; simp; omega
        have hall : env.fresh.isSome = true → ∀ c ∈ cs', c.isSome = true := by
          intro hfr c hcm
          rw [← hcs', List.mem_append] at hcm
          rcases hcm with hcm | hcm
          · exact h7 hfr c (List.mem_of_mem_take hcm)
          · exact fresh_all hfr c (List.mem_of_mem_drop hcm)
        have e3 : (fill s1 s.blocks.length cs').blocks[b]? = some (.live cs) := by
          rw [fill_get e1, if_neg (by omega), e2]
        rw [dealloc_ok e3 h3 h7]
        have e4 : St.mk ((fill s1 s.blocks.length cs').blocks.set b .freed) (fill s1 s.blocks.length cs').calls
            (fill s1 s.blocks.length cs').objs = grow s x cs' := by
          rw [← free_grow hx h1 hbl hl, ← hs1]
          simp [fill, push]
        rw [e4]
        exact good_grow h (by omega) (by rw [hl]; exact hb) hall p

theorem good_resizeDiscardBody {env : Env α} (ha : env.asserts = true) (he : 0 < env.esize) {s : St α} (h : Inv env s) {x n : Nat}
    {o : Obj} (hx : s.objs x = some o) (hn : n ≠ 0) (hb : n * env.esize < 2 ^ 64) (p : Prop) :
    Good env s p (resizeDiscardBody env x n o s) := by
  unfold resizeDiscardBody
  rw [bind_def]
  cases hw : o.owns with
  | false =>
    simp only [assertThat, ha]
    exact ⟨rfl, rfl⟩
  | true =>
    rw [assert_true]
    simp only [bind_def]
    cases hf : env.fails s.calls (n * env.esize) with
    | true => rw [alloc_fail ha hn hb hf]; exact ⟨rfl, rfl⟩
    | false =>
      rw [alloc_ok he hn hb hf]
      rcases h.obj x o hx with ⟨h1, h2⟩ | ⟨b, cs, h1, h2, h3, h4, h5, h6, h7⟩
      · simp only []
        rw [put_push (by simp [hx, h1]) (by simp)]
        simp only [h1, safeDeallocate]
        exact good_grow h (by simpa using hn) (by simpa using hb) fresh_all p
      · simp only [setObj, h1]
        have hbl := (List.getElem?_eq_some_iff.1 h2).1
        rw [dealloc_ok (b := b) (cs := cs) (get_append_left h2) h3 h7]
        have := free_grow hx h1 hbl (cs := List.replicate n env.fresh) (n := n) (by simp)
        simp only [push]
        rw [this]
        exact good_grow h (by simpa using hn) (by simpa using hb) fresh_all p

theorem reallocate_ok {env : Env α} (he : 0 < env.esize) {s : St α} (h : Inv env s) {x n : Nat} {o : Obj}
    (hx : s.objs x = some o) (hw : o.owns = true) (hne : o.size ≠ n) (hn : n ≠ 0) (hb : n * env.esize < 2 ^ 64)
    (hf : env.fails s.calls (n * env.esize) = false) :
    reallocate env x o n { s with objs := fun y => if y = x then some { o with size := n } else s.objs y } =
      .ok () (grow s x (List.replicate n env.fresh)) := by
  obtain ⟨t, ht⟩ : ∃ t : St α, t = { s with objs := fun y => if y = x then some { o with size := n } else s.objs y } := ⟨_, rfl⟩
  rw [← ht]
  have tb : t.blocks = s.blocks := by rw [ht]
  have tc : t.calls = s.calls := by rw [ht]
  have to : ∀ v, (fun y => if y = x then v else t.objs y) = fun y => if y = x then v else s.objs y := by
    intro v
    funext y
    split
    · rfl
    · next hy => rw [ht]; simp [hy]
  unfold reallocate
  rw [if_pos hne, if_pos hw, bind_def]
  rcases h.obj x o hx with ⟨h1, h2⟩ | ⟨b, cs, h1, h2, h3, h4, h5, h6, h7⟩
  · simp only [h1, safeDeallocate, bind_def]
    rw [alloc_ok (s := t) he hn hb (by rw [tc]; exact hf)]
    simp only [setObj, push, hw, to, tb, tc, grow, freedOf, hx, Option.bind_some, h1, List.length_replicate]
  · rw [h1, dealloc_ok (s := t) (b := b) (cs := cs) (by rw [tb]; exact h2) h3 h7]
    obtain ⟨u, hu⟩ : ∃ u : St α, u = { t with blocks := t.blocks.set b .freed } := ⟨_, rfl⟩
    have ub : u.blocks = s.blocks.set b .freed := by rw [hu, tb]
    have uc : u.calls = s.calls := by rw [hu, tc]
    have uo : u.objs = t.objs := by rw [hu]
    simp only [← hu, bind_def]
    rw [alloc_ok (s := u) he hn hb (by rw [uc]; exact hf)]
    simp only [setObj, push, hw, uo, to, ub, uc, grow, freedOf, hx, Option.bind_some, h1, List.length_replicate, List.length_set]

theorem good_assignBody {env : Env α} (he : 0 < env.esize) {s : St α} (h : Inv env s) {x y : Nat} {o o' : Obj} (hxy : x ≠ y)
    (hx : s.objs x = some o) (hy : s.objs y = some o') (hn : o'.size ≠ 0)
    (hs : o.size ≠ o'.size → o.owns = true ∧ env.fails s.calls (o'.size * env.esize) = false) (p : Prop) :
    Good env s p (assignBody env x o o' s) := by
  unfold assignBody
  rcases h.obj y o' hy with ⟨-, h2⟩ | ⟨b', cs', g1, g2, g3, g4, g5, g6, g7⟩
  · exact absurd h2 hn
  simp only [bind_def, setObj]
  by_cases hne : o.size = o'.size
  · rcases h.obj x o hx with ⟨-, h2⟩ | ⟨b, cs, h1, h2, h3, h4, h5, h6, h7⟩
    · exact absurd (hne ▸ h2) hn
    · have e : ({ blocks := s.blocks, calls := s.calls, objs := fun z => if z = x then some { o with size := o'.size } else s.objs z } :
          St α) = s := by
        have : (fun z => if z = x then some ({ o with size := o'.size } : Obj) else s.objs z) = s.objs := by
          funext z
          split
          · next e => subst e; rw [hx, ← hne]
          · rfl
        rw [this]
      rw [e]
      simp only [reallocate, hne, ne_eq, not_true, if_false, pure_def, getObj_some hx, h1, g1]
      rw [fastCopy_ok hn h2 g2 (by omega) (by omega) h7]
      have hl : (List.take o'.size cs' ++ List.drop o'.size cs).length = cs.length := by simp; omega
      have e : (List.take o'.size cs' ++ List.drop o'.size cs) = cs' := by
        rw [List.drop_of_length_le (by omega), List.take_of_length_le (by omega), List.append_nil]
      refine ⟨inv_fill h h2 hl ?_, fun _ hl => noLeak_fill hl h2⟩
      rw [e]; exact g7
  · obtain ⟨hw, hf⟩ := hs hne
    have hr := reallocate_ok he h hx hw hne hn g6 hf
    rw [hr]
    have e0 : (grow s x (List.replicate o'.size env.fresh)).objs x = some ⟨some s.blocks.length, o'.size, true⟩ := by simp [grow]
    simp only []
    rw [getObj_some e0]
    simp only [g1]
    have e1 : (grow s x (List.replicate o'.size env.fresh)).blocks[s.blocks.length]? =
        some (.live (List.replicate o'.size env.fresh)) := by
      simp only [grow]
      rw [List.getElem?_append_right (by simp [freedOf_length]), freedOf_length]
      simp
    have e2 : (grow s x (List.replicate o'.size env.fresh)).blocks[b']? = some (.live cs') := by
      simp only [grow]
      apply get_append_left
      rw [freedOf_get, g2]
      rw [hx]
      intro hc
      exact hxy (h.uniq x y o o' b' hx hy hc g1)
    rw [fastCopy_ok hn e1 e2 (by simp) (by omega) fresh_all]
    have hI := inv_grow h (x := x) (cs := List.replicate o'.size env.fresh) (by simpa using hn) (by simpa using g6) fresh_all
    have e : (List.take o'.size cs' ++ List.drop o'.size (List.replicate o'.size env.fresh)) = cs' := by simp [← g3]
    rw [e]
    exact ⟨inv_fill hI e1 (by simp [g3]) g7, fun _ hl => noLeak_fill (noLeak_grow hl x _) e1⟩

/-- Moving the members of `y` to `x`, which has no memory. -/
theorem inv_move {env : Env α} {s : St α} (h : Inv env s) {x y : Nat} {o : Obj} (hxy : x ≠ y) (hy : s.objs y = some o) :
    Inv env { s with objs := fun z => if z = y then some ⟨none, 0, false⟩ else if z = x then some o else s.objs z } := by
  have key : ∀ z oz b, (if z = y then some (⟨none, 0, false⟩ : Obj) else if z = x then some o else s.objs z) = some oz →
      oz.ptr = some b → ∃ z', s.objs z' = some oz ∧ z ≠ y ∧ ((z = x ∧ z' = y) ∨ (z ≠ x ∧ z' = z)) := by
    intro z oz b hz hb
    split at hz
    · injection hz with hz; subst hz; cases hb
    · next h1 =>
      split at hz
      · next h2 => injection hz with hz; subst hz; exact ⟨y, hy, h1, Or.inl ⟨h2, rfl⟩⟩
      · next h2 => exact ⟨z, hz, h1, Or.inr ⟨h2, rfl⟩⟩
  constructor
  · intro z oz hz
    simp only [] at hz ⊢
    split at hz
    · injection hz with hz; subst hz; exact Or.inl ⟨rfl, rfl⟩
    · split at hz
      · injection hz with hz; subst hz; exact h.obj y o hy
      · exact h.obj z oz hz
  · intro z w oz ow b hz hw hb1 hb2
    simp only [] at hz hw
    obtain ⟨z', hz', hzy, hzc⟩ := key z oz b hz hb1
    obtain ⟨w', hw', hwy, hwc⟩ := key w ow b hw hb2
    have := h.uniq z' w' oz ow b hz' hw' hb1 hb2
    rcases hzc with ⟨a1, a2⟩ | ⟨a1, a2⟩ <;> rcases hwc with ⟨c1, c2⟩ | ⟨c1, c2⟩ <;> subst_vars <;> first | rfl | contradiction

theorem noLeak_move {s : St α} (h : NoLeak s) {x y : Nat} {o : Obj} (hxy : x ≠ y) (hy : s.objs y = some o)
    (hx : (s.objs x).bind Obj.ptr = none) :
    NoLeak { s with objs := fun z => if z = y then some ⟨none, 0, false⟩ else if z = x then some o else s.objs z } := by
  intro b cs hb
  obtain ⟨z, oz, hz, hp⟩ := h b cs hb
  by_cases hzy : z = y
  · subst hzy
    rw [hy] at hz
    cases hz
    exact ⟨x, o, by simp [hxy], hp⟩
  · have hzx : z ≠ x := by
      intro e; subst e
      rw [hz] at hx
      simp [hp] at hx
    exact ⟨z, oz, by simp [hzy, hzx, hz], hp⟩

theorem good_dtor {env : Env α} {s : St α} (h : Inv env s) {x : Nat} {o : Obj} (hx : s.objs x = some o) (p : Prop) :
    Good env s p ((release env o >>= fun _ => dropObj x) s) := by
  have hrest : ∀ bs : List (Block α), (∀ y oy, y ≠ x → s.objs y = some oy → ∀ b, oy.ptr = some b → bs[b]? = s.blocks[b]?) →
      (∀ b cs, bs[b]? = some (.live cs) → s.blocks[b]? = some (.live cs) ∧ o.ptr ≠ some b) →
      Good env s p (.ok () ⟨bs, s.calls, fun y => if y = x then none else s.objs y⟩) := by
    intro bs h1 h2
    refine ⟨⟨?_, ?_⟩, ?_⟩
    · intro y oy hy
      simp only [] at hy ⊢
      split at hy
      · cases hy
      · next hyx =>
        rcases h.obj y oy hy with g | ⟨b, cs, g1, g2, g3⟩
        · exact Or.inl g
        · exact Or.inr ⟨b, cs, g1, by rw [h1 y oy hyx hy b g1, g2], g3⟩
    · intro y z oy oz b hy hz hb1 hb2
      simp only [] at hy hz
      split at hy
      · cases hy
      · split at hz
        · cases hz
        · exact h.uniq y z oy oz b hy hz hb1 hb2
    · intro _ hl b cs hb
      obtain ⟨g1, g2⟩ := h2 b cs hb
      obtain ⟨y, oy, hy, hp⟩ := hl b cs g1
      refine ⟨y, oy, ?_, hp⟩
      have : y ≠ x := by
        intro e; subst e
        rw [hx] at hy
        cases hy
        exact g2 hp
      simp [this, hy]
  unfold release
  rw [bind_def]
  rcases h.obj x o hx with ⟨h1, h2⟩ | ⟨b, cs, h1, h2, h3, h4, h5, h6, h7⟩
  · have : (if o.owns = true then safeDeallocate env o.ptr o.size else pure ()) s = .ok () s := by
      split
      · rw [h1]; rfl
      · rfl
    rw [this]
    exact hrest s.blocks (fun _ _ _ _ _ _ => rfl) (fun b cs hb => ⟨hb, by rw [h1]; simp⟩)
  · rw [if_pos h5, h1, dealloc_ok h2 h3 h7]
    refine hrest (s.blocks.set b .freed) ?_ ?_
    · intro y oy hyx hy c hc
      rw [List.getElem?_set_ne]
      intro e; subst e
      exact hyx (h.uniq y x oy o b hy hx hc h1)
    · intro c cs' hc
      have hne : b ≠ c := by
        intro e; subst e
        rw [List.getElem?_set_self (List.getElem?_eq_some_iff.1 h2).1] at hc
        cases hc
      rw [List.getElem?_set_ne hne] at hc
      exact ⟨hc, by rw [h1]; simpa using hne⟩

theorem assert_throw {env : Env α} (ha : env.asserts = true) (s : St α) : assertThat env false s = .throw .assertion s := by
  simp [assertThat, ha]

theorem good_exec {env : Env α} (ha : env.asserts = true) (he : 0 < env.esize) {s : St α} (h : Inv env s) {c : Cmd α}
    (hnew : ∀ x, c.creates = some x → s.objs x = none) (hz : c.Sized env) (hs : c.Supplied env s) :
    Good env s (c.Tidy s) (exec env c s) := by
  cases c with
  | ctorDefault x => exact good_put_null h (by simp [hnew x rfl]) true _
  | ctorSize x n => exact good_ctorSize ha he h (hnew x rfl) hz _
  | ctorFill x n v =>
    exact good_ctorVals ha he h (by simp) (by intro c hc; rw [List.eq_of_mem_replicate hc]; rfl) (hnew x rfl) hz _
  | ctorList x vals =>
    exact good_ctorVals ha he h (by simp) (by intro c hc; obtain ⟨a, -, rfl⟩ := List.mem_map.1 hc; rfl) (hnew x rfl) hz _
  | ctorCopy x y =>
    simp only [exec, ctorCopy]
    rw [bind_def]
    cases hy : s.objs y with
    | none => rw [getObj_none hy]; exact rfl
    | some o =>
      rw [getObj_some hy]
      exact good_initFrom ha he h (hnew x rfl) hy (by intro e; rw [e]) _
  | copyOf x y =>
    simp only [exec, copyOf]
    rw [bind_def]
    cases hy : s.objs y with
    | none => rw [getObj_none hy]; exact rfl
    | some o =>
      rw [getObj_some hy]
      exact good_initFrom ha he h (hnew x rfl) hy (fun _ => rfl) _
  | ctorMove x y =>
    simp only [exec, ctorMove]
    rw [bind_def]
    cases hy : s.objs y with
    | none => rw [getObj_none hy]; exact rfl
    | some o =>
      rw [getObj_some hy]
      have hx := hnew x rfl
      have hxy : x ≠ y := by intro e; subst e; rw [hx] at hy; cases hy
      exact ⟨inv_move h hxy hy, fun _ hl => noLeak_move hl hxy hy (by simp [hx])⟩
  | assignCopy x y =>
    simp only [exec, assignCopy]
    simp only [bind_def]
    cases hx : s.objs x with
    | none => rw [getObj_none hx]; exact rfl
    | some o =>
      rw [getObj_some hx]
      simp only []
      cases hy : s.objs y with
      | none => rw [getObj_none hy]; exact rfl
      | some o' =>
        rw [getObj_some hy]
        simp only []
        split
        · exact good_ok h _
        · next hc =>
          have hxy : x ≠ y := fun e => hc (Or.inl e)
          have hn : o'.size ≠ 0 := fun e => hc (Or.inr e)
          exact good_assignBody he h hxy hx hy hn (hs o o' hx hy hn) _
  | assignMove x y =>
    simp only [exec, assignMove]
    simp only [bind_def]
    cases hx : s.objs x with
    | none => rw [getObj_none hx]; exact rfl
    | some o =>
      rw [getObj_some hx]
      simp only []
      cases hy : s.objs y with
      | none => rw [getObj_none hy]; exact rfl
      | some o' =>
        rw [getObj_some hy]
        simp only []
        split
        · exact good_ok h _
        · next hxy =>
          refine ⟨inv_move h hxy hy, fun ht hl => noLeak_move hl hxy hy ?_⟩
          rcases ht with ht | ht
          · exact absurd ht hxy
          · simp [hx, ht o hx]
  | dtor x =>
    simp only [exec, dtor]
    rw [bind_def]
    cases hx : s.objs x with
    | none => rw [getObj_none hx]; exact rfl
    | some o =>
      rw [getObj_some hx]
      exact good_dtor h hx _
  | resize x n =>
    simp only [exec, resize]
    simp only [bind_def]
    cases hx : s.objs x with
    | none => rw [getObj_none hx]; exact rfl
    | some o =>
      rw [getObj_some hx]
      simp only []
      by_cases hn : 0 < n
      · simp only [hn, decide_true, assert_true]
        split
        · exact good_ok h _
        · exact good_resizeBody ha he h hx (by omega) hz _
      · simp only [hn, decide_false, assert_throw ha]
        exact ⟨rfl, rfl⟩
  | resizeDiscard x n =>
    simp only [exec, resizeDiscard]
    simp only [bind_def]
    cases hx : s.objs x with
    | none => rw [getObj_none hx]; exact rfl
    | some o =>
      rw [getObj_some hx]
      simp only []
      by_cases hn : 0 < n
      · simp only [hn, decide_true, assert_true]
        split
        · exact good_ok h _
        · exact good_resizeDiscardBody ha he h hx (by omega) hz _
      · simp only [hn, decide_false, assert_throw ha]
        exact ⟨rfl, rfl⟩
  | read x i =>
    simp only [exec, readAt]
    simp only [bind_def]
    cases hx : s.objs x with
    | none => rw [getObj_none hx]; exact rfl
    | some o =>
      rw [getObj_some hx]
      simp only []
      by_cases hi : i < o.size
      · simp only [hi, decide_true, assert_true]
        rcases h.obj x o hx with ⟨h1, h2⟩ | ⟨b, cs, h1, h2, h3, h4, h5, h6, h7⟩
        · omega
        · simp only [h1, cellsAt, h2, elemAt]
          rw [List.getElem?_eq_getElem (by omega)]
          exact good_ok h _
      · simp only [hi, decide_false, assert_throw ha]
        exact ⟨rfl, rfl⟩
  | write x i v =>
    simp only [exec, writeAt]
    simp only [bind_def]
    cases hx : s.objs x with
    | none => rw [getObj_none hx]; exact rfl
    | some o =>
      rw [getObj_some hx]
      simp only []
      by_cases hi : i < o.size
      · simp only [hi, decide_true, assert_true]
        rcases h.obj x o hx with ⟨h1, h2⟩ | ⟨b, cs, h1, h2, h3, h4, h5, h6, h7⟩
        · omega
        · simp only [h1, setAt, h2]
          rw [if_neg (by omega)]
          have hsome : ¬ ((env.fresh.isSome && !((cs[i]?.getD none).isSome)) = true) := by
            rw [Bool.and_eq_true]
            rintro ⟨a1, a2⟩
            rw [List.getElem?_eq_getElem (by omega)] at a2
            have := h7 a1 cs[i] (List.getElem_mem _)
            simp [this] at a2
          rw [if_neg hsome]
          refine ⟨inv_fill h h2 (by simp) ?_, fun _ hl => noLeak_fill hl h2⟩
          intro hfr c hc
          rcases List.mem_or_eq_of_mem_set hc with hc | hc
          · exact h7 hfr c hc
          · rw [hc]; rfl
      · simp only [hi, decide_false, assert_throw ha]
        exact ⟨rfl, rfl⟩

theorem inv_init (env : Env α) : Inv env (init : St α) := ⟨fun _ _ h => (by cases h), fun _ _ _ _ _ h => (by cases h)⟩

theorem noLeak_init : NoLeak (init : St α) := fun b cs h => by simp [init] at h

theorem inv_of_eq {env : Env α} {s s' : St α} (h : Inv env s) (ho : s'.objs = s.objs) (hb : s'.blocks = s.blocks) : Inv env s' :=
  ⟨by rw [ho, hb]; exact h.obj, by rw [ho]; exact h.uniq⟩

/-- One command of a program. -/
theorem step_cases {env : Env α} (ha : env.asserts = true) (he : 0 < env.esize) {s : St α} (h : Inv env s) {c : Cmd α}
    (hz : c.Sized env) (hs : c.Supplied env s) :
    step env c s = .ub .badObject ∨ ∃ s', step env c s = .ok () s' ∧ Inv env s' ∧ (c.Tidy s → NoLeak s → NoLeak s') := by
  unfold step
  rw [bind_def]
  by_cases hnew : ∀ x, c.creates = some x → s.objs x = none
  · have hc : checkNew c s = .ok () s := by
      unfold checkNew
      cases hx : c.creates with
      | none => rfl
      | some x => simp [hnew x hx]
    rw [hc]
    have hg := good_exec ha he h hnew hz hs
    simp only [caught]
    cases hr : exec env c s with
    | ok u s' => rw [hr] at hg; exact Or.inr ⟨s', rfl, hg⟩
    | throw e s' =>
      rw [hr] at hg
      refine Or.inr ⟨s', rfl, inv_of_eq h hg.1 hg.2, fun _ hl => ?_⟩
      intro b cs hb
      rw [hg.2] at hb
      rw [hg.1]
      exact hl b cs hb
    | ub k => rw [hr] at hg; exact Or.inl (by rw [show k = .badObject from hg])
  · left
    have : ∃ x, c.creates = some x ∧ s.objs x ≠ none := by
      by_cases hex : ∃ x, c.creates = some x ∧ s.objs x ≠ none
      · exact hex
      · exact absurd (fun x hx => Classical.not_not.1 fun hne => hex ⟨x, hx, hne⟩) hnew
    obtain ⟨x, hx, hne⟩ := this
    have hc : checkNew c s = .ub .badObject := by
      unfold checkNew
      rw [hx]
      cases hxs : s.objs x with
      | none => exact absurd hxs hne
      | some o => simp [hxs]
    rw [hc]

theorem run_cases {env : Env α} (ha : env.asserts = true) (he : 0 < env.esize) :
    ∀ (cs : List (Cmd α)) (s : St α), Inv env s → (∀ c ∈ cs, c.Sized env) → SuppliedRun env cs s →
      runAll env cs s = .ub .badObject ∨
        ∃ s', runAll env cs s = .ok () s' ∧ Inv env s' ∧ (TidyRun env cs s → NoLeak s → NoLeak s')
  | [], s, h, _, _ => Or.inr ⟨s, rfl, h, fun _ hl => hl⟩
  | c :: cs, s, h, hz, hs => by
    rcases step_cases ha he h (hz c (List.mem_cons_self ..)) hs.1 with h1 | ⟨s', h1, h2, h3⟩
    · left
      simp only [runAll]
      rw [bind_def, h1]
    · rcases run_cases ha he cs s' h2 (fun c' hc' => hz c' (List.mem_cons_of_mem _ hc')) (hs.2 s' h1) with g | ⟨s'', g1, g2, g3⟩
      · left
        simp only [runAll]
        rw [bind_def, h1]
        exact g
      · refine Or.inr ⟨s'', ?_, g2, fun ht hl => g3 (ht.2 s' h1) (h3 ht.1 hl)⟩
        simp only [runAll]
        rw [bind_def, h1]
        exact g1

theorem supplied_of_noCopy {env : Env α} : ∀ (cs : List (Cmd α)) (s : St α), (∀ c ∈ cs, c.NoCopyAssign) → SuppliedRun env cs s
  | [], _, _ => trivial
  | c :: cs, s, h => by
    refine ⟨?_, fun s' _ => supplied_of_noCopy cs s' (fun c' hc' => h c' (List.mem_cons_of_mem _ hc'))⟩
    have := h c (List.mem_cons_self ..)
    cases c <;> first | trivial | exact absurd this id

end Verif.StorageOom
