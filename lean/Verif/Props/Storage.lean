import Verif.Lemmas.StorageOps

/-! Property theorems for storages (C25 - C28, C62). -/

namespace Verif.StorageM

variable {α : Type}

theorem inv_init : Inv (init : St α) := ⟨by intro _ _ _ h; simp [init] at h, by intro _ _ _ _ _ h; simp [init] at h⟩

theorem own_init : Own [] (init : St α) := ⟨by intro _ _ _ h; simp [init] at h, by intro _ _ h; simp [LiveAt, init] at h⟩

theorem sat_checkNew {c : Cmd α} {s : St α} {Q : Unit → St α → Prop} {E : St α → Prop}
    (h : (∀ x, c.creates = some x → s.objs x = none) → Q () s) : Sat (checkNew c s) Q E := by
  unfold checkNew
  cases hx : c.creates with
  | none => exact h (by simp [hx])
  | some x =>
    simp only
    split
    · exact ⟨by simp, by simp⟩
    · rename_i hs
      apply h
      intro y hy
      rw [hx] at hy
      injection hy with hy
      subst hy
      simpa using hs

theorem sat_caught {x : SM α Unit} {s : St α} {Q : Unit → St α → Prop} {E : St α → Prop} (h : Sat (x s) Q (Q ())) :
    Sat (caught x s) Q E := by
  unfold caught
  cases hx : x s <;> rw [hx] at h <;> exact h

/-- Programs over owning storages keep the invariant and never free twice or use freed memory. -/
theorem runAll_good {asserts : Bool} {cs : List (Cmd α)} (hc : ∀ c ∈ cs, c.Owning) {s : St α} (h : Inv s) :
    Sat (runAll asserts cs s) (fun _ => Inv) (fun _ => False) := by
  induction cs generalizing s with
  | nil => exact h
  | cons c cs ih =>
    apply sat_bind
    apply sat_checkNew
    intro hf
    apply sat_bind
    apply sat_caught
    refine sat_mono (exec_good (asserts := asserts) (hc c (by simp)) h hf) ?_ ?_
    · intro _ s' g
      exact ih (fun c' hc' => hc c' (by simp [hc'])) g.inv
    · intro s' g
      exact ih (fun c' hc' => hc c' (by simp [hc'])) g.inv

theorem reachable_inv {asserts : Bool} {s : St α} (h : Reachable asserts s) : Inv s := by
  obtain ⟨cs, hc, hr⟩ := h
  have := runAll_good (asserts := asserts) hc (inv_init (α := α))
  rw [hr] at this
  exact this

/-! ### C26 -/

/-- **C26**, first part: no program over owning storages, with assertions on or off, frees an allocation twice or uses one after
it was freed. Exceptions may be caught anywhere. -/
theorem C26_no_double_free (asserts : Bool) (cs : List (Cmd α)) (hc : ∀ c ∈ cs, c.Owning) :
    runAll asserts cs init ≠ .ub .doubleFree ∧ runAll asserts cs init ≠ .ub .useAfterFree := by
  have := runAll_good (asserts := asserts) hc (inv_init (α := α))
  constructor <;> intro h <;> rw [h] at this
  · exact this.1 rfl
  · exact this.2 rfl

/-- What reading `y[i]` does, apart from the state. -/
def readOutcome (asserts : Bool) (s : St α) (y i : Nat) : Out (Option α) :=
  match readAt asserts y i s with
  | .ok v _ => .ok v
  | .throw e _ => .throw e
  | .ub _ => .ub

theorem readOutcome_congr {asserts : Bool} {s s' : St α} {y : Nat} (hobj : s'.objs y = s.objs y)
    (hmem : ∀ o b, s.objs y = some o → o.ptr = some b → s'.blocks[b]? = s.blocks[b]?) (i : Nat) :
    readOutcome asserts s' y i = readOutcome asserts s y i := by
  unfold readOutcome readAt
  simp only [bind_def, getObj, hobj]
  cases ho : s.objs y with
  | none => rfl
  | some o =>
    simp only [assertThat]
    cases ha : (asserts && !decide (i < o.size)) with
    | true => rfl
    | false =>
      simp only [Bool.false_eq_true, if_false, cellsAt]
      cases hp : o.ptr with
      | none => rfl
      | some b =>
        simp only [hmem o b ho hp]
        cases s.blocks[b]? with
        | none => rfl
        | some blk =>
          cases blk with
          | freed => rfl
          | live cs =>
            simp only [elemAt]
            cases cs[i]? <;> rfl

/-- **C26**, second part: in every state a program over owning storages reaches, a command changes neither the size of, nor what
can be read through, any storage other than its target (and the source, if it is a move), whether it returns or throws. -/
theorem C26_independent {asserts : Bool} {s s' : St α} (hs : Reachable asserts s) {c : Cmd α} (hc : c.Owning)
    (hfresh : ∀ x, c.creates = some x → s.objs x = none)
    (he : exec asserts c s = .ok () s' ∨ ∃ e, exec asserts c s = .throw e s') {y : Nat} (hy : y ∉ c.changes) :
    sizeOf? s' y = sizeOf? s y ∧ ∀ i, readOutcome asserts s' y i = readOutcome asserts s y i := by
  have g := exec_good (asserts := asserts) hc (reachable_inv hs) hfresh
  have g' : Good s c.changes s' := by
    rcases he with he | ⟨e, he⟩ <;> rw [he] at g <;> exact g
  exact ⟨by simp [sizeOf?, g'.objs y hy], readOutcome_congr (g'.objs y hy) (fun o b ho hb => g'.mem y o b hy ho hb)⟩

/-- A storage on somebody else's memory is outside C26: without assertions, resizing it frees the owner's memory. -/
theorem C26_dependent_double_free :
    runAll (α := Nat) false [.ctorSize 0 3, .ctorDependent 1 0, .resize 1 5, .dtor 0] init = .ub .doubleFree := rfl

/-- What reading `y[i]` does after a program. -/
def readAfter (asserts : Bool) (cs : List (Cmd α)) (y i : Nat) : Out (Option α) :=
  match runAll asserts cs init with
  | .ok _ s => readOutcome asserts s y i
  | .throw e _ => .throw e
  | .ub _ => .ub

/-- A concrete program that meets the hypotheses: copies, moves, resizes and destroys. -/
example : readAfter (α := Nat) true [.ctorList 0 [1, 2, 3], .ctorCopy 1 0, .write 1 0 9, .resize 0 5, .ctorMove 2 0, .assignCopy 2 1,
    .read 2 0, .dtor 0, .dtor 1] 2 0 = .ok (some 9) := by decide +kernel

/-! ### C27 -/

/-- The full property C27: when all storages of a program have been destroyed, all memory has been freed. -/
def C27Claim : Prop :=
  ∀ (α : Type) (asserts : Bool) (cs : List (Cmd α)) (s : St α), (∀ c ∈ cs, c.Owning) → runAll asserts cs init = .ok () s →
    (∀ x, s.objs x = none) → ∀ b cells, ¬ LiveAt s b cells

/-- **C27** is false of the code: move assignment drops the target's old buffer without freeing it. -/
theorem C27_false : ¬ C27Claim := by
  intro h
  refine h Nat true [.ctorSize 0 3, .ctorSize 1 2, .assignMove 0 1, .dtor 0, .dtor 1] _ (by simp [Cmd.Owning]) rfl ?_ 0
    [none, none, none] rfl
  intro x
  by_cases h0 : x = 0
  · subst h0; rfl
  · by_cases h1 : x = 1
    · subst h1; rfl
    · simp [h0, h1, init]

/-- Also, without assertions, resizing a moved-from storage gives it memory that it will never free. -/
theorem C27_moved_false : ∃ s : St Nat, runAll false [.ctorSize 0 3, .ctorMove 1 0, .resize 0 2, .dtor 0, .dtor 1] init = .ok () s ∧
    s.objs 0 = none ∧ s.objs 1 = none ∧ LiveAt s 1 [none, none] := ⟨_, rfl, rfl, rfl, rfl⟩

theorem runAll_own {asserts : Bool} {cs : List (Cmd α)} (hc : ∀ c ∈ cs, c.Owning) {s : St α} (h : Inv s) (hw : Own [] s)
    (ht : TidyRun asserts cs s) : Sat (runAll asserts cs s) (fun _ => Own []) (fun _ => False) := by
  induction cs generalizing s with
  | nil => exact hw
  | cons c cs ih =>
    apply sat_bind
    apply sat_checkNew
    intro hf
    apply sat_bind
    have g := exec_good (asserts := asserts) (hc c (by simp)) h hf
    have w := exec_own (asserts := asserts) ht.1 h hw hf
    unfold caught
    cases he : exec asserts c s with
    | ok u s' =>
      rw [he] at g w
      exact ih (fun c' hc' => hc c' (by simp [hc'])) (Good.inv g) w (ht.2 s' (Or.inl he))
    | throw e s' =>
      rw [he] at g w
      exact ih (fun c' hc' => hc c' (by simp [hc'])) (Good.inv g) w (ht.2 s' (Or.inr ⟨e, he⟩))
    | ub k => rw [he] at g; exact g

/-- **C27** for programs whose move assignments only go to storages without memory and that (without assertions) do not resize a
moved-from storage: every allocation has been freed when all storages are gone. -/
theorem C27_partial {asserts : Bool} {cs : List (Cmd α)} {s : St α} (hc : ∀ c ∈ cs, c.Owning) (ht : TidyRun asserts cs init)
    (hr : runAll asserts cs init = .ok () s) (hdead : ∀ x, s.objs x = none) : ∀ b cells, ¬ LiveAt s b cells := by
  have := runAll_own (asserts := asserts) hc inv_init own_init ht
  rw [hr] at this
  intro b cells hb
  rcases this.ref b cells hb with ⟨x, o, h1, _⟩ | h1
  · rw [hdead x] at h1; cases h1
  · cases h1

/-- A concrete case: copies, resizes and a move into an empty storage. -/
example : TidyRun (α := Nat) false [.ctorList 0 [1, 2], .ctorDefault 1, .assignMove 1 0, .resize 1 7, .assignCopy 1 1, .dtor 1] init := by
  refine ⟨trivial, ?_⟩
  rintro s (h | ⟨e, h⟩) <;> cases h
  refine ⟨trivial, ?_⟩
  rintro s (h | ⟨e, h⟩) <;> cases h
  refine ⟨Or.inr (fun o ho => by injection ho with ho; subst ho; rfl), ?_⟩
  rintro s (h | ⟨e, h⟩) <;> cases h
  refine ⟨Or.inr ⟨_, rfl, rfl⟩, ?_⟩
  rintro s (h | ⟨e, h⟩) <;> cases h
  refine ⟨trivial, ?_⟩
  rintro s (h | ⟨e, h⟩) <;> cases h
  refine ⟨trivial, ?_⟩
  rintro s (h | ⟨e, h⟩) <;> cases h
  trivial

/-! ### C25 -/

/-- The full property C25, for `resize(n)`: the first elements stay, the size becomes `n`, new elements are uninitialised. -/
def C25Claim : Prop :=
  ∀ (α : Type) (asserts : Bool) (s : St α) (x n : Nat) (vals : List (Option α)), Reachable asserts s → Holds asserts s x vals →
    ∃ s', resize asserts x n s = .ok () s' ∧ Holds asserts s' x (vals.take n ++ List.replicate (n - vals.length) none)

/-- **C25** is false of the code with assertions enabled: `resize(0)` throws. -/
theorem C25_zero_false : ¬ C25Claim := by
  intro h
  obtain ⟨s', h1, -⟩ := h Nat true _ 0 0 [none, none, none] ⟨[.ctorSize 0 3], by simp [Cmd.Owning], rfl⟩
    ⟨rfl, fun i v hv => readAt_eq rfl rfl rfl (by
      by_cases hi : i < 3
      · exact hi
      · rw [List.getElem?_eq_none (by simp; omega)] at hv; cases hv) hv⟩
  cases h1

/-- With assertions enabled a moved-from storage cannot be resized. -/
theorem C25_moved_false : ∃ s : St Nat, Reachable true s ∧ Holds true s 0 [] ∧ ∃ s', resize true 0 2 s = .throw .assertion s' :=
  ⟨_, ⟨[.ctorSize 0 3, .ctorMove 1 0], by simp [Cmd.Owning], rfl⟩, ⟨rfl, by simp⟩, _, rfl⟩

/-- **C25** except for size 0 and moved-from storages when assertions are enabled: `resize(n)` keeps the common prefix, and the
discard form yields size `n`. -/
theorem C25_partial {asserts : Bool} {s : St α} (hr : Reachable asserts s) {x n : Nat} {vals : List (Option α)}
    (h : Holds asserts s x vals) (hn : asserts = true → 0 < n) (ho : asserts = true → n ≠ vals.length → Owner s x) :
    (∃ s', resize asserts x n s = .ok () s' ∧ Holds asserts s' x (vals.take n ++ List.replicate (n - vals.length) none)) ∧
    (∃ s', resizeDiscard asserts x n s = .ok () s' ∧ ∃ vals', Holds asserts s' x vals' ∧ vals'.length = n) := by
  refine ⟨resize_holds (reachable_inv hr) h hn ho, ?_⟩
  obtain ⟨o, hx, hs, -⟩ := holds_iff.mp h
  obtain ⟨s', h1, -, h3⟩ := resizeDiscard_size (reachable_inv hr) hx hn (fun ha hne => by
    obtain ⟨o', h1, h2⟩ := ho ha (by omega)
    rw [hx] at h1
    injection h1 with h1
    subst h1
    exact h2)
  refine ⟨s', h1, ?_⟩
  by_cases hsame : n = o.size
  · refine ⟨vals, ?_, by omega⟩
    have : resizeDiscard asserts x n s = .ok () s := by
      have hpos : (asserts && !decide (0 < n)) = false := by
        cases asserts with
        | false => rfl
        | true => simp [hn rfl]
      simp only [resizeDiscard, bind_def, getObj, hx, assertThat, hpos, Bool.false_eq_true, if_false, if_pos hsame.symm, pure_def]
    rw [this] at h1
    cases h1
    exact h
  · exact ⟨_, h3 hsame, by simp⟩

/-- A concrete case. -/
example : ∃ s : St Nat, Reachable true s ∧ Holds true s 0 [some 4, some 5] ∧ Owner s 0 := by
  obtain ⟨s, h1, h2⟩ := ctorList_holds (asserts := true) (s := (init : St Nat)) (x := 0) (vals := [4, 5])
  refine ⟨s, ⟨[.ctorList 0 [4, 5]], by simp [Cmd.Owning], ?_⟩, h2, ?_⟩
  · cases h1
    rfl
  · cases h1
    exact ⟨_, rfl, rfl⟩

/-! ### C28 -/

/-- The full property C28. -/
def C28Claim : Prop :=
  ∀ (α : Type) (asserts : Bool) (s : St α) (x y : Nat) (vx vy : List (Option α)), Reachable asserts s → Holds asserts s x vx →
    Holds asserts s y vy → ∃ s', assignCopy asserts x y s = .ok () s' ∧ Holds asserts s' x vy

/-- **C28** is false of the code: assigning an empty storage leaves the target as it was. -/
theorem C28_empty_false : ¬ C28Claim := by
  intro h
  obtain ⟨s', h1, h2, -⟩ := h Nat true _ 0 1 [none] [] ⟨[.ctorSize 0 1, .ctorDefault 1], by simp [Cmd.Owning], rfl⟩
    ⟨rfl, fun i v hv => readAt_eq rfl rfl rfl (by
      by_cases hi : i < 1
      · exact hi
      · rw [List.getElem?_eq_none (by simp; omega)] at hv; cases hv) hv⟩ ⟨rfl, by simp⟩
  cases h1
  cases h2

/-- Nor can a moved-from storage be assigned to: with assertions enabled the assignment throws, and leaves a storage that claims
the source's size but has no memory, so that reading its first element passes the bounds assertion and dereferences null ... -/
theorem C28_moved_throws : ∃ s : St Nat, Reachable true s ∧ Holds true s 0 [] ∧ Holds true s 1 [none, none] ∧
    ∃ s', assignCopy true 0 1 s = .throw .assertion s' ∧ sizeOf? s' 0 = some 2 ∧ readAt true 0 0 s' = .ub .nullAccess :=
  ⟨_, ⟨[.ctorSize 0 2, .ctorMove 1 0], by simp [Cmd.Owning], rfl⟩, ⟨rfl, by simp⟩, ⟨rfl, fun i v hv => readAt_eq rfl rfl rfl (by
      by_cases hi : i < 2
      · exact hi
      · rw [List.getElem?_eq_none (by simp; omega)] at hv; cases hv) hv⟩, _, rfl, rfl, rfl⟩

/-- ... and without assertions it writes through a null pointer. -/
theorem C28_moved_null :
    runAll (α := Nat) false [.ctorSize 0 2, .ctorMove 1 0, .assignCopy 0 1] init = .ub .nullAccess := rfl

/-- **C28** for sources that are not empty and targets that own their memory or already have the right size; the source keeps its
elements. -/
theorem C28_partial {asserts : Bool} {s : St α} (hr : Reachable asserts s) {x y : Nat} {vx vy : List (Option α)}
    (hx : Holds asserts s x vx) (hy : Holds asserts s y vy) (hne : vy ≠ []) (ho : Owner s x ∨ vx.length = vy.length) :
    ∃ s', assignCopy asserts x y s = .ok () s' ∧ Holds asserts s' x vy ∧ Holds asserts s' y vy :=
  assignCopy_holds (reachable_inv hr) hx hy hne ho

/-- The copy constructor and `copy()` are right for every source. -/
theorem C28_copies {asserts : Bool} {s : St α} {x y : Nat} (hxy : x ≠ y) {vals : List (Option α)} (h : Holds asserts s y vals) :
    (∃ s', ctorCopy asserts x y s = .ok () s' ∧ Holds asserts s' x vals ∧ Holds asserts s' y vals) ∧
    (∃ s', copyOf asserts x y s = .ok () s' ∧ Holds asserts s' x vals ∧ Holds asserts s' y vals) :=
  ⟨ctorCopy_holds hxy h, copyOf_holds hxy h⟩

/-- Fixed-size storages: copies and assignments have the elements of the source. -/
theorem C28_fixed {n : Nat} (y : Fixed α n) (i : Fin n) : fixedCtorCopy y i = y i ∧ fixedAssign y i = y i := ⟨rfl, rfl⟩

/-- But `copy()` of a fixed-size storage returns uninitialised elements. -/
theorem C28_fixed_copy_false : ∃ (y : Fixed Nat 2), ∃ i, fixedCopy y i ≠ y i := ⟨fun _ => some 1, 0, by simp [fixedCopy, fixedDefault]⟩

/-! ### C62 -/

/-- **C62**: the constructors, `operator[]` and moves do what they say, for every content. -/
theorem C62_list {asserts : Bool} {s : St α} {x : Nat} {vals : List α} :
    ∃ s', ctorList asserts x vals s = .ok () s' ∧ Holds asserts s' x (vals.map some) := ctorList_holds

theorem C62_fill {asserts : Bool} {s : St α} {x n : Nat} {v : α} :
    ∃ s', ctorFill asserts x n v s = .ok () s' ∧ Holds asserts s' x (List.replicate n (some v)) := ctorFill_holds

theorem C62_write {asserts : Bool} {s : St α} {x i : Nat} {v : α} {vals : List (Option α)} (h : Holds asserts s x vals)
    (hi : i < vals.length) : ∃ s', writeAt asserts x i v s = .ok () s' ∧ Holds asserts s' x (vals.set i (some v)) :=
  writeAt_holds h hi

/-- With assertions enabled, an access outside the bounds of a storage throws and changes nothing. -/
theorem C62_bounds {s : St α} {x i : Nat} {v : α} {vals : List (Option α)} (h : Holds true s x vals) (hi : vals.length ≤ i) :
    readAt true x i s = .throw .assertion s ∧ writeAt true x i v s = .throw .assertion s := by
  obtain ⟨o, hx, hs, -⟩ := holds_iff.mp h
  constructor
  · simp [readAt, bind_def, getObj, hx, assertThat, show ¬ i < o.size by omega]
  · simp [writeAt, bind_def, getObj, hx, assertThat, show ¬ i < o.size by omega]

theorem C62_move {asserts : Bool} {s : St α} {x y : Nat} (hxy : x ≠ y) {vals : List (Option α)} (h : Holds asserts s y vals) :
    (∃ s', ctorMove x y s = .ok () s' ∧ Holds asserts s' x vals ∧ Holds asserts s' y []) ∧
    (∀ o, s.objs x = some o → ∃ s', assignMove x y s = .ok () s' ∧ Holds asserts s' x vals ∧ Holds asserts s' y []) :=
  ⟨ctorMove_holds hxy h, fun _ hx => assignMove_holds hxy hx h⟩

end Verif.StorageM
