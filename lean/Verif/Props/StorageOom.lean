import Verif.Lemmas.StorageOom

/-!
# C146: storages when memory runs out

Property: when an allocation fails the program gets an exception and can go on: no storage is left unusable, no memory is released twice or
lost, and elements with constructors are constructed before they are assigned and destroyed exactly once.

False of copy assignment, which releases the old memory before it asks for the new. True of everything else, and of copy assignments that
get their memory.
-/

namespace Verif.StorageOom

variable {α : Type}

/-- The property for programs whose sizes in bytes are of type `size_t`: the only undefined behaviour is the use of a variable outside its
lifetime, which is the program's own error. -/
def C146Claim : Prop :=
  ∀ (α : Type) (env : Env α) (prog : List (Cmd α)) (k : UB), env.asserts = true → 0 < env.esize → (∀ c ∈ prog, c.Sized env) →
    runAll env prog init = .ub k → k = .badObject

/-- What happens when a copy assignment does not get its memory, in every program that went well so far: the exception comes, but the
target keeps a pointer to the memory it has released. Reading any element reads released memory, and destroying the target releases the
memory again. -/
theorem C146_assign_fails (env : Env α) (prog : List (Cmd α)) (s : St α) (x y : Nat) (o o' : Obj) (ha : env.asserts = true)
    (he : 0 < env.esize) (hz : ∀ c ∈ prog, c.Sized env) (hs : SuppliedRun env prog init) (hr : runAll env prog init = .ok () s)
    (hx : s.objs x = some o) (hy : s.objs y = some o') (h0 : o.size ≠ 0) (hn : o'.size ≠ 0) (hne : o.size ≠ o'.size)
    (hf : env.fails s.calls (o'.size * env.esize) = true) :
    ∃ s', exec env (.assignCopy x y) s = .throw .assertion s' ∧ exec env (.dtor x) s' = .ub .doubleFree ∧
      ∀ i, i < o'.size → exec env (.read x i) s' = .ub .useAfterFree := by
  have hI : Inv env s := by
    rcases run_cases ha he prog init (inv_init env) hz hs with h | ⟨s1, h1, h2, -⟩
    · rw [h] at hr; cases hr
    · rw [h1] at hr; cases hr; exact h2
  have hxy : x ≠ y := by
    intro e; subst e; rw [hx] at hy; cases hy; exact hne rfl
  rcases hI.obj x o hx with ⟨-, h2⟩ | ⟨b, cs, h1, h2, h3, h4, h5, h6, h7⟩
  · exact absurd h2 h0
  rcases hI.obj y o' hy with ⟨-, g2⟩ | ⟨b', cs', g1, g2, g3, g4, g5, g6, g7⟩
  · exact absurd g2 hn
  obtain ⟨t, ht⟩ : ∃ t : St α, t = { s with objs := fun y => if y = x then some { o with size := o'.size } else s.objs y } := ⟨_, rfl⟩
  obtain ⟨u, hu⟩ : ∃ u : St α, u = { t with blocks := t.blocks.set b .freed } := ⟨_, rfl⟩
  have tb : t.blocks = s.blocks := by rw [ht]
  have tc : t.calls = s.calls := by rw [ht]
  have uc : u.calls = s.calls := by rw [hu, tc]
  have hbl := (List.getElem?_eq_some_iff.1 h2).1
  have ub : u.blocks[b]? = some .freed := by
    rw [hu, tb]
    simp [hbl]
  have uo : u.objs x = some { o with size := o'.size } := by rw [hu, ht]; simp
  refine ⟨{ u with calls := u.calls + 1 }, ?_, ?_, ?_⟩
  · simp only [exec, assignCopy, bind_def]
    rw [getObj_some hx]
    simp only []
    rw [getObj_some hy]
    simp only []
    rw [if_neg (by simp [hxy, hn])]
    simp only [assignBody, bind_def, setObj, ← ht, reallocate, if_pos hne, if_pos h5]
    rw [h1, dealloc_ok (s := t) (b := b) (cs := cs) (by rw [tb]; exact h2) h3 h7]
    simp only [← hu]
    rw [alloc_fail (s := u) ha hn g6 (by rw [uc]; exact hf)]
  · simp only [exec, dtor, bind_def]
    rw [getObj_some (s := { u with calls := u.calls + 1 }) (by exact uo)]
    simp only [release, h5, if_true, h1, safeDeallocate, ub]
  · intro i hi
    simp only [exec, readAt, bind_def]
    rw [getObj_some (s := { u with calls := u.calls + 1 }) (by exact uo)]
    simp only [hi, decide_true, assert_true, h1, cellsAt, ub]

/-- The same for a target without memory: it is left with the size of the source and a null pointer. -/
theorem C146_assign_fails_empty (env : Env α) (prog : List (Cmd α)) (s : St α) (x y : Nat) (o o' : Obj) (ha : env.asserts = true)
    (he : 0 < env.esize) (hz : ∀ c ∈ prog, c.Sized env) (hs : SuppliedRun env prog init) (hr : runAll env prog init = .ok () s)
    (hx : s.objs x = some o) (hy : s.objs y = some o') (h0 : o.size = 0) (hn : o'.size ≠ 0)
    (hf : env.fails s.calls (o'.size * env.esize) = true) :
    ∃ s', exec env (.assignCopy x y) s = .throw .assertion s' ∧
      ∀ i, i < o'.size → exec env (.read x i) s' = .ub .nullAccess := by
  have hI : Inv env s := by
    rcases run_cases ha he prog init (inv_init env) hz hs with h | ⟨s1, h1, h2, -⟩
    · rw [h] at hr; cases hr
    · rw [h1] at hr; cases hr; exact h2
  have hne : o.size ≠ o'.size := by omega
  have hxy : x ≠ y := by
    intro e; subst e; rw [hx] at hy; cases hy; exact hne rfl
  have h1 : o.ptr = none := by
    rcases hI.obj x o hx with ⟨h1, -⟩ | ⟨b, cs, h1, h2, h3, h4, h5, h6, h7⟩
    · exact h1
    · exact absurd h0 h4
  rcases hI.obj y o' hy with ⟨-, g2⟩ | ⟨b', cs', g1, g2, g3, g4, g5, g6, g7⟩
  · exact absurd g2 hn
  obtain ⟨t, ht⟩ : ∃ t : St α, t = { s with objs := fun y => if y = x then some { o with size := o'.size } else s.objs y } := ⟨_, rfl⟩
  have tc : t.calls = s.calls := by rw [ht]
  have uo : t.objs x = some { o with size := o'.size } := by rw [ht]; simp
  have hread : ∀ (u : St α), u.objs x = some { o with size := o'.size } → ∀ i, i < o'.size →
      exec env (.read x i) u = .ub .nullAccess := by
    intro u hu i hi
    simp only [exec, readAt, bind_def]
    rw [getObj_some hu]
    simp only [hi, decide_true, assert_true, h1, cellsAt]
  cases hw : o.owns with
  | true =>
    refine ⟨{ t with calls := t.calls + 1 }, ?_, hread _ uo⟩
    simp only [exec, assignCopy, bind_def]
    rw [getObj_some hx]
    simp only []
    rw [getObj_some hy]
    simp only []
    rw [if_neg (by simp [hxy, hn])]
    simp only [assignBody, bind_def, setObj, ← ht, reallocate, if_pos hne, if_pos hw]
    simp only [h1, safeDeallocate]
    rw [alloc_fail (s := t) ha hn g6 (by rw [tc]; exact hf)]
  | false =>
    refine ⟨t, ?_, hread _ uo⟩
    simp only [exec, assignCopy, bind_def]
    rw [getObj_some hx]
    simp only []
    rw [getObj_some hy]
    simp only []
    rw [if_neg (by simp [hxy, hn])]
    simp only [assignBody, bind_def, setObj, reallocate, if_pos hne, hw]
    simp [assertThat, ha, ht, hw]

/-- Storages of doubles, where the third request for memory fails. -/
def third : Env Nat := ⟨true, 8, none, fun k _ => k == 2⟩

/-- `Storage<double> x(1), y(2); try { x = y; } catch (...) {}` and the end of `x`. -/
def breaks : List (Cmd Nat) := [.ctorSize 0 1, .ctorSize 1 2, .assignCopy 0 1, .dtor 0]

/-- The property is false: copy assignment without memory and the end of the target release memory twice. -/
theorem C146_false : ¬ C146Claim := by
  intro h
  have := h Nat third breaks .doubleFree rfl (by decide) (by
    intro c hc
    simp only [breaks, List.mem_cons, List.not_mem_nil, or_false] at hc
    rcases hc with rfl | rfl | rfl | rfl <;> simp [Cmd.Sized, third]) rfl
  cases this

/-- What holds: if the copy assignments that need memory get it and their targets have not been moved from, then whatever other requests
for memory fail there is no undefined behaviour. In particular elements with constructors are constructed before they are assigned to, and
all of them destroyed before their memory is released. -/
theorem C146_partial (env : Env α) (prog : List (Cmd α)) (k : UB) (ha : env.asserts = true) (he : 0 < env.esize)
    (hz : ∀ c ∈ prog, c.Sized env) (hs : SuppliedRun env prog init) (hr : runAll env prog init = .ub k) : k = .badObject := by
  rcases run_cases ha he prog init (inv_init env) hz hs with h | ⟨s1, h1, -, -⟩
  · rw [h] at hr; cases hr; rfl
  · rw [h1] at hr; cases hr

/-- Programs without copy assignments need no such hypothesis. -/
theorem C146_no_copy_assignment (env : Env α) (prog : List (Cmd α)) (k : UB) (ha : env.asserts = true) (he : 0 < env.esize)
    (hz : ∀ c ∈ prog, c.Sized env) (hc : ∀ c ∈ prog, c.NoCopyAssign) (hr : runAll env prog init = .ub k) : k = .badObject :=
  C146_partial env prog k ha he hz (supplied_of_noCopy prog init hc) hr

/-- Nor is memory lost: when all storages are gone all blocks are released. (Move assignments to storages with memory lose it, C27.) -/
theorem C146_released (env : Env α) (prog : List (Cmd α)) (s : St α) (ha : env.asserts = true) (he : 0 < env.esize)
    (hz : ∀ c ∈ prog, c.Sized env) (hs : SuppliedRun env prog init) (ht : TidyRun env prog init)
    (hr : runAll env prog init = .ok () s) (hgone : ∀ x, s.objs x = none) : ∀ b ∈ s.blocks, b = .freed := by
  rcases run_cases ha he prog init (inv_init env) hz hs with h | ⟨s1, h1, -, h3⟩
  · rw [h] at hr; cases hr
  · rw [h1] at hr
    cases hr
    intro b hb
    cases b with
    | freed => rfl
    | live cs =>
      obtain ⟨i, hi⟩ := List.getElem?_of_mem hb
      obtain ⟨x, o, hx, -⟩ := h3 ht noLeak_init i cs hi
      rw [hgone x] at hx
      cases hx

/-- A command that throws, other than a copy assignment that lacks memory, has changed neither variables nor memory. -/
theorem C146_unchanged (env : Env α) (prog : List (Cmd α)) (s s' : St α) (c : Cmd α) (e : Exc) (ha : env.asserts = true)
    (he : 0 < env.esize) (hz : ∀ c ∈ prog, c.Sized env) (hs : SuppliedRun env prog init) (hr : runAll env prog init = .ok () s)
    (hnew : ∀ x, c.creates = some x → s.objs x = none) (hcz : c.Sized env) (hcs : c.Supplied env s)
    (ht : exec env c s = .throw e s') : s'.objs = s.objs ∧ s'.blocks = s.blocks := by
  rcases run_cases ha he prog init (inv_init env) hz hs with h | ⟨s1, h1, h2, -⟩
  · rw [h] at hr; cases hr
  · rw [h1] at hr
    cases hr
    have := good_exec ha he h2 hnew hcz hcs
    rw [ht] at this
    exact this

/-- The property without assertions. -/
def C146NoAssertClaim : Prop :=
  ∀ (α : Type) (env : Env α) (prog : List (Cmd α)) (k : UB), env.asserts = false → 0 < env.esize → (∀ c ∈ prog, c.Sized env) →
    runAll env prog init = .ub k → k = .badObject

/-- Without assertions nothing notices a failed allocation, whatever the storage: the first request that fails is undefined behaviour. -/
theorem C146_noassert (env : Env α) (x n : Nat) (s : St α) (ha : env.asserts = false) (hn : n ≠ 0) (hx : s.objs x = none)
    (hf : env.fails s.calls (n * env.esize % 2 ^ 64) = true) : step env (.ctorSize x n) s = .ub .nullAccess := by
  have h1 : safeAllocate env n s = .ub .nullAccess := by simp [safeAllocate, bytes, hn, ha, hf]
  have h2 : checkNew (.ctorSize x n) s = .ok () s := by simp [checkNew, Cmd.creates, hx]
  unfold step
  rw [bind_def, h2]
  simp only [caught, exec, ctorSize]
  rw [bind_def, h1]

theorem C146_noassert_false : ¬ C146NoAssertClaim := by
  intro h
  have := h Nat ⟨false, 8, none, fun _ _ => true⟩ [.ctorSize 0 1] .nullAccess rfl (by decide) (by
    intro c hc
    simp only [List.mem_cons, List.not_mem_nil, or_false] at hc
    subst hc; simp [Cmd.Sized]) rfl
  cases this

/-- The property for all sizes. -/
def C146SizeClaim : Prop :=
  ∀ (α : Type) (env : Env α) (prog : List (Cmd α)) (k : UB), env.asserts = true → 0 < env.esize →
    runAll env prog init = .ub k → k = .badObject

/-- The number of bytes is computed in `size_t`, and nothing notices when it is too large: `Storage<T>(n, value)` with
`2^64 ≤ n * sizeof(T)` writes behind its memory, unless so few bytes cannot be had either. -/
theorem C146_wrap (env : Env α) (x n : Nat) (v : α) (s : St α) (he : 0 < env.esize) (hn : 2 ^ 64 ≤ n * env.esize)
    (hx : s.objs x = none) (hf : env.fails s.calls (n * env.esize % 2 ^ 64) = false) :
    step env (.ctorFill x n v) s = .ub .outOfBounds := by
  have hn0 : n ≠ 0 := by
    intro e; subst e; simp at hn
  have hlt : n * env.esize % 2 ^ 64 / env.esize < n := by
    rw [Nat.div_lt_iff_lt_mul he]
    exact Nat.lt_of_lt_of_le (Nat.mod_lt _ (by decide)) hn
  have h2 : checkNew (.ctorFill x n v) s = .ok () s := by simp [checkNew, Cmd.creates, hx]
  unfold step
  rw [bind_def, h2]
  simp only [caught, exec, ctorFill]
  rw [bind_def]
  cases hfr : env.fresh with
  | some w =>
    have h1 : safeAllocate env n s = .ub .outOfBounds := by
      unfold safeAllocate bytes
      rw [if_neg hn0, hf]
      simp only [hfr, Bool.false_eq_true, if_false, Option.isSome_some, Bool.true_and, decide_eq_true_eq]
      rw [if_pos hlt]
    rw [h1]
  | none =>
    have h1 : safeAllocate env n s = .ok (some s.blocks.length) (push s (List.replicate (n * env.esize % 2 ^ 64 / env.esize) none)) := by
      unfold safeAllocate bytes
      rw [if_neg hn0, hf]
      simp [hfr, push]
    rw [h1]
    simp only [bind_def]
    have hv : List.replicate n (some v) ≠ [] := by simpa using hn0
    simp only [fastCopyVals, if_neg hv, bind_def, Option.isSome_some, assert_true, copyInto, get_new, List.length_replicate]
    rw [if_pos hlt]

/-- `Storage<double>(2305843009213693953, v)`: eight bytes are allocated. -/
theorem C146_size_false : ¬ C146SizeClaim := by
  intro h
  obtain ⟨env, ha, he, hf⟩ : ∃ env : Env Nat, env.asserts = true ∧ env.esize = 8 ∧ ∀ k b, env.fails k b = false :=
    ⟨⟨true, 8, none, fun _ _ => false⟩, rfl, rfl, fun _ _ => rfl⟩
  have hw : ∃ n, 2 ^ 64 ≤ n * 8 := ⟨2 ^ 61 + 1, by decide⟩
  obtain ⟨n, hn⟩ := hw
  have h1 := C146_wrap env 0 n 7 init (by omega) (by rw [he]; exact hn) rfl (hf _ _)
  have h2 : runAll env [.ctorFill 0 n 7] init = .ub .outOfBounds := by
    simp only [runAll]
    rw [bind_def, h1]
  have := h Nat env _ .outOfBounds ha (by omega) h2
  cases this

/-! Concrete cases. -/

/-- Elements with constructors, where the second request fails. -/
def small : Env Nat := ⟨true, 8, some 0, fun k _ => k == 1⟩

/-- A program one of whose requests fails. -/
def survives : List (Cmd Nat) := [.ctorFill 0 3 7, .resize 0 4, .resize 0 2, .dtor 0]

example : ∀ c ∈ survives, c.Sized small := by
  intro c hc
  simp only [survives, List.mem_cons, List.not_mem_nil, or_false] at hc
  rcases hc with rfl | rfl | rfl | rfl <;> simp [Cmd.Sized, small]

example : ∀ c ∈ survives, c.NoCopyAssign := by
  intro c hc
  simp only [survives, List.mem_cons, List.not_mem_nil, or_false] at hc
  rcases hc with rfl | rfl | rfl | rfl <;> trivial

/-- The blocks at the end of a run. -/
def blocksOf : Res Nat Unit → Option (List (Block Nat))
  | .ok _ s => some s.blocks
  | _ => none

example : blocksOf (runAll small survives init) = some [.freed, .freed] := by rfl

/-- The state in which the copy assignment of `breaks` runs. -/
example : ∃ s o o', runAll third [.ctorSize 0 1, .ctorSize 1 2] init = .ok () s ∧ s.objs 0 = some o ∧ s.objs 1 = some o' ∧
    o.size = 1 ∧ o'.size = 2 ∧ third.fails s.calls (o'.size * third.esize) = true :=
  ⟨_, _, _, rfl, rfl, rfl, rfl, rfl, rfl⟩

example : ∃ e s', exec third (.resize 0 2) (⟨[.live [some 5]], 2, fun y => if y = 0 then some ⟨some 0, 1, true⟩ else none⟩ : St Nat) =
    .throw e s' ∧ s'.blocks = [.live [some 5]] := ⟨_, _, rfl, rfl⟩

end Verif.StorageOom
