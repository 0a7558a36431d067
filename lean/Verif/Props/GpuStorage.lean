import Verif.Lemmas.GpuStorage

/-!
# C69: storages on the graphics card are values
-/

namespace Verif.GpuSt

variable {V : Type}

/-- C69, the part that holds.  On OpenCL, and on CUDA without assertions, every program that avoids the uses named by `Careful` runs
without undefined behaviour and without exception.  Afterwards exactly the storages of the specification exist, each has the specified
size, and every element reads back as specified.  So constructions, copies, moves, assignments, resizes and element writes act on the
named storage alone.
Missing: the uses that `Careful` excludes (default construction, copy construction on CUDA, assignment from an empty storage, assignment to
or resizing of a moved-from storage), CUDA with assertions, and storages that adopt a foreign buffer.  The theorems below show that
the excluded uses fail. -/
theorem C69_partial (c : Cfg) (hc : c.Single) (ks : List (Cmd V)) (e : Env V) (hm : meanings ks (fun _ => none) = some e)
    (hk : AllCareful c.be ks (fun _ => none)) :
    ∃ s, run c ks St.empty = .ok s ∧ (∀ x, s.objs x = none ↔ e x = none) ∧
      ∀ x v, e x = some v → (∃ o, s.objs x = some o ∧ o.size = some v.vals.length) ∧
        ∀ i (h : i < v.vals.length), read c x i s = .ok v.vals[i] := by
  obtain ⟨s, hs, hR⟩ := Rel.run hc ks Rel.empty hk hm
  refine ⟨s, hs, hR.dom, fun x v hx => ⟨?_, fun i hi => hR.read hx i hi⟩⟩
  obtain ⟨o, ho, hg⟩ := hR.get hx
  exact ⟨o, ho, hg.1⟩

/-- C69, no sharing.  In the same situation no two storages use the same device buffer, and every non-empty storage's buffer is live and
long enough.  So no kernel started on one storage touches another. -/
theorem C69_disjoint_partial (c : Cfg) (hc : c.Single) (ks : List (Cmd V)) (e : Env V) (hm : meanings ks (fun _ => none) = some e)
    (hk : AllCareful c.be ks (fun _ => none)) (s : St V) (hs : run c ks St.empty = .ok s) :
    (∀ x y ox oy b, s.objs x = some ox → s.objs y = some oy → ox.buf = some b → oy.buf = some b → x = y) ∧
    ∀ x o n, s.objs x = some o → o.size = some n → 0 < n → ∃ b cs, o.buf = some b ∧ s.bufs b = some cs ∧ n ≤ cs.length := by
  obtain ⟨s', hs', hR⟩ := Rel.run hc ks Rel.empty hk hm
  have : s' = s := by rw [hs] at hs'; injection hs' with h; exact h.symm
  subst this
  refine ⟨hR.inj, fun x o n ho hn h0 => ?_⟩
  cases hx : e x with
  | none => rw [(hR.dom x).2 hx] at ho; cases ho
  | some v =>
    have hg := hR.good x o v ho hx
    have hlen : n = v.vals.length := by have := hg.1; rw [hn] at this; injection this
    have h4 := hg.2.2.2
    cases hb : o.buf with
    | none => rw [hb] at h4; simp only at h4; rw [hlen, h4] at h0; simp at h0
    | some b =>
      rw [hb] at h4
      obtain ⟨cs, h5, h6, -⟩ := h4
      have := congrArg List.length h6
      simp only [List.length_take] at this
      exact ⟨b, cs, rfl, h5, by omega⟩

/-- C69 is false under every compilation: assigning an empty storage leaves the old elements in place. -/
theorem C69_false (c : Cfg) : ¬ C69Claim c := by
  intro h
  have hm : meanings [Cmd.list 0 [()], Cmd.list 1 [], Cmd.assign 0 1] (fun _ => none) =
      some (Function.update (Function.update (Function.update (fun _ => none) 0 (some ⟨[some ()], false⟩)) 1 (some ⟨[], false⟩)) 0
        (some ⟨[], false⟩)) := rfl
  obtain ⟨s, hs, hx⟩ := h Unit _ _ hm
  obtain ⟨⟨o, ho, hsz⟩, -⟩ := hx 0 ⟨[], false⟩ rfl
  have : ∃ s', run c [Cmd.list 0 [()], Cmd.list 1 [], Cmd.assign 0 1] (St.empty (V := Unit)) = .ok s' ∧
      ∀ o', s'.objs 0 = some o' → o'.size = some 1 := by
    rcases c with ⟨_ | _, _ | _⟩ <;> exact ⟨_, rfl, fun o' ho' => by
      have h1 : some o' = some (Obj.mk (some _) (some 1) true) := ho'.symm.trans rfl
      injection h1 with h1; rw [h1]⟩
  obtain ⟨s', hs', ho'⟩ := this
  rw [hs] at hs'
  injection hs' with hs'
  subst hs'
  have := ho' o ho
  rw [hsz] at this
  simp at this

/-- The same, for all contents: after `a = b` with `b` empty, `a` has its old elements. -/
theorem C69_assign_empty_false (c : Cfg) (x y : Nat) (s : St V) (e : Env V) (h : Rel s e) (v w : Val V) (hx : e x = some v)
    (hy : e y = some w) (hw : w.vals = []) : step c (.assign x y) s = .ok s := by
  obtain ⟨ox, hox, -⟩ := h.get hx
  obtain ⟨oy, hoy, hgy⟩ := h.get hy
  have hgy1 := hgy.1
  simp only [step, assign, obj_eq hox, obj_eq hoy, bind_ok, sizeOf, hgy1, hw, List.length_nil, if_true]
  split_ifs <;> rfl

/-- CUDA with assertions: destroying any non-empty storage frees its buffer twice, because `cudaSafeCall` evaluates its argument twice. -/
theorem C69_double_free_false (x n : Nat) (hn : 0 < n) :
    run ⟨.cuda, true⟩ [.size x n, .destroy x] (St.empty (V := V)) = .ub := by
  have h0 : n ≠ 0 := by omega
  simp [run, step, ctorSize, fresh, St.empty, Out.bind, alloc, h0, callsTwice, mallocOnce, St.setObj, destroy, obj, dealloc, freeOnce,
    St.setBuf]

/-- CUDA with assertions: each construction of a non-empty storage allocates two buffers and loses one. -/
theorem C69_double_alloc_false (x n : Nat) (hn : 0 < n) (s : St V) (hx : s.objs x = none) :
    ∃ s', step ⟨.cuda, true⟩ (.size x n) s = .ok s' ∧ (s'.bufs s.next).isSome ∧ (s'.bufs (s.next + 1)).isSome ∧
      s'.objs x = some ⟨some (s.next + 1), some n, true⟩ := by
  have h0 : n ≠ 0 := by omega
  refine ⟨_, by simp only [step, ctorSize, fresh, hx, Out.bind, alloc, h0, if_false, callsTwice, mallocOnce]; rfl, ?_, ?_, ?_⟩ <;>
    simp [St.setObj]

/-- CUDA: copy construction of any non-empty storage copies with the wrong direction flag, which the CUDA runtime leaves undefined. -/
theorem C69_copy_ctor_false (a : Bool) (s : St V) (e : Env V) (h : Rel s e) (x y : Nat) (v : Val V) (hx : e x = none)
    (hy : e y = some v) (hv : v.vals ≠ []) : step ⟨.cuda, a⟩ (.copyCtor x y) s = .ub := by
  obtain ⟨o, ho, hg⟩ := h.get hy
  have h4 := hg.2.2.2
  have hvl : v.vals.length ≠ 0 := fun h0 => hv (List.length_eq_zero_iff.1 h0)
  have hg1 := hg.1
  cases hb : o.buf with
  | none => rw [hb] at h4; exact absurd h4 hv
  | some b =>
    simp only [step, copyCtor, copyCtorCuda, fresh_eq ((h.dom x).2 hx), obj_eq ho, bind_ok, hb, sizeOf, hg1, hvl, if_false]

/-- A moved-from storage cannot be assigned: with assertions this throws. -/
theorem C69_moved_throw_false (be : Backend) (s : St V) (e : Env V) (h : Rel s e) (x y : Nat) (v w : Val V) (hx : e x = some w)
    (hw : w.moved = true) (hy : e y = some v) (hv : v.vals ≠ []) : step ⟨be, true⟩ (.assign x y) s = .throw .assertion := by
  obtain ⟨ox, hox, hgx⟩ := h.get hx
  obtain ⟨oy, hoy, hgy⟩ := h.get hy
  have hvl : v.vals.length ≠ 0 := fun h0 => hv (List.length_eq_zero_iff.1 h0)
  have hw0 := hgx.2.2.1 hw
  have hxy : x ≠ y := by rintro rfl; rw [hx] at hy; injection hy with hy; rw [hy] at hw0; exact hv hw0
  have hgx1 := hgx.1; have hgy1 := hgy.1; have hgx2 := hgx.2.1
  have hne : ¬ 0 = v.vals.length := fun h => hvl h.symm
  simp [step, assign, obj_eq hox, obj_eq hoy, bind_ok, sizeOf, hgx1, hgy1, hvl, hxy, reallocFor, hw0, hgx2, hw, hne, Out.bind]

/-- Without assertions OpenCL carries on: the target has the new size, but no buffer, so its elements are lost. -/
theorem C69_moved_lost_false (s : St V) (e : Env V) (h : Rel s e) (x y : Nat) (v w : Val V) (hx : e x = some w)
    (hw : w.moved = true) (hy : e y = some v) (hv : v.vals ≠ []) :
    ∃ s', step ⟨.opencl, false⟩ (.assign x y) s = .ok s' ∧ s'.objs x = some ⟨none, some v.vals.length, false⟩ ∧
      ∀ i, read ⟨.opencl, false⟩ x i s' = .ok none := by
  obtain ⟨ox, hox, hgx⟩ := h.get hx
  obtain ⟨oy, hoy, hgy⟩ := h.get hy
  have hvl : v.vals.length ≠ 0 := fun h0 => hv (List.length_eq_zero_iff.1 h0)
  have hw0 := hgx.2.2.1 hw
  have hxy : x ≠ y := by rintro rfl; rw [hx] at hy; injection hy with hy; rw [hy] at hw0; exact hv hw0
  have hgx1 := hgx.1; have hgy1 := hgy.1; have hgx2 := hgx.2.1
  have hne : ¬ 0 = v.vals.length := fun h => hvl h.symm
  have hb : ox.buf = none := by
    have h4 := hgx.2.2.2
    cases hb : ox.buf with
    | none => rfl
    | some b => rw [hb] at h4; obtain ⟨_, _, _, h7⟩ := h4; exact absurd hw0 h7
  have hcb : copyBuf ⟨.opencl, false⟩ none oy.buf v.vals.length s = .ok s := by
    unfold copyBuf
    rw [if_neg hvl]
    cases cells s oy.buf with
    | none => rfl
    | some vs =>
      simp only [put, cells, invalid]
      split_ifs <;> rfl
  have hst : step ⟨.opencl, false⟩ (.assign x y) s = .ok (s.setObj x (some ⟨none, some v.vals.length, false⟩)) := by
    simp [step, assign, obj_eq hox, obj_eq hoy, bind_ok, sizeOf, hgx1, hgy1, hvl, hxy, reallocFor, hw0, hgx2, hw, hne, hb, hcb]
  refine ⟨_, hst, by simp [St.setObj], fun i => ?_⟩
  simp [read, obj, St.setObj, bind_ok, index, sizeOf, Out.assert, cells]

/-- CUDA without assertions: the same assignment copies to a null pointer. -/
theorem C69_moved_cuda_false (s : St V) (e : Env V) (h : Rel s e) (x y : Nat) (v w : Val V) (hx : e x = some w)
    (hw : w.moved = true) (hy : e y = some v) (hv : v.vals ≠ []) : step ⟨.cuda, false⟩ (.assign x y) s = .ub := by
  obtain ⟨ox, hox, hgx⟩ := h.get hx
  obtain ⟨oy, hoy, hgy⟩ := h.get hy
  have hvl : v.vals.length ≠ 0 := fun h0 => hv (List.length_eq_zero_iff.1 h0)
  have hw0 := hgx.2.2.1 hw
  have hxy : x ≠ y := by rintro rfl; rw [hx] at hy; injection hy with hy; rw [hy] at hw0; exact hv hw0
  have hgx1 := hgx.1; have hgy1 := hgy.1; have hgx2 := hgx.2.1
  have hne : ¬ 0 = v.vals.length := fun h => hvl h.symm
  have hb : ox.buf = none := by
    have h4 := hgx.2.2.2
    cases hb : ox.buf with
    | none => rfl
    | some b => rw [hb] at h4; obtain ⟨_, _, _, h7⟩ := h4; exact absurd hw0 h7
  have hcb : copyBuf ⟨.cuda, false⟩ none oy.buf v.vals.length s = .ub := by
    have h4 := hgy.2.2.2
    cases hby : oy.buf with
    | none => rw [hby] at h4; exact absurd h4 hv
    | some b =>
      rw [hby] at h4
      obtain ⟨cs, h5, h6, -⟩ := h4
      have := congrArg List.length h6
      simp only [List.length_take] at this
      simp only [copyBuf, hvl, if_false, cells, h5]
      rw [if_pos (by omega), h6]
      simp [put, hvl, invalid]
  simp [step, assign, obj_eq hox, obj_eq hoy, bind_ok, sizeOf, hgx1, hgy1, hvl, hxy, reallocFor, hw0, hgx2, hw, hne, hb, hcb, Out.bind]

/-- CUDA: move assignment leaks the target's buffer.  It is live after both storages are gone. -/
theorem C69_leak_false (n m : Nat) (hn : 0 < n) (hm : 0 < m) :
    ∃ s, run ⟨.cuda, false⟩ [.size 0 n, .size 1 m, .moveAssign 0 1, .destroy 0, .destroy 1] (St.empty (V := V)) = .ok s ∧
      (∀ x, s.objs x = none) ∧ (s.bufs 0).isSome := by
  have h0 : n ≠ 0 := by omega
  have h1 : m ≠ 0 := by omega
  refine ⟨_, by simp [run, step, ctorSize, fresh, St.empty, Out.bind, alloc, h0, h1, callsTwice, mallocOnce, St.setObj, moveAssign, moveInto,
    destroy, obj, dealloc, freeOnce, St.setBuf, Function.update]; rfl, fun x => ?_, ?_⟩
  · simp only []
    by_cases hx1 : x = 1
    · simp [hx1]
    · by_cases hx0 : x = 0
      · simp [hx0]
      · simp [hx0, hx1]
  · simp

/-- A default-constructed storage has an uninitialised size: resizing it, copying it and assigning to it are undefined. -/
theorem C69_default_false (c : Cfg) (x : Nat) (k : Cmd V) (s : St V) (ho : s.objs x = none)
    (hk : (∃ n, k = .resize x n) ∨ (∃ n, k = .resizeNew x n) ∨
      ∃ y, k = .copy y x ∧ y ≠ x ∧ s.objs y = none) : run c [.default x, k] s = .ub := by
  rcases hk with ⟨n, rfl⟩ | ⟨n, rfl⟩ | ⟨y, rfl, hyx, hy⟩
  · simp [run, step, ctorDefault, fresh, ho, Out.bind, St.setObj, resize, obj, sizeOf]
  · simp [run, step, ctorDefault, fresh, ho, Out.bind, St.setObj, resizeNew, obj, sizeOf]
  · simp [run, step, ctorDefault, fresh, ho, Out.bind, St.setObj, copyOf, obj, sizeOf, Function.update_of_ne hyx, hy]

/-! A non-trivial program satisfies the hypotheses of `C69_partial`: construct, copy, write to the copy, assign back, resize, move, destroy. -/

/-- The example program. -/
def demo : List (Cmd Nat) :=
  [.list 0 [1, 2, 3], .copy 1 0, .write 1 1 7, .fill 2 5 9, .assign 2 1, .resize 2 4, .moveCtor 3 2, .moveAssign 2 0, .destroy 1]

example : (meanings demo (fun _ => none)).isSome = true := by decide +kernel

example (be : Backend) : AllCareful be demo (fun _ => none) := by
  simp [demo, AllCareful, Careful, meaning, Function.update]

example : (meanings demo (fun _ => none)).bind (fun e => (e 3).map (·.vals)) = some [some 1, some 7, some 3, none] := by decide +kernel

/-- The states that `demo` reaches satisfy `Rel`, the hypothesis of the refutations; storage 2 was moved from, storage 3 is not empty. -/
example : ∃ s e, run ⟨.opencl, true⟩ [Cmd.list 2 [1, 2], .moveCtor 3 2] St.empty = .ok s ∧ Rel s e ∧ e 2 = some ⟨[], true⟩ ∧
    e 3 = some ⟨[some 1, some 2], false⟩ := by
  obtain ⟨s, hs, hR⟩ := Rel.run (c := ⟨.opencl, true⟩) (.inl rfl) [Cmd.list 2 [1, 2], .moveCtor 3 2] Rel.empty
    (by simp [AllCareful, Careful]) rfl
  exact ⟨s, _, hs, hR, rfl, rfl⟩

end Verif.GpuSt
