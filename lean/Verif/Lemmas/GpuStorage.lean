import Verif.Spec.GpuStorage
import Mathlib.Tactic.Common
import Mathlib.Order.Lattice

/-!
# Lemmas on device storages

A simulation between the device memory and the values of the specification.
-/

namespace Verif.GpuSt

variable {V : Type}

/-- Object `o` represents the value `v`. -/
def Good (bufs : Nat → Option (List (Option V))) (o : Obj) (v : Val V) : Prop :=
  o.size = some v.vals.length ∧ o.owns = !v.moved ∧ (v.moved = true → v.vals = []) ∧
  match o.buf with
  | none => v.vals = []
  | some b => ∃ cs, bufs b = some cs ∧ cs.take v.vals.length = v.vals ∧ v.vals ≠ []

/-- Device memory represents the environment, and no two objects share a buffer. -/
structure Rel (s : St V) (e : Env V) : Prop where
  dom : ∀ x, s.objs x = none ↔ e x = none
  good : ∀ x o v, s.objs x = some o → e x = some v → Good s.bufs o v
  inj : ∀ x y ox oy b, s.objs x = some ox → s.objs y = some oy → ox.buf = some b → oy.buf = some b → x = y
  lt : ∀ x o b, s.objs x = some o → o.buf = some b → b < s.next

theorem Rel.empty : Rel (V := V) St.empty (fun _ => none) :=
  ⟨fun _ => by simp [St.empty], fun _ _ _ h => by simp [St.empty] at h, fun _ _ _ _ _ h => by simp [St.empty] at h,
    fun _ _ _ h => by simp [St.empty] at h⟩

theorem Rel.get {s : St V} {e : Env V} (h : Rel s e) {x : Nat} {v : Val V} (hx : e x = some v) :
    ∃ o, s.objs x = some o ∧ Good s.bufs o v := by
  cases ho : s.objs x with
  | none => rw [(h.dom x).1 ho] at hx; cases hx
  | some o => exact ⟨o, rfl, h.good x o v ho hx⟩

theorem Rel.free {s : St V} {e : Env V} (h : Rel s e) {x : Nat} (hx : (e x).isSome = false) : s.objs x = none := by
  rw [h.dom x]; simpa using hx

/-- Replacing one object. -/
theorem Rel.set {s s' : St V} {e : Env V} (h : Rel s e) (x : Nat) (o : Obj) (v : Val V)
    (hobj : s'.objs = Function.update s.objs x (some o)) (hn : s.next ≤ s'.next)
    (hb : ∀ y oy b, y ≠ x → s.objs y = some oy → oy.buf = some b → s'.bufs b = s.bufs b)
    (hg : Good s'.bufs o v)
    (ho : ∀ b, o.buf = some b → b < s'.next ∧ ∀ y oy, y ≠ x → s.objs y = some oy → oy.buf ≠ some b) :
    Rel s' (Function.update e x (some v)) := by
  refine ⟨fun y => ?_, fun y oy w hy hw => ?_, fun y z oy oz b hy hz hby hbz => ?_, fun y oy b hy hby => ?_⟩
  · rw [hobj]
    by_cases hyx : y = x
    · subst hyx; simp
    · simp only [Function.update_of_ne hyx]; exact h.dom y
  · rw [hobj] at hy
    by_cases hyx : y = x
    · subst hyx
      simp only [Function.update_self, Option.some.injEq] at hy hw
      subst hy; subst hw; exact hg
    · simp only [Function.update_of_ne hyx] at hy hw
      have hG := h.good y oy w hy hw
      refine ⟨hG.1, hG.2.1, hG.2.2.1, ?_⟩
      have h4 := hG.2.2.2
      cases hbuf : oy.buf with
      | none => rw [hbuf] at h4; exact h4
      | some b =>
        rw [hbuf] at h4
        obtain ⟨cs, h5, h6, h7⟩ := h4
        exact ⟨cs, by rw [hb y oy b hyx hy hbuf]; exact h5, h6, h7⟩
  · rw [hobj] at hy hz
    by_cases hyx : y = x <;> by_cases hzx : z = x
    · rw [hyx, hzx]
    · subst hyx
      simp only [Function.update_self, Option.some.injEq, Function.update_of_ne hzx] at hy hz
      subst hy
      exact absurd hbz ((ho b hby).2 z oz hzx hz)
    · subst hzx
      simp only [Function.update_self, Option.some.injEq, Function.update_of_ne hyx] at hy hz
      subst hz
      exact absurd hby ((ho b hbz).2 y oy hyx hy)
    · simp only [Function.update_of_ne hyx, Function.update_of_ne hzx] at hy hz
      exact h.inj y z oy oz b hy hz hby hbz
  · rw [hobj] at hy
    by_cases hyx : y = x
    · subst hyx
      simp only [Function.update_self, Option.some.injEq] at hy
      subst hy; exact (ho b hby).1
    · simp only [Function.update_of_ne hyx] at hy
      exact lt_of_lt_of_le (h.lt y oy b hy hby) hn

/-- Removing one object. -/
theorem Rel.erase {s s' : St V} {e : Env V} (h : Rel s e) (x : Nat)
    (hobj : s'.objs = Function.update s.objs x none) (hn : s.next ≤ s'.next)
    (hb : ∀ y oy b, y ≠ x → s.objs y = some oy → oy.buf = some b → s'.bufs b = s.bufs b) :
    Rel s' (Function.update e x none) := by
  refine ⟨fun y => ?_, fun y oy w hy hw => ?_, fun y z oy oz b hy hz hby hbz => ?_, fun y oy b hy hby => ?_⟩
  · rw [hobj]
    by_cases hyx : y = x
    · subst hyx; simp
    · simp only [Function.update_of_ne hyx]; exact h.dom y
  · rw [hobj] at hy
    by_cases hyx : y = x
    · subst hyx; simp at hy
    · simp only [Function.update_of_ne hyx] at hy hw
      have hG := h.good y oy w hy hw
      refine ⟨hG.1, hG.2.1, hG.2.2.1, ?_⟩
      have h4 := hG.2.2.2
      cases hbuf : oy.buf with
      | none => rw [hbuf] at h4; exact h4
      | some b =>
        rw [hbuf] at h4
        obtain ⟨cs, h5, h6, h7⟩ := h4
        exact ⟨cs, by rw [hb y oy b hyx hy hbuf]; exact h5, h6, h7⟩
  · rw [hobj] at hy hz
    by_cases hyx : y = x <;> by_cases hzx : z = x
    · rw [hyx, hzx]
    · subst hyx; simp at hy
    · subst hzx; simp at hz
    · simp only [Function.update_of_ne hyx, Function.update_of_ne hzx] at hy hz
      exact h.inj y z oy oz b hy hz hby hbz
  · rw [hobj] at hy
    by_cases hyx : y = x
    · subst hyx; simp at hy
    · simp only [Function.update_of_ne hyx] at hy
      exact lt_of_lt_of_le (h.lt y oy b hy hby) hn

theorem single_twice {c : Cfg} (h : c.Single) : callsTwice c = false := by
  rcases h with h | h <;> simp [callsTwice, h]

theorem capacity_le (be : Backend) (n : Nat) : n ≤ capacity be n := by
  cases be <;> simp only [capacity] <;> omega

/-- The buffer and the state after allocating `n` elements and writing `vs` to the front. -/
def after (be : Backend) (n : Nat) (vs : List (Option V)) (s : St V) : Option Nat × St V :=
  if n = 0 then (none, s)
  else (some s.next, { s with
    bufs := Function.update s.bufs s.next (some (vs ++ List.replicate (capacity be n - vs.length) none)), next := s.next + 1 })

theorem alloc_eq {c : Cfg} (h : c.Single) (n : Nat) (s : St V) : alloc c n s = after c.be n [] s := by
  simp [alloc, after, single_twice h, mallocOnce]

theorem put_after {c : Cfg} (n : Nat) (vs : List (Option V)) (s : St V) (hv : vs.length ≤ n) :
    put c (after c.be n [] s).1 vs (after c.be n [] s).2 = .ok (after c.be n vs s).2 := by
  unfold put
  by_cases h0 : n = 0
  · have : vs.length = 0 := by omega
    simp [this, after, h0]
  · by_cases hv0 : vs.length = 0
    · have : vs = [] := List.length_eq_zero_iff.1 hv0
      subst this; simp
    · have hc := capacity_le c.be n
      simp only [hv0, if_false, after, h0, cells, Function.update_self, List.nil_append, List.length_nil, Nat.sub_zero,
        List.length_replicate, St.setBuf, Function.update_idem, List.drop_replicate]
      rw [if_pos (by omega)]

theorem after_fst (be : Backend) (n : Nat) (vs ws : List (Option V)) (s : St V) : (after be n vs s).1 = (after be n ws s).1 := by
  unfold after; split_ifs <;> rfl

theorem after_objs (be : Backend) (n : Nat) (vs : List (Option V)) (s : St V) : (after be n vs s).2.objs = s.objs := by
  unfold after; split_ifs <;> rfl

theorem after_next (be : Backend) (n : Nat) (vs : List (Option V)) (s : St V) : s.next ≤ (after be n vs s).2.next := by
  unfold after; split_ifs <;> simp

theorem after_bufs (be : Backend) (n : Nat) (vs : List (Option V)) (s : St V) (b : Nat) (hb : b < s.next) :
    (after be n vs s).2.bufs b = s.bufs b := by
  unfold after
  split_ifs
  · rfl
  · simp only []
    rw [Function.update_of_ne (by omega)]

theorem after_good (be : Backend) (n : Nat) (vs : List (Option V)) (s : St V) (m : Bool) (hv : vs.length ≤ n) (hm : m = true → n = 0) :
    Good (after be n vs s).2.bufs ⟨(after be n vs s).1, some n, !m⟩ ⟨vs ++ List.replicate (n - vs.length) none, m⟩ := by
  have hlen : (vs ++ List.replicate (n - vs.length) none).length = n := by simp; omega
  refine ⟨by simp only [hlen], rfl, fun h => List.length_eq_zero_iff.1 (by rw [hlen]; exact hm h), ?_⟩
  by_cases h0 : n = 0
  · simp only [after, h0, if_true]
    have : vs = [] := List.length_eq_zero_iff.1 (by omega)
    simp [this]
  · simp only [after, h0, if_false]
    refine ⟨_, Function.update_self .., ?_, fun h => h0 ?_⟩
    · have hc := capacity_le be n
      rw [hlen, List.take_append, List.take_of_length_le hv, List.take_replicate]
      congr 2; omega
    · rw [← hlen, h]; rfl

theorem after_buf_lt (be : Backend) (n : Nat) (vs : List (Option V)) (s : St V) (b : Nat) (h : (after be n vs s).1 = some b) :
    b = s.next ∧ b < (after be n vs s).2.next := by
  unfold after at h ⊢
  split_ifs at h ⊢ with h0
  simp only [Option.some.injEq] at h
  subst h; simp

/-- Constructing a new storage. -/
theorem Rel.new {s : St V} {e : Env V} (h : Rel s e) (be : Backend) (x n : Nat) (vs : List (Option V)) (hv : vs.length ≤ n)
    (_hx : s.objs x = none) :
    Rel ((after be n vs s).2.setObj x (some ⟨(after be n vs s).1, some n, true⟩))
      (Function.update e x (some ⟨vs ++ List.replicate (n - vs.length) none, false⟩)) := by
  refine h.set x _ _ (by simp only [St.setObj, after_objs]; rfl) (after_next ..) (fun y oy b _ hy hb => after_bufs _ _ _ _ _ (h.lt y oy b hy hb))
    (after_good be n vs s false hv (by simp)) (fun b hb => ?_)
  have := after_buf_lt be n vs s b hb
  refine ⟨this.2, fun y oy _ hy hby => ?_⟩
  have := h.lt y oy b hy hby
  omega

theorem fresh_eq {s : St V} {x : Nat} (h : s.objs x = none) : fresh s x = .ok () := by simp [fresh, h]

theorem obj_eq {s : St V} {x : Nat} {o : Obj} (h : s.objs x = some o) : obj s x = .ok o := by simp [obj, h]

theorem bind_ok {α β : Type} (a : α) (f : α → Out β) : (Out.ok a).bind f = f a := rfl

/-- Copying the first elements of a represented object into a new buffer. -/
theorem copyBuf_after {c : Cfg} {s s0 : St V} {o : Obj} {v : Val V} (hg : Good s0.bufs o v) (n k : Nat) (hk : k ≤ v.vals.length)
    (hkn : k ≤ n) (hlt : ∀ b, o.buf = some b → b < s.next ∧ s.bufs b = s0.bufs b) :
    copyBuf c (after c.be n [] s).1 o.buf k (after c.be n [] s).2 = .ok (after c.be n (v.vals.take k) s).2 := by
  unfold copyBuf
  by_cases hk0 : k = 0
  · simp [hk0]
  · have h4 := hg.2.2.2
    cases hbuf : o.buf with
    | none => rw [hbuf] at h4; simp only at h4; rw [h4] at hk; simp at hk; omega
    | some b =>
      rw [hbuf] at h4
      obtain ⟨cs, h5, h6, -⟩ := h4
      have hl := congrArg List.length h6
      simp only [List.length_take] at hl
      have ht : cs.take k = v.vals.take k := by rw [← h6, List.take_take]; congr 1; omega
      simp only [hk0, if_false, cells, after_bufs _ _ _ _ _ (hlt b hbuf).1, (hlt b hbuf).2, h5]
      rw [if_pos (by omega), ht, put_after]
      simp; omega

/-- Freeing the buffer of a represented object. -/
theorem dealloc_good {c : Cfg} (hc : c.Single) {s : St V} {o : Obj} {v : Val V} (hg : Good s.bufs o v) :
    ∃ s', dealloc c o.buf s = .ok s' ∧ s'.objs = s.objs ∧ s'.next = s.next ∧ ∀ b, o.buf ≠ some b → s'.bufs b = s.bufs b := by
  have h4 := hg.2.2.2
  unfold dealloc
  cases hbuf : o.buf with
  | none => cases c.be <;> exact ⟨s, rfl, rfl, rfl, fun _ _ => rfl⟩
  | some b =>
    cases hbe : c.be with
    | opencl => exact ⟨s, rfl, rfl, rfl, fun _ _ => rfl⟩
    | cuda =>
      rw [hbuf] at h4
      obtain ⟨cs, h5, -, -⟩ := h4
      refine ⟨s.setBuf b none, by simp [freeOnce, h5, bind_ok, single_twice hc], rfl, rfl, fun b' hb' => ?_⟩
      simp only [St.setBuf]
      rw [Function.update_of_ne]
      intro h; exact hb' (by rw [h])

theorem Rel.step {c : Cfg} (hc : c.Single) {s : St V} {e e' : Env V} (h : Rel s e) (k : Cmd V) (hk : Careful c.be k e)
    (hm : meaning k e = some e') : ∃ s', GpuSt.step c k s = .ok s' ∧ Rel s' e' := by
  have hnl := fun (n : Nat) (ws : List (Option V)) => after_fst c.be n [] ws s
  have newList : ∀ x (vs : List V), s.objs x = none → ∃ s', ctorList c x vs s = .ok s' ∧
      Rel s' (Function.update e x (some ⟨vs.map some, false⟩)) := by
    intro x vs hx
    have := h.new c.be x vs.length (vs.map some) (by simp) hx
    simp only [ctorList, fresh_eq hx, bind_ok, alloc_eq hc]
    rw [put_after _ _ _ (by simp), bind_ok, hnl _ (vs.map some)]
    exact ⟨_, rfl, by simpa using this⟩
  have newCopy : ∀ x y v, s.objs x = none → e y = some v → ∃ s', copyOf c x y s = .ok s' ∧
      Rel s' (Function.update e x (some ⟨v.vals, false⟩)) := by
    intro x y v hx hy
    obtain ⟨o, ho, hg⟩ := h.get hy
    have := h.new c.be x v.vals.length v.vals (le_refl _) hx
    simp only [copyOf, fresh_eq hx, obj_eq ho, bind_ok, sizeOf, hg.1, alloc_eq hc]
    rw [copyBuf_after hg _ _ (le_refl _) (le_refl _) (fun b hb => ⟨h.lt y o b ho hb, rfl⟩), bind_ok, List.take_length, hnl _ v.vals]
    exact ⟨_, rfl, by simpa using this⟩
  have move : ∀ x y v, x ≠ y → e y = some v → ∃ s', moveInto x y s = .ok s' ∧
      Rel s' (Function.update (Function.update e x (some v)) y (some ⟨[], true⟩)) := by
    intro x y v hxy hy
    obtain ⟨o, ho, hg⟩ := h.get hy
    have h1 : Rel (s.setObj y (some ⟨none, some 0, false⟩)) (Function.update e y (some ⟨[], true⟩)) :=
      h.set y _ _ rfl (le_refl _) (fun _ _ _ _ _ _ => rfl) ⟨rfl, rfl, fun _ => rfl, rfl⟩ (fun b hb => by simp at hb)
    simp only [moveInto, obj_eq ho, bind_ok]
    refine ⟨_, rfl, ?_⟩
    rw [Function.update_comm hxy]
    refine h1.set x o v ?_ (le_refl _) (fun _ _ _ _ _ _ => rfl) hg (fun b hb => ⟨h.lt y o b ho hb, fun z oz hz hoz hbz => ?_⟩)
    · simp only [St.setObj]; rw [Function.update_comm hxy]
    · simp only [St.setObj] at hoz
      by_cases hzy : z = y
      · subst hzy
        simp only [Function.update_self, Option.some.injEq] at hoz
        subst hoz; simp at hbz
      · rw [Function.update_of_ne hzy] at hoz
        exact hzy (h.inj z y oz o b hoz ho hbz hb)
  have checks : ∀ o old n, o.owns = true → 0 < n → resizeChecks c o old n = .ok (decide (n ≠ old)) := by
    intro o old n ho hn
    unfold resizeChecks
    have h1 : Out.assert c.asserts (decide (0 < n)) = .ok () := by simp [Out.assert, hn]
    have h2 : Out.assert c.asserts true = .ok () := by simp [Out.assert]
    rw [h1, ho, h2]
    cases c.be <;> by_cases hno : n = old <;> simp [hno, bind_ok]
  cases k with
  | default x => exact absurd hk (by simp [Careful])
  | size x n =>
    simp only [meaning] at hm
    split_ifs at hm with hx
    simp only [Option.some.injEq] at hm; subst hm
    have hx' := h.free (by simpa using hx)
    simp only [GpuSt.step, ctorSize, fresh_eq hx', bind_ok, alloc_eq hc]
    refine ⟨_, rfl, ?_⟩
    have := h.new c.be x n [] (Nat.zero_le n) hx'
    simpa using this
  | fill x n v =>
    simp only [meaning] at hm
    split_ifs at hm with hx
    simp only [Option.some.injEq] at hm; subst hm
    have hx' := h.free (by simpa using hx)
    simp only [GpuSt.step, ctorFill, fresh_eq hx', bind_ok, alloc_eq hc, emptyLaunch, single_twice hc]
    simp only [Bool.false_eq_true, and_false, if_false, bind_ok]
    rw [put_after _ _ _ (by simp), bind_ok, hnl _ (List.replicate n (some v))]
    refine ⟨_, rfl, ?_⟩
    have := h.new c.be x n (List.replicate n (some v)) (by simp) hx'
    simpa using this
  | list x vs =>
    simp only [meaning] at hm
    split_ifs at hm with hx
    simp only [Option.some.injEq] at hm; subst hm
    exact newList x vs (h.free (by simpa using hx))
  | fromData x vs =>
    simp only [meaning] at hm
    split_ifs at hm with hx
    simp only [Option.some.injEq] at hm; subst hm
    simp only [GpuSt.step, fromData]
    cases hbe : c.be with
    | opencl => exact newList x vs (h.free (by simpa using hx))
    | cuda =>
      have : vs.length ≠ 0 := fun h0 => hk hbe (List.length_eq_zero_iff.1 h0)
      simp only [this, if_false]
      exact newList x vs (h.free (by simpa using hx))
  | copyCtor x y =>
    simp only [meaning] at hm
    split_ifs at hm with hx
    simp only [Option.map_eq_some_iff] at hm
    obtain ⟨v, hy, hm⟩ := hm; subst hm
    have hx' := h.free (by simpa using hx)
    simp only [GpuSt.step, copyCtor]
    cases hbe : c.be with
    | opencl => exact newCopy x y v hx' hy
    | cuda =>
      have hv := hk hbe v hy
      obtain ⟨o, ho, hg⟩ := h.get hy
      have hbuf : o.buf = none := by
        have h4 := hg.2.2.2
        cases hbuf : o.buf with
        | none => rfl
        | some b => rw [hbuf] at h4; obtain ⟨_, _, _, h7⟩ := h4; exact absurd hv h7
      simp only [copyCtorCuda, fresh_eq hx', obj_eq ho, bind_ok, hbuf, hg.1]
      refine ⟨_, rfl, ?_⟩
      have := h.new c.be x 0 [] (Nat.zero_le 0) hx'
      simpa [after, hv] using this
  | copy x y =>
    simp only [meaning] at hm
    split_ifs at hm with hx
    simp only [Option.map_eq_some_iff] at hm
    obtain ⟨v, hy, hm⟩ := hm; subst hm
    exact newCopy x y v (h.free (by simpa using hx)) hy
  | moveCtor x y =>
    simp only [meaning] at hm
    split_ifs at hm with hx
    simp only [Option.map_eq_some_iff] at hm
    obtain ⟨v, hy, hm⟩ := hm; subst hm
    have hx' := h.free (by simpa using hx)
    have hxy : x ≠ y := by rintro rfl; rw [hy] at hx; simp at hx
    simp only [GpuSt.step, moveCtor, fresh_eq hx', bind_ok]
    exact move x y v hxy hy
  | moveAssign x y =>
    simp only [meaning, Option.bind_eq_some_iff, Option.map_eq_some_iff] at hm
    obtain ⟨w, hx, v, hy, hm⟩ := hm
    obtain ⟨ox, hox, -⟩ := h.get hx
    simp only [GpuSt.step, moveAssign, obj_eq hox, bind_ok]
    split_ifs at hm ⊢ with hxy
    · subst hm; exact ⟨s, rfl, h⟩
    · subst hm; exact move x y v hxy hy
  | assign x y =>
    simp only [meaning, Option.bind_eq_some_iff, Option.map_eq_some_iff] at hm
    obtain ⟨w, hx, v, hy, hm⟩ := hm
    obtain ⟨ox, hox, hgx⟩ := h.get hx
    obtain ⟨oy, hoy, hgy⟩ := h.get hy
    simp only [GpuSt.step, GpuSt.assign, obj_eq hox, obj_eq hoy, bind_ok]
    split_ifs at hm ⊢ with hxy
    · subst hm; exact ⟨s, rfl, h⟩
    · subst hm
      rcases hk with hk | ⟨hk1, hk2⟩
      · exact absurd hk hxy
      have hv := hk1 v hy
      have hw := hk2 w hx
      have hown : ox.owns = true := by rw [hgx.2.1, hw]; rfl
      have hvl : v.vals.length ≠ 0 := fun h0 => hv (List.length_eq_zero_iff.1 h0)
      have hne : ∀ b, oy.buf = some b → ox.buf ≠ some b := fun b hb hb' => hxy (h.inj x y ox oy b hox hoy hb' hb)
      have hgx1 := hgx.1; have hgy1 := hgy.1
      simp only [sizeOf, hgx1, hgy1, bind_ok, hvl, if_false, reallocFor, hown, if_true]
      by_cases hl : w.vals.length = v.vals.length
      · rw [if_pos hl, bind_ok]
        have h4 := hgx.2.2.2
        have h4' := hgy.2.2.2
        cases hbx : ox.buf with
        | none => rw [hbx] at h4; simp only at h4; rw [h4] at hl; simp at hl; exact absurd (List.length_eq_zero_iff.1 hl.symm) hv
        | some b =>
          cases hby : oy.buf with
          | none => rw [hby] at h4'; exact absurd h4' hv
          | some b' =>
            rw [hbx] at h4; rw [hby] at h4'
            obtain ⟨cs, h5, h6, h7⟩ := h4
            obtain ⟨cs', h5', h6', h7'⟩ := h4'
            have hlc := congrArg List.length h6
            have hlc' := congrArg List.length h6'
            simp only [List.length_take] at hlc hlc'
            have hcb : copyBuf c (some b) (some b') v.vals.length s = .ok (s.setBuf b (some (v.vals ++ cs.drop v.vals.length))) := by
              simp only [copyBuf, hvl, if_false, cells, h5']
              rw [if_pos (by omega), h6']
              simp only [put, hvl, if_false, cells, h5]
              rw [if_pos (by omega)]
            simp only [hcb, bind_ok]
            refine ⟨_, rfl, h.set x _ _ rfl (le_refl _) (fun z oz bz hz hoz hbz => ?_) ⟨rfl, by simp, by simp, ?_⟩ (fun b0 hb0 => ?_)⟩
            · simp only [St.setObj, St.setBuf]
              rw [Function.update_of_ne]
              rintro rfl
              exact hz (h.inj z x oz ox _ hoz hox hbz hbx)
            · refine ⟨_, Function.update_self .., ?_, hv⟩
              simp
            · simp only [Option.some.injEq] at hb0; subst hb0
              exact ⟨h.lt x ox b hox hbx, fun z oz hz hoz hbz => hz (h.inj z x oz ox _ hoz hox hbz hbx)⟩
      · rw [if_neg hl]
        obtain ⟨s1, hd, ho1, hn1, hb1⟩ := dealloc_good hc hgx
        simp only [hd, bind_ok, alloc_eq hc]
        rw [copyBuf_after hgy _ _ (le_refl _) (le_refl _) (fun b hb => ⟨by rw [hn1]; exact h.lt y oy b hoy hb, hb1 b (hne b hb)⟩), bind_ok,
          List.take_length, after_fst c.be _ [] v.vals]
        refine ⟨_, rfl, h.set x _ _ (by simp only [St.setObj, after_objs, ho1]; rfl)
          (by have := after_next c.be v.vals.length v.vals s1; rw [hn1] at this; exact this)
          (fun z oz bz hz hoz hbz => ?_) ?_ (fun b0 hb0 => ?_)⟩
        · simp only [St.setObj]
          rw [after_bufs _ _ _ _ _ (by rw [hn1]; exact h.lt z oz bz hoz hbz), hb1]
          intro hb; exact hz (h.inj z x oz ox _ hoz hox hbz hb)
        · have := after_good c.be v.vals.length v.vals s1 false (le_refl _) (by simp)
          simpa [St.setObj] using this
        · have := after_buf_lt _ _ _ _ _ hb0
          refine ⟨this.2, fun z oz hz hoz hbz => ?_⟩
          have h8 := h.lt z oz b0 hoz hbz
          rw [hn1] at this; omega
  | resize x n =>
    simp only [meaning, Option.map_eq_some_iff] at hm
    obtain ⟨w, hx, hm⟩ := hm; subst hm
    obtain ⟨ox, hox, hgx⟩ := h.get hx
    have hw := hk.2 w hx
    have hown : ox.owns = true := by rw [hgx.2.1, hw]; rfl
    have hgx1 := hgx.1
    simp only [GpuSt.step, GpuSt.resize, obj_eq hox, bind_ok, sizeOf, hgx1, checks ox _ n hown hk.1]
    by_cases hl : n = w.vals.length
    · subst hl
      simp only [ne_eq, not_true_eq_false, decide_false, Bool.false_eq_true, if_false, List.take_length, Nat.sub_self, List.replicate_zero,
        List.append_nil]
      refine ⟨s, rfl, ?_⟩
      rw [Function.update_eq_self_iff.2]
      · exact h
      · exact hx.symm
    · simp only [ne_eq, hl, not_false_eq_true, decide_true, if_true, alloc_eq hc]
      rw [copyBuf_after hgx _ _ (min_le_left _ _) (min_le_right _ _) (fun b hb => ⟨h.lt x ox b hox hb, rfl⟩), bind_ok,
        after_fst c.be _ [] (w.vals.take (min w.vals.length n))]
      have htk : w.vals.take (min w.vals.length n) = w.vals.take n := by
        rcases Nat.le_total w.vals.length n with h' | h'
        · rw [min_eq_left h', List.take_length, List.take_of_length_le h']
        · rw [min_eq_right h']
      rw [htk]
      have hg1 : Good (after c.be n (w.vals.take n) s).2.bufs ox w := by
        refine ⟨hgx.1, hgx.2.1, hgx.2.2.1, ?_⟩
        have h4 := hgx.2.2.2
        cases hbuf : ox.buf with
        | none => rw [hbuf] at h4; exact h4
        | some b =>
          rw [hbuf] at h4
          obtain ⟨cs, h5, h6⟩ := h4
          exact ⟨cs, by rw [after_bufs _ _ _ _ _ (h.lt x ox b hox hbuf)]; exact h5, h6⟩
      obtain ⟨s1, hd, ho1, hn1, hb1⟩ := dealloc_good hc hg1
      simp only [hd, bind_ok]
      have hlen : (w.vals.take n).length ≤ n := by simp
      have hG := after_good c.be n (w.vals.take n) s false hlen (by simp)
      refine ⟨_, rfl, h.set x _ _ (by simp only [St.setObj, ho1, after_objs]; rfl)
        (by simp only [St.setObj, hn1]; exact after_next ..) (fun z oz bz hz hoz hbz => ?_) ?_ (fun b0 hb0 => ?_)⟩
      · simp only [St.setObj]
        rw [hb1, after_bufs _ _ _ _ _ (h.lt z oz bz hoz hbz)]
        intro hb; exact hz (h.inj z x oz ox _ hoz hox hbz hb)
      · have hrep : n - (w.vals.take n).length = n - w.vals.length := by simp; omega
        rw [hrep] at hG
        simp only [hown, hw]
        refine ⟨hG.1, hG.2.1, hG.2.2.1, ?_⟩
        have h4 := hG.2.2.2
        have hfst : (after c.be n (w.vals.take n) s).1 = some s.next := by
          unfold after; rw [if_neg (by have := hk.1; omega)]
        simp only [hfst] at h4 ⊢
        obtain ⟨cs, h5, h6⟩ := h4
        refine ⟨cs, ?_, h6⟩
        simp only [St.setObj]
        rw [hb1]
        · exact h5
        · intro hb; have := h.lt x ox _ hox hb; omega
      · have := after_buf_lt _ _ _ _ _ hb0
        refine ⟨by simp only [St.setObj, hn1]; exact this.2, fun z oz hz hoz hbz => ?_⟩
        have h8 := h.lt z oz b0 hoz hbz
        omega
  | resizeNew x n =>
    simp only [meaning, Option.map_eq_some_iff] at hm
    obtain ⟨w, hx, hm⟩ := hm
    obtain ⟨ox, hox, hgx⟩ := h.get hx
    have hw := hk.2 w hx
    have hown : ox.owns = true := by rw [hgx.2.1, hw]; rfl
    have hgx1 := hgx.1
    simp only [GpuSt.step, GpuSt.resizeNew, obj_eq hox, bind_ok, sizeOf, hgx1, checks ox _ n hown hk.1]
    by_cases hl : n = w.vals.length
    · rw [if_pos hl] at hm; subst hm
      simp only [hl, ne_eq, not_true_eq_false, decide_false, Bool.false_eq_true, if_false]
      exact ⟨s, rfl, h⟩
    · rw [if_neg hl] at hm; subst hm
      simp only [ne_eq, hl, not_false_eq_true, decide_true, if_true]
      obtain ⟨s1, hd, ho1, hn1, hb1⟩ := dealloc_good hc hgx
      simp only [hd, bind_ok, alloc_eq hc]
      refine ⟨_, rfl, h.set x _ _ (by simp only [St.setObj, after_objs, ho1]; rfl)
        (by have := after_next c.be n [] s1; rw [hn1] at this; exact this) (fun z oz bz hz hoz hbz => ?_) ?_ (fun b0 hb0 => ?_)⟩
      · simp only [St.setObj]
        rw [after_bufs _ _ _ _ _ (by rw [hn1]; exact h.lt z oz bz hoz hbz), hb1]
        intro hb; exact hz (h.inj z x oz ox _ hoz hox hbz hb)
      · have := after_good c.be n [] s1 false (Nat.zero_le _) (by simp)
        rw [hown, hw]
        simpa [St.setObj] using this
      · have := after_buf_lt _ _ _ _ _ hb0
        refine ⟨this.2, fun z oz hz hoz hbz => ?_⟩
        have h8 := h.lt z oz b0 hoz hbz
        rw [hn1] at this; omega
  | write x i v =>
    simp only [meaning, Option.bind_eq_some_iff] at hm
    obtain ⟨w, hx, hm⟩ := hm
    split_ifs at hm with hi
    simp only [Option.some.injEq] at hm; subst hm
    obtain ⟨ox, hox, hgx⟩ := h.get hx
    have hidx : index c ox i = .ok () := by
      unfold index; cases c.be <;> simp [sizeOf, hgx.1, bind_ok, Out.assert, hi]
    simp only [GpuSt.step, GpuSt.write, obj_eq hox, bind_ok, hidx]
    have h4 := hgx.2.2.2
    cases hbuf : ox.buf with
    | none => rw [hbuf] at h4; simp only at h4; rw [h4] at hi; simp at hi
    | some b =>
      rw [hbuf] at h4
      obtain ⟨cs, h5, h6, h7⟩ := h4
      have hlc := congrArg List.length h6
      simp only [List.length_take] at hlc
      simp only [cells, h5]
      rw [if_pos (by omega)]
      have hR := h.set (s' := s.setBuf b (some (cs.set i (some v)))) x ox ⟨w.vals.set i (some v), w.moved⟩
        (by rw [Function.update_eq_self_iff.2 hox.symm]; rfl) (le_refl _) (fun z oz bz hz hoz hbz => by
          simp only [St.setBuf]
          rw [Function.update_of_ne]
          rintro rfl
          exact hz (h.inj z x oz ox _ hoz hox hbz hbuf))
        ⟨by simp [hgx.1], hgx.2.1, fun hmv => by simp [hgx.2.2.1 hmv], by
          rw [hbuf]
          refine ⟨_, Function.update_self .., ?_, ?_⟩
          · simp only [List.length_set]
            rw [List.take_set, h6]
          · intro h0
            have := congrArg List.length h0
            simp only [List.length_set, List.length_nil] at this; omega⟩
        (fun b0 hb0 => ⟨h.lt x ox b0 hox hb0, fun z oz hz hoz hbz => hz (h.inj z x oz ox _ hoz hox hbz hb0)⟩)
      exact ⟨_, rfl, hR⟩
  | destroy x =>
    simp only [meaning, Option.map_eq_some_iff] at hm
    obtain ⟨w, hx, hm⟩ := hm; subst hm
    obtain ⟨ox, hox, hgx⟩ := h.get hx
    simp only [GpuSt.step, GpuSt.destroy, obj_eq hox, bind_ok]
    obtain ⟨s1, hd, ho1, hn1, hb1⟩ := dealloc_good hc hgx
    cases ox.owns with
    | false =>
      simp only [Bool.false_eq_true, if_false, bind_ok]
      exact ⟨_, rfl, h.erase x rfl (le_refl _) (fun _ _ _ _ _ _ => rfl)⟩
    | true =>
      simp only [if_true, hd, bind_ok]
      refine ⟨_, rfl, h.erase x (by simp only [St.setObj, ho1]) (by simp only [St.setObj, hn1]; exact le_refl _) (fun z oz bz hz hoz hbz => ?_)⟩
      simp only [St.setObj]
      rw [hb1]
      intro hb; exact hz (h.inj z x oz ox _ hoz hox hbz hb)

theorem Rel.run {c : Cfg} (hc : c.Single) : ∀ (ks : List (Cmd V)) {s : St V} {e e' : Env V}, Rel s e → AllCareful c.be ks e →
    meanings ks e = some e' → ∃ s', GpuSt.run c ks s = .ok s' ∧ Rel s' e'
  | [], s, e, e', h, _, hm => by
    simp only [meanings, Option.some.injEq] at hm; subst hm
    exact ⟨s, rfl, h⟩
  | k :: ks, s, e, e', h, hk, hm => by
    simp only [meanings, Option.bind_eq_some_iff] at hm
    obtain ⟨e1, hm1, hm2⟩ := hm
    obtain ⟨s1, hs1, h1⟩ := h.step hc k hk.1 hm1
    obtain ⟨s2, hs2, h2⟩ := Rel.run hc ks h1 (hk.2 e1 hm1) hm2
    exact ⟨s2, by simp only [GpuSt.run, hs1, bind_ok, hs2], h2⟩

theorem Rel.read {c : Cfg} {s : St V} {e : Env V} (h : Rel s e) {x : Nat} {v : Val V} (hx : e x = some v) (i : Nat) (hi : i < v.vals.length) :
    GpuSt.read c x i s = .ok v.vals[i] := by
  obtain ⟨o, ho, hg⟩ := h.get hx
  have hidx : index c o i = .ok () := by
    unfold index; cases c.be <;> simp [sizeOf, hg.1, bind_ok, Out.assert, hi]
  simp only [GpuSt.read, obj_eq ho, bind_ok, hidx]
  have h4 := hg.2.2.2
  cases hbuf : o.buf with
  | none => rw [hbuf] at h4; simp only at h4; rw [h4] at hi; simp at hi
  | some b =>
    rw [hbuf] at h4
    obtain ⟨cs, h5, h6, h7⟩ := h4
    have hlc := congrArg List.length h6
    simp only [List.length_take] at hlc
    have hcs : cs[i]? = some v.vals[i] := by
      have : (cs.take v.vals.length)[i]? = v.vals[i]? := by rw [h6]
      rw [List.getElem?_take_of_lt hi] at this
      rw [this, List.getElem?_eq_getElem hi]
    simp only [cells, h5, hcs]

end Verif.GpuSt
