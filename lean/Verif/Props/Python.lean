import Verif.Lemmas.PythonStep

/-!
# C123, C124: the Python classes

C123: operators and subscripts of the Python classes do what Python's syntax says. C124: no Python program touches memory that is gone.
Both are false.
-/

namespace Verif.PyM

open ShapeM Conc ExprM ViewM Grid AliasM

variable {α : Type}

/-- The interpreter before the first statement. -/
def start : St α := ⟨fun _ => none, fun _ => [], 0, []⟩

/-- States that programs reach; a statement that raised an exception may be followed by others (`try`). -/
inductive Reached (ar : Op → α → α → α) (fresh : Nat → List α) : St α → Prop
  | start : Reached ar fresh start
  | ok {s s' : St α} {p : Stmt α} : Reached ar fresh s → Valid p → step ar fresh s p = .ok s' → Reached ar fresh s'
  | raise {s s' : St α} {p : Stmt α} {e : PyExc} : Reached ar fresh s → Valid p → step ar fresh s p = .raise e s' → Reached ar fresh s'

theorem inv_start : Inv (start : St α) :=
  ⟨⟨fun _ _ => rfl, fun _ _ h => (by cases h), fun _ _ _ h => (by cases h), fun _ h => (by cases h)⟩, fun _ h => absurd rfl h,
    fun _ h => (by cases h)⟩

theorem inv_reached {ar : Op → α → α → α} {fresh : Nat → List α} (hf : ∀ n, (fresh n).length = n) {s : St α}
    (h : Reached ar fresh s) : Inv s := by
  induction h with
  | start => exact inv_start
  | ok _ hv hs ih =>
    have := inv_step (ar := ar) hf ih hv
    rw [hs] at this
    exact this
  | raise _ hv hs ih =>
    have := inv_step (ar := ar) hf ih hv
    rw [hs] at this
    exact this

/-- Objects that existed and still exist, with arrays that were not written, look the same. -/
theorem elements_same {fresh : Nat → List α} {s s' : St α} (h : WF s)
    (hobj : ∀ id, id < s.next → s'.objs id ≠ none → s'.objs id = s.objs id) {v : Val α} (hv : ∀ id, v = .ref id → id < s.next)
    (hu : Usable s' v) (hmem : ∀ t, t < s.next → (∃ e, s'.objs t = some (.array e)) → s'.mem t = s.mem t) :
    Usable s v ∧ extents s' v = extents s v ∧ elements fresh s' v = elements fresh s v := by
  cases v with
  | num c => exact ⟨trivial, rfl, rfl⟩
  | ref id =>
    have hid := hv id rfl
    rcases hu with ⟨e, he⟩ | ⟨t, w, e, hw, ht⟩
    · have h1 : s.objs id = some (.array e) := by rw [← hobj id hid (by simp [he]), he]
      refine ⟨.inl ⟨e, h1⟩, ?_, ?_⟩
      · simp [extents, he, h1]
      · simp [elements, he, h1, hmem id hid ⟨e, he⟩]
    · have h1 : s.objs id = some (.view t w) := by rw [← hobj id hid (by simp [hw]), hw]
      have htn := (h.view id t w h1).1
      have h2 : s.objs t = some (.array e) := by rw [← hobj t htn (by simp [ht]), ht]
      refine ⟨.inr ⟨t, w, e, h1, h2⟩, ?_, ?_⟩
      · simp [extents, hw, h1]
      · simp only [elements, hw, h1, live_iff.2 ⟨e, ht⟩, live_iff.2 ⟨e, h2⟩, if_pos, hmem t htn ⟨e, ht⟩]

/-- Variables other than `x` keep their values, and these look the same, unless they are views of an array that no variable named any
more after the statement. -/
def Frame (fresh : Nat → List α) (s s' : St α) (x : Nat) : Prop :=
  ∀ z, z ≠ x → lookup s' z = lookup s z ∧ ∀ v, lookup s z = some v → Usable s' v → elements fresh s' v = elements fresh s v

theorem referenced_lookup {s : St α} {z id : Nat} (h : lookup s z = some (.ref id)) : referenced s id = true :=
  referenced_of (mem_of_lookup h) rfl

theorem collect_objs {s : St α} {z id : Nat} (h : lookup s z = some (.ref id)) : (collect s).objs id = s.objs id := by
  simp only [collect]
  rw [if_pos (referenced_lookup h)]

theorem collect_sub {s : St α} {id : Nat} (h : (collect s).objs id ≠ none) : (collect s).objs id = s.objs id := by
  simp only [collect] at h ⊢
  split
  · rfl
  · rename_i hc
    rw [if_neg hc] at h
    exact absurd rfl h

/-! ## C123 -/

/-- C123, operators: `x = l op r` and `x op= r` give the results of `op`. Here for arrays `l`, `r` of equal extents and `x op= r`. -/
def C123Claim : Prop :=
  ∀ (α : Type) (ar : Op → α → α → α) (fresh : Nat → List α), (∀ n, (fresh n).length = n) → ∀ s : St α, Reached ar fresh s →
    ∀ (x y i j : Nat) (e : List Nat) (op : Op), lookup s x = some (.ref i) → lookup s y = some (.ref j) →
      s.objs i = some (.array e) → s.objs j = some (.array e) →
      ∃ s' i' zs, step ar fresh s (.aug x op (.var y)) = .ok s' ∧ lookup s' x = some (.ref i') ∧ elements fresh s' (.ref i') = .ok zs ∧
        zs.length = count e ∧ ∀ k, k < count e → ∃ a b, elem fresh s (.ref i) k = some a ∧ elem fresh s (.ref j) k = some b ∧
          zs[k]? = some (ar op a b)

/-- C123, `+`, `-` and `*`: in every state of every program, `x = l op r` with `op` other than `/` makes a new array with the results and
changes nothing else. (Literals count as arrays of any extents.) -/
theorem C123_bin_partial {ar : Op → α → α → α} {fresh : Nat → List α} (hf : ∀ n, (fresh n).length = n) {s : St α}
    (h : Reached ar fresh s) (x : Nat) {op : Op} (hop : op ≠ .div) {l r : Opd α} {a b : Val α} (hl : opd s l = some a)
    (hr : opd s r = some b) (ua : Usable s a) (ub : Usable s b) {e : List Nat} (hm : Match s a b e) :
    ∃ s' i zs, step ar fresh s (.bin x op l r) = .ok s' ∧ lookup s' x = some (.ref i) ∧ s'.objs i = some (.array e) ∧
      elements fresh s' (.ref i) = .ok zs ∧ zs.length = count e ∧
      (∀ k, k < count e → ∃ c d, elem fresh s a k = some c ∧ elem fresh s b k = some d ∧ zs[k]? = some (ar op c d)) ∧
      (∀ z, lookup s z ≠ some (.ref i)) ∧ Frame fresh s s' x := by
  have hI := inv_reached hf h
  have hn : ∀ c d, ¬ (a = .num c ∧ b = .num d) := by
    rintro c d ⟨rfl, rfl⟩
    rcases hm with ⟨h1, _⟩ | ⟨h1, _⟩ | ⟨_, h1⟩ <;> cases h1
  obtain ⟨m, m1, m2, m3, m4, m5, m6⟩ := binary_ok hf hI.wf (ar op) ua ub hm
  have hst : step ar fresh s (.bin x op l r) = .ok (collect (bindVar { alloc s (.array e) with mem := m } x (.ref s.next))) := by
    simp only [step, hl, hr]
    rw [binOp_eq _ _ _ hn, if_neg hop, m1]
    rfl
  have hlk : lookup (collect (bindVar { alloc s (.array e) with mem := m } x (.ref s.next))) x = some (.ref s.next) :=
    lookup_bind_same _ _ _
  have hob : (collect (bindVar { alloc s (.array e) with mem := m } x (.ref s.next))).objs s.next = some (.array e) := by
    rw [collect_objs (z := x) (lookup_bind_same _ _ _)]
    simp [bindVar, alloc]
  refine ⟨_, s.next, m s.next, hst, hlk, hob, ?_, m3, m6, ?_, ?_⟩
  · simp only [elements, hob]
    rfl
  · intro z hz
    have := obj_lt hI.wf (lookup_held hI.wf hz s.next rfl)
    omega
  · intro z hz
    refine ⟨lookup_bind_other _ _ hz, ?_⟩
    intro v hv hu
    refine (elements_same hI.wf ?_ ?_ hu ?_).2.2
    · intro id hid ho
      rw [collect_sub ho]
      simp only [bindVar, alloc]
      rw [if_neg (by omega)]
    · intro id hid
      exact obj_lt hI.wf (lookup_held hI.wf hv id hid)
    · intro t ht _
      exact m2 t (by omega)

/-- C123, extents that differ: `ValueError`, and nothing is changed. -/
theorem C123_mismatch_partial {ar : Op → α → α → α} {fresh : Nat → List α} (hf : ∀ n, (fresh n).length = n) {s : St α}
    (h : Reached ar fresh s) (x : Nat) {op : Op} (hop : op ≠ .div) {l r : Opd α} {a b : Val α} (hl : opd s l = some a)
    (hr : opd s r = some b) (ua : Usable s a) (ub : Usable s b) {e e' : List Nat} (he : extents s a = some e)
    (he' : extents s b = some e') (hne : e ≠ e') : step ar fresh s (.bin x op l r) = .raise .valueError s := by
  have hI := inv_reached hf h
  have hn : ∀ c d, ¬ (a = .num c ∧ b = .num d) := by
    rintro c d ⟨rfl, rfl⟩
    cases he
  rcases binary_cases hf hI.wf (ar op) hn with ⟨h1 | h1, _⟩ | ⟨_, _, ⟨y, hm⟩ | ⟨_, h1⟩⟩
  · exact absurd ua h1
  · exact absurd ub h1
  · rcases hm with ⟨h1, h2⟩ | ⟨h1, h2⟩ | ⟨h1, h2⟩
    · rw [he] at h1; rw [he'] at h2
      cases h1; cases h2
      exact absurd rfl hne
    · rw [he'] at h2; cases h2
    · rw [he] at h1; cases h1
  · simp only [step, hl, hr]
    rw [binOp_eq _ _ _ hn, if_neg hop, h1]
    rfl

/-- C123, division: `x = l / r` and `x /= r` raise `TypeError` whatever the objects are, because the generated methods are called `__div__`
and `__idiv__`. -/
theorem C123_div_false (ar : Op → α → α → α) (fresh : Nat → List α) (s : St α) (x : Nat) {l r : Opd α} {a b : Val α}
    (hl : opd s l = some a) (hr : opd s r = some b) :
    ((∃ i, a = .ref i ∨ b = .ref i) → step ar fresh s (.bin x .div l r) = .raise .typeError s) ∧
      ∀ i, lookup s x = some (.ref i) → step ar fresh s (.aug x .div r) = .raise .typeError s := by
  constructor
  · rintro ⟨i, hi⟩
    have hn : ∀ c d, ¬ (a = .num c ∧ b = .num d) := by
      rintro c d ⟨rfl, rfl⟩
      rcases hi with hi | hi <;> cases hi
    simp only [step, hl, hr]
    rw [binOp_eq _ _ _ hn, if_pos rfl]
    rfl
  · intro i hx
    simp only [step, hx, hr]
    rw [augOp_eq, if_pos rfl]
    rfl

/-- C123, `x op= r` for an array and any `op` other than `/`: the elements of `x` become sums, whatever `op` is; the array that `x` named gets
them too, but `x` now names another one. -/
theorem C123_aug_adds {ar : Op → α → α → α} {fresh : Nat → List α} (hf : ∀ n, (fresh n).length = n) {s : St α}
    (h : Reached ar fresh s) {x i : Nat} {op : Op} (hop : op ≠ .div) (hx : lookup s x = some (.ref i)) {e : List Nat}
    (hi : s.objs i = some (.array e)) {r : Opd α} {b : Val α} (hr : opd s r = some b) (ub : Usable s b)
    (hm : extents s b = some e ∨ extents s b = none) :
    ∃ s' j zs, step ar fresh s (.aug x op r) = .ok s' ∧ lookup s' x = some (.ref j) ∧ s'.objs j = some (.array e) ∧ j ≠ i ∧
      elements fresh s' (.ref j) = .ok zs ∧ zs.length = count e ∧
      (∀ k, k < count e → ∃ c d, elem fresh s (.ref i) k = some c ∧ elem fresh s b k = some d ∧ zs[k]? = some (ar .add c d)) ∧
      ∀ z, z ≠ x → lookup s' z = lookup s z ∧ (lookup s z = some (.ref i) → elements fresh s' (.ref i) = .ok zs) := by
  have hI := inv_reached hf h
  have hp : Place s i i 0 e := .inl ⟨hi, rfl, rfl⟩
  obtain ⟨m, m1, mr⟩ := update_ok hf hI.wf (ar .add) hp ub hm
  have hw : WF { s with mem := m } := wf_mem hI.wf mr.lengths
  obtain ⟨m2, m3, m4⟩ := mr
  obtain ⟨s2, q1, q2, q3, q4, q5, _, q6, _⟩ := returnSelf_ok hw (id := i) (by simp [hi])
  obtain ⟨q7, q8⟩ := q6 e hi
  have hin : i ≠ s.next := by have := obj_lt hI.wf (id := i) (by simp [hi]); omega
  have hst : step ar fresh s (.aug x op r) = .ok (collect (bindVar s2 x (.ref s.next))) := by
    simp only [step, hx, hr]
    rw [augOp_eq, if_neg hop, m1, Out.ok_bind, q1]
    rfl
  have hlk : lookup (collect (bindVar s2 x (.ref s.next))) x = some (.ref s.next) := lookup_bind_same _ _ _
  have hob : (collect (bindVar s2 x (.ref s.next))).objs s.next = some (.array e) := by
    rw [collect_objs (z := x) (lookup_bind_same _ _ _)]
    rcases q7 with ⟨a, _⟩ | ⟨v, e', a, a', _⟩
    · exact a
    · rw [a] at a'; cases a'
  have hl0 := (hI.wf.arr i e hi).2.2
  refine ⟨_, s.next, m i, hst, hlk, hob, fun hc => hin hc.symm, ?_, by rw [m3, hl0], ?_, ?_⟩
  · simp only [elements, hob]
    exact congrArg Out.ok q8
  · intro k hk
    obtain ⟨el, l1, l2, l3, l5⟩ := operand_ok hf hI.wf ub
    obtain ⟨d, d1, _⟩ := l5 (count e) (by intro y hy; rcases hm with hm | hm <;> rw [hm] at hy <;> cases hy; rfl) k hk
    have hk' : k < (s.mem i).length := by omega
    refine ⟨(s.mem i)[k], d, ?_, d1, ?_⟩
    · rw [elem_place hf hI.wf hp hk]
      simp [List.getElem?_eq_getElem hk']
    · rw [m4 k, if_pos ⟨by omega, by omega⟩]
      simp [List.getElem?_eq_getElem hk', d1]
  · intro z hz
    have hlz : lookup (collect (bindVar s2 x (.ref s.next))) z = lookup s z := by
      rw [lookup_collect, lookup_bind_other _ _ hz]
      unfold lookup
      rw [q3]
    refine ⟨hlz, ?_⟩
    intro hzi
    rw [← hlz] at hzi
    have ho : (collect (bindVar s2 x (.ref s.next))).objs i = some (.array e) := by
      rw [collect_objs (s := bindVar s2 x (.ref s.next)) (z := z) hzi]
      simp only [bindVar]
      rw [q4 i hin, hi]
    simp only [elements, ho]
    exact congrArg Out.ok (q5 i hin)

/-- C123, `x += r` for an array. -/
theorem C123_aug_partial {ar : Op → α → α → α} {fresh : Nat → List α} (hf : ∀ n, (fresh n).length = n) {s : St α}
    (h : Reached ar fresh s) {x i : Nat} (hx : lookup s x = some (.ref i)) {e : List Nat} (hi : s.objs i = some (.array e)) {r : Opd α}
    {b : Val α} (hr : opd s r = some b) (ub : Usable s b) (hm : extents s b = some e ∨ extents s b = none) :
    ∃ s' j zs, step ar fresh s (.aug x .add r) = .ok s' ∧ lookup s' x = some (.ref j) ∧ elements fresh s' (.ref j) = .ok zs ∧
      zs.length = count e ∧
      ∀ k, k < count e → ∃ c d, elem fresh s (.ref i) k = some c ∧ elem fresh s b k = some d ∧ zs[k]? = some (ar .add c d) := by
  obtain ⟨s', j, zs, h1, h2, _, _, h3, h4, h5, _⟩ := C123_aug_adds hf h (op := .add) (by simp) hx hi hr ub hm
  exact ⟨s', j, zs, h1, h2, h3, h4, h5⟩

/-- Two statements: `x0 = Array([5]); x0 -= x0`. -/
theorem C123_false : ¬ C123Claim := by
  intro h
  let ar : Op → Int → Int → Int := fun op => match op with
    | .add => (· + ·)
    | .sub => (· - ·)
    | .mul => (· * ·)
    | .div => (· / ·)
  let fresh : Nat → List Int := fun n => List.replicate n 0
  let s : St Int := collect (bindVar (newArray start [1] [5]) 0 (.ref 0))
  have hs : Reached ar fresh s := .ok (p := .new 0 [1] [5]) .start ⟨by decide, by decide, by decide⟩ rfl
  obtain ⟨s', i', zs, h1, h2, h3, h4, h5⟩ := h Int ar fresh (by simp [fresh]) s hs 0 0 0 0 [1] .sub rfl rfl rfl rfl
  obtain ⟨s'', j, ys, a1, a2, _, _, a3, a4, a5, _⟩ := C123_aug_adds (x := 0) (i := 0) (op := .sub) (e := [1]) (r := .var 0) (b := .ref 0)
    (by simp [fresh]) hs (by simp) rfl rfl rfl (.inl ⟨[1], rfl⟩) (.inl rfl)
  rw [a1] at h1
  cases h1
  rw [a2] at h2
  cases h2
  rw [a3] at h3
  cases h3
  obtain ⟨a, b, e1, e2, e3⟩ := h5 0 (by decide)
  obtain ⟨c, d, e4, e5, e6⟩ := a5 0 (by decide)
  have hv : elem fresh s (.ref 0) 0 = some 5 := rfl
  rw [hv] at e1 e2 e4 e5
  cases e1; cases e2; cases e4; cases e5
  rw [e3] at e6
  simp [ar] at e6

/-- C123, `x op= r` for a view of part of an array, `op` other than `/`: the elements of the part become sums, but afterwards `x` is a view of
the beginning of the array. -/
theorem C123_view_moves {ar : Op → α → α → α} {fresh : Nat → List α} (hf : ∀ n, (fresh n).length = n) {s : St α}
    (h : Reached ar fresh s) {x i t : Nat} {op : Op} (hop : op ≠ .div) (hx : lookup s x = some (.ref i)) {v : View}
    (hi : s.objs i = some (.view t v)) {e y : List Nat} (ht : s.objs t = some (.array e)) {off : Nat} (hv : IsView v y off) {r : Opd α}
    {b : Val α} (hr : opd s r = some b) (ub : Usable s b) (hm : extents s b = some y ∨ extents s b = none) :
    ∃ s' j zs, step ar fresh s (.aug x op r) = .ok s' ∧ lookup s' x = some (.ref j) ∧ s'.objs t = some (.array e) ∧
      elements fresh s' (.ref t) = .ok zs ∧ zs.length = count e ∧
      (∀ k, k < count y → ∃ c d, elem fresh s (.ref i) k = some c ∧ elem fresh s b k = some d ∧ zs[off + k]? = some (ar .add c d)) ∧
      (∀ q : Nat, ¬ (off ≤ q ∧ q < off + count y) → zs[q]? = (s.mem t)[q]?) ∧ elements fresh s' (.ref j) = .ok (zs.take (count y)) := by
  have hI := inv_reached hf h
  have hp : Place s i t off y := .inr ⟨v, e, hi, ht, hv⟩
  obtain ⟨_, hfit, _⟩ := hp.facts hI.wf
  obtain ⟨m, m1, mr⟩ := update_ok hf hI.wf (ar .add) hp ub hm
  have hw : WF { s with mem := m } := wf_mem hI.wf mr.lengths
  obtain ⟨m2, m3, m4⟩ := mr
  obtain ⟨s2, q1, q2, q3, q4, q5, q6, _, q8⟩ := returnSelf_ok hw (id := i) (by simp [hi])
  have hp2 := q8 t off y v hi hp
  have htn : t ≠ s.next := by have := (place_lt hI.wf hp).2; omega
  have hst : step ar fresh s (.aug x op r) = .ok (collect (bindVar s2 x (.ref s.next))) := by
    simp only [step, hx, hr]
    rw [augOp_eq, if_neg hop, m1, Out.ok_bind, q1]
    rfl
  have hInv : Inv (collect (bindVar s2 x (.ref s.next))) := by
    have := inv_step (ar := ar) hf hI (p := .aug x op r) trivial
    rw [hst] at this
    exact this
  obtain ⟨z, hz⟩ := hI.named t (by simp [ht])
  have hzx : z ≠ x := by
    rintro rfl
    rw [hx] at hz
    cases hz
    rw [hi] at ht
    cases ht
  have hlz : lookup (bindVar s2 x (.ref s.next)) z = some (.ref t) := by
    rw [lookup_bind_other _ _ hzx]
    unfold lookup
    rw [q3]
    exact hz
  have hlk : lookup (collect (bindVar s2 x (.ref s.next))) x = some (.ref s.next) := lookup_bind_same _ _ _
  have hot : (collect (bindVar s2 x (.ref s.next))).objs t = some (.array e) := by
    rw [collect_objs (z := z) hlz]
    simp only [bindVar]
    rw [q4 t htn, ht]
  have hon : (collect (bindVar s2 x (.ref s.next))).objs s.next = s2.objs s.next := by
    rw [collect_objs (z := x) (lookup_bind_same _ _ _)]
    rfl
  have hpl : Place (collect (bindVar s2 x (.ref s.next))) s.next t 0 y := by
    apply hp2.same hon
    rw [hot, q4 t htn, ht]
  have hmt : (collect (bindVar s2 x (.ref s.next))).mem t = m t := q5 t htn
  have hl0 := (hI.wf.arr t e ht).2.2
  refine ⟨_, s.next, m t, hst, hlk, hot, ?_, by rw [m3, hl0], ?_, ?_, ?_⟩
  · simp only [elements, hot, hmt]
  · intro k hk
    obtain ⟨el, l1, l2, l3, l5⟩ := operand_ok hf hI.wf ub
    obtain ⟨d, d1, _⟩ := l5 (count y) (by intro y' hy; rcases hm with hm | hm <;> rw [hm] at hy <;> cases hy; rfl) k hk
    have hk' : off + k < (s.mem t).length := by omega
    refine ⟨(s.mem t)[off + k], d, ?_, d1, ?_⟩
    · rw [elem_place hf hI.wf hp hk, List.getElem?_eq_getElem hk']
    · rw [m4 (off + k), if_pos ⟨by omega, by omega⟩]
      simp [List.getElem?_eq_getElem hk', d1]
  · intro q hq
    rw [m4 q, if_neg hq]
  · rw [elements_place hf hInv.wf hpl, hmt]
    simp

/-- C123, subscripts: `x = y[i]` for any array or view: a view of the part with this leading coordinate; `IndexError` for other indices,
negative ones included. -/
theorem C123_get_partial {ar : Op → α → α → α} {fresh : Nat → List α} (hf : ∀ n, (fresh n).length = n) {s : St α}
    (h : Reached ar fresh s) (x : Nat) {y id : Nat} (hy : lookup s y = some (.ref id)) (hu : Usable s (.ref id)) {d : Nat} {ds : List Nat}
    (he : extents s (.ref id) = some (d :: ds)) {xs : List α} (hxs : elements fresh s (.ref id) = .ok xs) (i : Int) :
    (0 ≤ i ∧ i < d → ∃ s' j, step ar fresh s (.get x y i) = .ok s' ∧ lookup s' x = some (.ref j) ∧ extents s' (.ref j) = some ds ∧
      (x ≠ y → (∃ e, s.objs id = some (.array e)) → Usable s' (.ref j)) ∧
      (Usable s' (.ref j) → elements fresh s' (.ref j) = .ok ((xs.drop (i.toNat * count ds)).take (count ds)))) ∧
    (¬ (0 ≤ i ∧ i < d) → step ar fresh s (.get x y i) = .raise .indexError s) := by
  have hI := inv_reached hf h
  rcases getitem_cases hI.wf id i with ⟨h1, _⟩ | ⟨t, off, e, hp, hc⟩
  · exact absurd hu h1
  have he' := hp.extents_eq
  rw [he] at he'
  cases he'
  have hxs' := elements_place hf hI.wf hp
  rw [hxs] at hxs'
  cases hxs'
  rcases hc with ⟨d', ds', v, hd, h0, h1, h2, h3, h4, h5, h6, h7, h8⟩ | ⟨h0, h1, h2⟩
  · cases hd
    refine ⟨?_, fun hc => absurd ⟨h0, h1⟩ hc⟩
    intro _
    have hst : step ar fresh s (.get x y i) = .ok (collect (bindVar (alloc s (.view t v)) x (.ref s.next))) := by
      simp only [step, hy, h6]
      rfl
    have hInv : Inv (collect (bindVar (alloc s (.view t v)) x (.ref s.next))) := by
      have := inv_step (ar := ar) hf hI (p := .get x y i) trivial
      rw [hst] at this
      exact this
    have hon : (collect (bindVar (alloc s (.view t v)) x (.ref s.next))).objs s.next = some (.view t v) := by
      rw [collect_objs (z := x) (lookup_bind_same _ _ _)]
      simp [bindVar, alloc]
    refine ⟨_, s.next, hst, lookup_bind_same _ _ _, by simp [extents, hon, h3.ext_eq], ?_, ?_⟩
    · rintro hxy ⟨e, hid⟩
      have htid : t = id := by
        rcases hp with ⟨_, h, _⟩ | ⟨v', e', a, _⟩
        · exact h
        · rw [hid] at a; cases a
      subst htid
      have htn : t ≠ s.next := by have := (place_lt hI.wf hp).2; omega
      refine .inr ⟨t, v, e, hon, ?_⟩
      rw [collect_objs (s := bindVar (alloc s (.view t v)) x (.ref s.next)) (z := y)
        ((lookup_bind_other _ _ (Ne.symm hxy)).trans hy)]
      simp [bindVar, alloc, htn, hid]
    intro hus
    have hpl : Place (collect (bindVar (alloc s (.view t v)) x (.ref s.next))) s.next t (off + i.toNat * count ds) ds := by
      rcases hus with ⟨e, he⟩ | ⟨t', v', e, hv', ht'⟩
      · rw [hon] at he; cases he
      · rw [hon] at hv'
        cases hv'
        exact .inr ⟨v, e, hon, ht', h3⟩
    rw [elements_place hf hInv.wf hpl]
    have hm : (collect (bindVar (alloc s (.view t v)) x (.ref s.next))).mem t = s.mem t := rfl
    rw [hm]
    congr 1
    rw [← List.drop_drop]
    apply List.ext_getElem?
    intro k
    rw [List.getElem?_take, List.getElem?_take]
    split
    · rename_i hk
      have hlt : i.toNat * count ds + k < d * count ds := by
        have : (i.toNat + 1) * count ds ≤ d * count ds := Nat.mul_le_mul_right _ (by omega)
        rw [Nat.add_mul] at this
        omega
      simp only [List.getElem?_drop]
      rw [List.getElem?_take_of_lt (by simpa [count] using hlt), List.getElem?_drop]
    · rfl
  · have hb := h0 d ds rfl
    refine ⟨fun hc => by omega, ?_⟩
    intro _
    simp only [step, hy, h2]
    rfl

theorem collect_inv {s : St α} (h : Inv s) : collect s = s := by
  obtain ⟨o, m, n, v⟩ := s
  simp only [collect, St.mk.injEq, and_true]
  funext id
  split
  · rfl
  · rename_i hc
    cases ho : o id with
    | none => rfl
    | some b =>
      obtain ⟨z, hz⟩ := h.named id (by simp [ho])
      exact absurd (referenced_lookup hz) hc

/-- C123, subscripted assignments: `x[i] = y` replaces the elements of the part by those of `y` and changes nothing else; it raises
`IndexError` for indices out of range and some exception if the extents differ, and then changes nothing. (A number can be assigned only to a
single element.) -/
theorem C123_set_partial {ar : Op → α → α → α} {fresh : Nat → List α} (hf : ∀ n, (fresh n).length = n) {s : St α}
    (h : Reached ar fresh s) {x id : Nat} (hx : lookup s x = some (.ref id)) (hu : Usable s (.ref id)) {d : Nat} {ds : List Nat}
    (he : extents s (.ref id) = some (d :: ds)) {y : Opd α} {w : Val α} (hy : opd s y = some w) (hw : Usable s w) (i : Int) :
    (0 ≤ i ∧ i < d → (extents s w = some ds ∨ (extents s w = none ∧ ds = [])) →
      ∃ s' ys t, step ar fresh s (.set x i y) = .ok s' ∧ s'.vars = s.vars ∧ s'.objs = s.objs ∧ elements fresh s' (.ref id) = .ok ys ∧
        ys.length = d * count ds ∧
        (∀ k, k < d * count ds → ys[k]? = if i.toNat * count ds ≤ k ∧ k < i.toNat * count ds + count ds
          then elem fresh s w (k - i.toNat * count ds) else elem fresh s (.ref id) k) ∧
        (t = id ∨ ∃ v, s.objs id = some (.view t v)) ∧ ∀ t', t' ≠ t → s'.mem t' = s.mem t') ∧
    (0 ≤ i ∧ i < d → ¬ (extents s w = some ds ∨ (extents s w = none ∧ ds = [])) → ∃ e, step ar fresh s (.set x i y) = .raise e s) ∧
    (¬ (0 ≤ i ∧ i < d) → step ar fresh s (.set x i y) = .raise .indexError s) := by
  have hI := inv_reached hf h
  have hst : step ar fresh s (.set x i y) = finish s (setitem s id i w) := by
    simp only [step, hx, hy]
  rw [hst]
  rcases setitem_cases hf hI.wf id i w with ⟨h1 | h1, _⟩ | ⟨t, off, e, hp, hc⟩
  · exact absurd hu h1
  · exact absurd hw h1
  have he' := hp.extents_eq
  rw [he] at he'
  cases he'
  rcases hc with ⟨d', ds', m, hd, h0, h1, _, hm, h2, h3⟩ | ⟨⟨d', ds', hd, h0, h1, _, hm⟩, e, h2⟩ | ⟨h0, h1⟩
  · cases hd
    refine ⟨fun _ _ => ?_, fun _ hc => absurd hm hc, fun hc => absurd ⟨h0, h1⟩ hc⟩
    have hInv : Inv (collect ({ s with mem := m } : St α)) := by
      have := inv_step (ar := ar) hf hI (p := .set x i y) trivial
      rw [hst, h2] at this
      exact this
    have hcol : collect ({ s with mem := m } : St α) = { s with mem := m } := by
      have := collect_inv hI
      simp only [collect] at this ⊢
      rw [St.mk.injEq] at this ⊢
      exact ⟨this.1, rfl, rfl, rfl⟩
    rw [hcol] at hInv
    have hp' : Place ({ s with mem := m } : St α) id t off (d :: ds) := hp.same rfl rfl
    obtain ⟨m1, m2, m3⟩ := h3
    have hfit := (hp.facts hI.wf).2.1
    have hcnt : count (d :: ds) = d * count ds := rfl
    refine ⟨{ s with mem := m }, _, t, ?_, rfl, rfl, elements_place hf hInv.wf hp', ?_, ?_, ?_, fun t' ht' => m1 t' ht'⟩
    · rw [h2]
      simp only [finish]
      rw [hcol]
    · simp only [List.length_take, List.length_drop, m2]
      omega
    · intro k hk
      rw [List.getElem?_take_of_lt (by omega), List.getElem?_drop, m3]
      have hiff : (off + i.toNat * count ds ≤ off + k ∧ off + k < off + i.toNat * count ds + count ds) ↔
          (i.toNat * count ds ≤ k ∧ k < i.toNat * count ds + count ds) := by omega
      by_cases hk' : i.toNat * count ds ≤ k ∧ k < i.toNat * count ds + count ds
      · rw [if_pos (hiff.2 hk'), if_pos hk']
        congr 1
        omega
      · rw [if_neg (fun hc => hk' (hiff.1 hc)), if_neg hk', elem_place hf hI.wf hp (by omega)]
    · rcases hp with ⟨_, rfl, _⟩ | ⟨v, _, a, _⟩
      · exact .inl rfl
      · exact .inr ⟨v, a⟩
  · cases hd
    refine ⟨fun _ hc => absurd hc hm, fun _ _ => ⟨pyExc e, ?_⟩, fun hc => absurd ⟨h0, h1⟩ hc⟩
    rw [h2]
    simp only [finish, collect_inv hI]
  · have hb := h0 d ds rfl
    refine ⟨fun hc => by omega, fun hc => by omega, fun _ => ?_⟩
    rw [h1]
    simp only [finish, collect_inv hI, pyExc]

/-- C123, `x[i] op= r` for an array, `op` other than `/`: only for `i = 0` do the elements of the row become sums; row `i > 0` becomes
row 0. -/
theorem C123_item_moves {ar : Op → α → α → α} {fresh : Nat → List α} (hf : ∀ n, (fresh n).length = n) {s : St α}
    (h : Reached ar fresh s) {x id : Nat} {op : Op} (hop : op ≠ .div) (hx : lookup s x = some (.ref id)) {d : Nat} {ds : List Nat}
    (hid : s.objs id = some (.array (d :: ds))) {r : Opd α} {b : Val α} (hr : opd s r = some b) (ub : Usable s b)
    (hm : extents s b = some ds ∨ extents s b = none) {i : Nat} (hi : i < d) :
    ∃ s' ys, step ar fresh s (.augItem x i op r) = .ok s' ∧ s'.vars = s.vars ∧ elements fresh s' (.ref id) = .ok ys ∧
      ys.length = d * count ds ∧
      (∀ k, k < count ds → if i = 0
        then ∃ a c, elem fresh s (.ref id) k = some a ∧ elem fresh s b k = some c ∧ ys[k]? = some (ar .add a c)
        else ys[i * count ds + k]? = elem fresh s (.ref id) k) ∧
      ∀ k, k < d * count ds → ¬ (i * count ds ≤ k ∧ k < i * count ds + count ds) → ys[k]? = elem fresh s (.ref id) k := by
  have hI := inv_reached hf h
  have hp : Place s id id 0 (d :: ds) := .inl ⟨hid, rfl, rfl⟩
  have hidn : id < s.next := (place_lt hI.wf hp).1
  rcases getitem_cases hI.wf id i with ⟨h1, _⟩ | ⟨t, off, e, hp', hc⟩
  · exact absurd hp.usable h1
  obtain ⟨rfl, rfl, rfl⟩ := hp.unique hp'
  rcases hc with ⟨d', ds', v, hd, h0, h1, h2, h3, h4, h5, h6, h7, h8⟩ | ⟨h0, _⟩
  swap
  · have := h0 d ds rfl
    omega
  cases hd
  simp only [Int.toNat_natCast, Nat.zero_add] at h3 h4 h5 h8
  have hobj : ∀ j, j < s.next → (alloc s (.view id v)).objs j = s.objs j := by
    intro j hj
    simp only [alloc]
    rw [if_neg (by omega)]
  have ub1 : Usable (alloc s (.view id v)) b := by
    cases b with
    | num c => trivial
    | ref j =>
      rcases ub with ⟨e, he⟩ | ⟨t, w, e, hw, ht⟩
      · exact .inl ⟨e, by rw [hobj j (obj_lt hI.wf (by simp [he])), he]⟩
      · exact .inr ⟨t, w, e, by rw [hobj j (obj_lt hI.wf (by simp [hw])), hw], by rw [hobj t (obj_lt hI.wf (by simp [ht])), ht]⟩
  obtain ⟨_, hex, hel⟩ := elements_same (fresh := fresh) (s' := alloc s (.view id v)) hI.wf (fun j hj _ => hobj j hj)
    (v := b) (fun j hj => obj_lt hI.wf (opd_held hI.wf hr j hj)) ub1 (fun _ _ _ => rfl)
  have hel' : ∀ k, elem fresh (alloc s (.view id v)) b k = elem fresh s b k := by
    intro k
    cases b with
    | num c => rfl
    | ref j => simp only [elem, hel]
  obtain ⟨m, m1, mr⟩ := update_ok hf h7 (ar .add) h8 ub1 (by rw [hex]; exact hm)
  have hw2 : WF { alloc s (.view id v) with mem := m } := wf_mem h7 mr.lengths
  obtain ⟨m2, m3, m4⟩ := mr
  have hon : (alloc s (.view id v)).objs s.next = some (.view id v) := by simp [alloc]
  obtain ⟨s3, q1, q2, q3, q4, q5, q6, _, q8⟩ := returnSelf_ok hw2 (id := s.next) (by simp [hon])
  have hp3 := q8 id _ ds v hon (h8.same rfl rfl)
  have hnext : ({ alloc s (.view id v) with mem := m } : St α).next = s.next + 1 := rfl
  rw [hnext] at q1 q4 q5 q6 hp3
  have hid3 : s3.objs id = some (.array (d :: ds)) := by
    rw [q4 id (by omega)]
    exact (hobj id hidn).trans hid
  have hp3' : Place s3 id id 0 (d :: ds) := .inl ⟨hid3, rfl, rfl⟩
  have hm3 : s3.mem id = m id := q5 id (by omega)
  have hst : step ar fresh s (.augItem x i op r) = finish s3 (setitem s3 id i (.ref (s.next + 1))) := by
    simp only [step, hx, hr, augItem, h6]
    rw [augOp_eq, if_neg hop, m1, Out.ok_bind, q1]
    rfl
  have hInvD := inv_step (ar := ar) hf hI (p := .augItem x i op r) trivial
  rcases setitem_cases hf q2 id i (.ref (s.next + 1)) with ⟨g1 | g1, _⟩ | ⟨t, off, e, hp4, hc⟩
  · exact absurd hp3'.usable g1
  · exact absurd hp3.usable g1
  obtain ⟨rfl, rfl, rfl⟩ := hp3'.unique hp4
  rcases hc with ⟨d', ds', m', hd, _, _, _, _, g2, g3⟩ | ⟨⟨d', ds', hd, _, _, _, g1⟩, _⟩ | ⟨g0, _⟩
  rotate_left
  · cases hd
    exact absurd (.inl hp3.extents_eq) g1
  · have := g0 d ds rfl
    omega
  cases hd
  simp only [Int.toNat_natCast, Nat.zero_add] at g3
  rw [g2] at hst
  rw [hst] at hInvD
  have hcid : (collect ({ s3 with mem := m' } : St α)).objs id = some (.array (d :: ds)) := by
    rw [collect_objs (s := { s3 with mem := m' }) (z := x)]
    · exact hid3
    · unfold lookup
      rw [q3]
      exact hx
  obtain ⟨g4, g5, g6⟩ := g3
  have hl0 : (s.mem id).length = d * count ds := (hI.wf.arr id _ hid).2.2
  have hlm : (m id).length = (s.mem id).length := m3
  have hck : ∀ k, k < count ds → elem fresh s3 (.ref (s.next + 1)) k = (m id)[k]? := by
    intro k hk
    rw [elem_place hf q2 hp3 hk, hm3, Nat.zero_add]
  have hc0 : 0 < count ds := (h8.facts h7).2.2.2.1
  have hold : ∀ k, k < d * count ds → elem fresh s (.ref id) k = (s.mem id)[k]? := by
    intro k hk
    rw [elem_place hf hI.wf hp hk, Nat.zero_add]
  have hrow : i * count ds + count ds ≤ d * count ds := by
    have : (i + 1) * count ds ≤ d * count ds := Nat.mul_le_mul_right _ (by omega)
    rw [Nat.add_mul] at this
    omega
  refine ⟨_, m' id, hst, q3, ?_, ?_, ?_, ?_⟩
  · simp only [elements, hcid]
    rfl
  · rw [g5, hm3, hlm, hl0]
  · intro k hk
    split
    · rename_i hi0
      subst hi0
      obtain ⟨el, l1, l2, l3, l5⟩ := operand_ok hf hI.wf ub
      obtain ⟨c, c1, _⟩ := l5 (count ds) (by intro y' hy; rcases hm with hm | hm <;> rw [hm] at hy <;> cases hy; rfl) k hk
      have hk' : k < (s.mem id).length := by omega
      refine ⟨(s.mem id)[k], c, ?_, c1, ?_⟩
      · rw [hold k (by omega), List.getElem?_eq_getElem hk']
      · rw [g6 k, if_pos ⟨by omega, by omega⟩, hck _ (by omega), m4, if_pos ⟨by omega, by omega⟩]
        have hme : (alloc s (.view id v)).mem = s.mem := rfl
        simp [hme, hel', List.getElem?_eq_getElem hk', c1]
    · rename_i hi0
      have hgap : count ds ≤ i * count ds := Nat.le_mul_of_pos_left _ (by omega)
      rw [g6, if_pos ⟨by omega, by omega⟩, Nat.add_sub_cancel_left, hck k hk, m4, if_neg (by omega), hold k (by omega)]
      rfl
  · intro k hk hn
    rw [g6, if_neg hn, hm3, m4, if_neg hn, hold k hk]
    rfl

/-- C123, `x[i] op= r`: the elements of row `i` become the results. -/
def C123ItemClaim : Prop :=
  ∀ (α : Type) (ar : Op → α → α → α) (fresh : Nat → List α), (∀ n, (fresh n).length = n) → ∀ s : St α, Reached ar fresh s →
    ∀ (x id i d : Nat) (ds : List Nat) (c : α), lookup s x = some (.ref id) → s.objs id = some (.array (d :: ds)) → i < d →
      ∃ s' ys, step ar fresh s (.augItem x i .add (.lit c)) = .ok s' ∧ elements fresh s' (.ref id) = .ok ys ∧
        ∀ k, k < count ds → ∃ a, elem fresh s (.ref id) (i * count ds + k) = some a ∧ ys[i * count ds + k]? = some (ar .add a c)

/-- `x0 = Array([1, 2]); x0[1] += 3` gives `[1, 1]`. -/
theorem C123_item_false : ¬ C123ItemClaim := by
  intro h
  let ar : Op → Int → Int → Int := fun _ => (· + ·)
  let fresh : Nat → List Int := fun n => List.replicate n 0
  let s : St Int := collect (bindVar (newArray start [2] [1, 2]) 0 (.ref 0))
  have hs : Reached ar fresh s := .ok (p := .new 0 [2] [1, 2]) .start ⟨by decide, by decide, by decide⟩ rfl
  obtain ⟨s', ys, h1, h2, h3⟩ := h Int ar fresh (by simp [fresh]) s hs 0 0 1 2 [] 3 rfl rfl (by decide)
  obtain ⟨s'', zs, a1, _, a2, _, a3, _⟩ := C123_item_moves (op := .add) (x := 0) (id := 0) (d := 2) (ds := []) (r := .lit 3) (b := .num 3)
    (i := 1) (by simp [fresh]) hs (by simp) rfl rfl rfl trivial (.inr rfl) (by decide)
  rw [a1] at h1
  cases h1
  rw [a2] at h2
  cases h2
  obtain ⟨a, e1, e2⟩ := h3 0 (by decide)
  have e3 := a3 0 (by decide)
  rw [if_neg (by decide)] at e3
  rw [e3] at e2
  have v0 : elem fresh s (.ref 0) 0 = some 1 := rfl
  have v1 : elem fresh s (.ref 0) (1 * count [] + 0) = some 2 := rfl
  rw [v0] at e2
  rw [v1] at e1
  cases e1
  simp [ar] at e2

/-- C123, `x[0] += r` for an array. -/
theorem C123_item_partial {ar : Op → α → α → α} {fresh : Nat → List α} (hf : ∀ n, (fresh n).length = n) {s : St α}
    (h : Reached ar fresh s) {x id : Nat} (hx : lookup s x = some (.ref id)) {d : Nat} {ds : List Nat}
    (hid : s.objs id = some (.array (d :: ds))) {r : Opd α} {b : Val α} (hr : opd s r = some b) (ub : Usable s b)
    (hm : extents s b = some ds ∨ extents s b = none) :
    ∃ s' ys, step ar fresh s (.augItem x 0 .add r) = .ok s' ∧ elements fresh s' (.ref id) = .ok ys ∧ ys.length = d * count ds ∧
      (∀ k, k < count ds → ∃ a c, elem fresh s (.ref id) k = some a ∧ elem fresh s b k = some c ∧ ys[k]? = some (ar .add a c)) ∧
      ∀ k, k < d * count ds → count ds ≤ k → ys[k]? = elem fresh s (.ref id) k := by
  have hd : 0 < d := by
    have := ((inv_reached hf h).wf.arr id _ hid).1
    simp only [count] at this
    exact Nat.pos_of_mul_pos_right this
  obtain ⟨s', ys, h1, _, h2, h3, h4, h5⟩ := C123_item_moves hf h (op := .add) (by simp) hx hid hr ub hm hd
  refine ⟨s', ys, h1, h2, h3, ?_, ?_⟩
  · intro k hk
    have := h4 k hk
    rw [if_pos rfl] at this
    exact this
  · intro k hk hc
    exact h5 k hk (by omega)

theorem forLoop_ok {s : St α} (h : WF s) {id t off d : Nat} {ds : List Nat} (hp : Place s id t off (d :: ds)) :
    ∀ n i fuel, d = i + n → n < fuel → ∃ ps : List (Nat × View), forLoop s id fuel i = some (.ok ps) ∧ ps.length = n ∧
      ∀ j, j < n → ∃ v, ps[j]? = some (t, v) ∧ IsView v ds (off + (i + j) * count ds) := by
  intro n
  induction n with
  | zero =>
    intro i fuel hd hfuel
    obtain ⟨fuel, rfl⟩ : ∃ f, fuel = f + 1 := ⟨fuel - 1, by omega⟩
    refine ⟨[], ?_, rfl, fun j hj => by omega⟩
    rcases item_ok h hp i with ⟨d', ds', v, hx, h0, h1, _⟩ | ⟨_, h1⟩
    · cases hx; omega
    · simp only [forLoop, h1]
  | succ n ih =>
    intro i fuel hd hfuel
    obtain ⟨fuel, rfl⟩ : ∃ f, fuel = f + 1 := ⟨fuel - 1, by omega⟩
    obtain ⟨ps, p1, p2, p3⟩ := ih (i + 1) fuel (by omega) (by omega)
    rcases item_ok h hp i with ⟨d', ds', v, hx, h0, h1, h2, h3⟩ | ⟨h0, h1⟩
    · cases hx
      refine ⟨(t, v) :: ps, ?_, by simp [p2], ?_⟩
      · simp only [forLoop, h2, p1]
        rfl
      · intro j hj
        cases j with
        | zero => exact ⟨v, rfl, by simpa using h3⟩
        | succ j =>
          obtain ⟨w, w1, w2⟩ := p3 j (by omega)
          refine ⟨w, by simpa using w1, ?_⟩
          rw [show i + (j + 1) = i + 1 + j by omega]
          exact w2
    · have := h0 d ds rfl
      omega

/-- C123, `for v in x`: the loop passes over the parts `x[0]`, ..., `x[d - 1]` in order, once each, and ends. (With a body that changes no
objects, and any `fuel > d`.) -/
theorem C123_for_partial {ar : Op → α → α → α} {fresh : Nat → List α} (hf : ∀ n, (fresh n).length = n) {s : St α}
    (h : Reached ar fresh s) {id : Nat} (hu : Usable s (.ref id)) {d : Nat} {ds : List Nat} (he : extents s (.ref id) = some (d :: ds))
    {fuel : Nat} (hfuel : d < fuel) :
    ∃ ps, forLoop s id fuel 0 = some (.ok ps) ∧ ps.length = d ∧ ∀ i : Nat, i < d → ∃ p, ps[i]? = some p ∧ item s id i = .ok p := by
  have hI := inv_reached hf h
  obtain ⟨t, off, x, hp⟩ := place_of hI.wf hu
  have he' := hp.extents_eq
  rw [he] at he'
  cases he'
  obtain ⟨ps, p1, p2, _⟩ := forLoop_ok hI.wf hp d 0 fuel (by omega) hfuel
  refine ⟨ps, p1, p2, ?_⟩
  have key : ∀ (fuel i : Nat) (ps : List (Nat × View)), forLoop s id fuel i = some (.ok ps) →
      ∀ j, j < ps.length → ∃ p, ps[j]? = some p ∧ item s id ((i + j : Nat) : Int) = .ok p := by
    intro fuel
    induction fuel with
    | zero => intro i ps hps; cases hps
    | succ fuel ih =>
      intro i ps hps j hj
      unfold forLoop at hps
      cases hit : item s id i with
      | ub => rw [hit] at hps; cases hps
      | throw e =>
        rw [hit] at hps
        cases e <;> cases hps
        simp at hj
      | ok p =>
        rw [hit] at hps
        simp only [Option.map_eq_some_iff] at hps
        obtain ⟨r, r1, r2⟩ := hps
        cases r with
        | ub => cases r2
        | throw e => cases r2
        | ok qs =>
          simp only [Out.ok_bind, Out.ok.injEq] at r2
          subst r2
          cases j with
          | zero => exact ⟨p, rfl, hit⟩
          | succ j =>
            obtain ⟨q, q1, q2⟩ := ih (i + 1) qs r1 j (by simpa using hj)
            exact ⟨q, by simpa using q1, by rw [show i + (j + 1) = i + 1 + j by omega]; exact q2⟩
  intro i hi
  have := key fuel 0 ps p1 i (by omega)
  simpa using this

/-! ## C124 -/

/-- The variable holds a view of an array that no longer exists. -/
def Dangling (s : St α) (z : Nat) : Prop := ∃ id t v, lookup s z = some (.ref id) ∧ s.objs id = some (.view t v) ∧ s.objs t = none

/-- C124: no statement, in no program, has undefined behaviour, and every variable can be printed. -/
def C124Claim : Prop :=
  ∀ (α : Type) (ar : Op → α → α → α) (fresh : Nat → List α), (∀ n, (fresh n).length = n) → ∀ s : St α, Reached ar fresh s →
    (∀ p, Valid p → ∀ c, step ar fresh s p = c → c ≠ .ub) ∧ ∀ z v, lookup s z = some v → elements fresh s v ≠ .ub

theorem reached_runAll {ar : Op → α → α → α} {fresh : Nat → List α} {ps : List (Stmt α)} : ∀ {s s' : St α}, Reached ar fresh s →
    (∀ p ∈ ps, Valid p) → runAll ar fresh s ps = .ok s' → Reached ar fresh s' := by
  induction ps with
  | nil => intro s s' h _ hr; cases hr; exact h
  | cons p ps ih =>
    intro s s' h hv hr
    unfold runAll at hr
    cases hs : step ar fresh s p with
    | ok s1 =>
      rw [hs] at hr
      exact ih (.ok h (hv p List.mem_cons_self) hs) (fun q hq => hv q (List.mem_cons_of_mem _ hq)) hr
    | raise e s1 => rw [hs] at hr; cases hr
    | ub => rw [hs] at hr; cases hr

/-- Integers with unlimited range as elements, for witnesses. -/
def intAr : Op → Int → Int → Int
  | .add => (· + ·)
  | .sub => (· - ·)
  | .mul => (· * ·)
  | .div => (· / ·)

/-- New blocks of zeros, for witnesses. -/
def zeros (n : Nat) : List Int := List.replicate n 0

theorem zeros_length (n : Nat) : (zeros n).length = n := List.length_replicate ..

/-- What printing the variables `zs` shows after the program. -/
def prints (ps : List (Stmt Int)) (zs : List Nat) : Option (List (Option (Out (List Int)))) :=
  match runAll intAr zeros start ps with
  | .ok s => some (zs.map fun z => (lookup s z).map (elements zeros s))
  | _ => none

theorem prints_reached {ps : List (Stmt Int)} (hv : ∀ p ∈ ps, Valid p) {zs : List Nat} {r : List (Option (Out (List Int)))}
    (h : prints ps zs = some r) :
    ∃ s, Reached intAr zeros s ∧ runAll intAr zeros start ps = .ok s ∧ zs.map (fun z => (lookup s z).map (elements zeros s)) = r := by
  unfold prints at h
  cases hr : runAll intAr zeros start ps with
  | ok s =>
    rw [hr] at h
    exact ⟨s, reached_runAll .start hv hr, rfl, by simpa using h⟩
  | raise e s => rw [hr] at h; cases h
  | ub => rw [hr] at h; cases h

/-- `x0 = Array([1]); x1 = x0[0]; x0 += x0; print(x1)`. -/
theorem C124_false : ¬ C124Claim := by
  intro h
  have hp : prints [.new 0 [1] [1], .get 1 0 0, .aug 0 .add (.var 0)] [1] = some [some .ub] := by decide +kernel
  obtain ⟨s, h1, _, h2⟩ := prints_reached (by simp [Valid, count]) hp
  have h3 := (h Int intAr zeros zeros_length s h1).2 1
  simp only [List.map_cons, List.map_nil, List.cons.injEq, and_true] at h2
  cases hl : lookup s 1 with
  | none => rw [hl] at h2; cases h2
  | some v =>
    rw [hl] at h2
    exact h3 v hl (by simpa using h2)

/-- `s2` has the variables and objects of `s` and perhaps more objects; the new views are views of arrays of `s`. -/
structure Ext (s s2 : St α) : Prop where
  vars : s2.vars = s.vars
  next : s.next ≤ s2.next
  objs : ∀ j, j < s.next → s2.objs j = s.objs j
  views : ∀ id t v, s.next ≤ id → s2.objs id = some (.view t v) → ∃ e, s.objs t = some (.array e)

theorem ext_getitem {s s2 : St α} (h : WF s) {id : Nat} {i : Int} {v : Val α} (hg : getitem s id i = .ok (s2, v)) :
    Ext s s2 ∧ (∀ t e, s2.objs t = some (.array e) → s.objs t = some (.array e)) := by
  rcases getitem_cases h id i with ⟨_, h1⟩ | ⟨t, off, x, hp, ⟨d, ds, w, _, _, _, _, _, _, _, h1, _⟩ | ⟨_, _, h1⟩⟩
  · rw [h1] at hg; cases hg
  · rw [h1] at hg
    cases hg
    obtain ⟨⟨e, ht, _⟩, _⟩ := hp.facts h
    refine ⟨⟨rfl, by simp [alloc], ?_, ?_⟩, ?_⟩
    · intro j hj
      simp only [alloc]
      rw [if_neg (by omega)]
    · intro j t' w' hj ho
      simp only [alloc] at ho
      split at ho
      · cases ho; exact ⟨e, ht⟩
      · rw [h.unused j hj] at ho; cases ho
    · intro t' e' ho
      simp only [alloc] at ho
      split at ho
      · cases ho
      · exact ho
  · rw [h1] at hg; cases hg

theorem ext_binary {fresh : Nat → List α} (hf : ∀ n, (fresh n).length = n) {s s2 : St α} (h : WF s) {f : α → α → α} {l r v : Val α}
    (hn : ∀ a b, ¬ (l = .num a ∧ r = .num b)) (hg : binary fresh f s l r = .ok (s2, v)) : Ext s s2 := by
  rcases binary_cases hf h f hn with ⟨_, h1⟩ | ⟨hl, hr, ⟨x, hm⟩ | ⟨_, h1⟩⟩
  · rw [h1] at hg; cases hg
  · obtain ⟨m, m1, _⟩ := binary_ok hf h f hl hr hm
    rw [m1] at hg
    cases hg
    refine ⟨rfl, by simp [alloc], ?_, ?_⟩
    · intro j hj
      simp only [alloc]
      rw [if_neg (by omega)]
    · intro j t' w' hj ho
      simp only [alloc] at ho
      split at ho
      · cases ho
      · rw [h.unused j hj] at ho; cases ho
  · rw [h1] at hg; cases hg

theorem ext_augOp {fresh : Nat → List α} (hf : ∀ n, (fresh n).length = n) {s s2 : St α} (h : WF s) {f : α → α → α} {id : Nat}
    {r v : Val α} (hg : (update f s id r >>= fun s' => returnSelf s' id) = .ok (s2, v)) :
    Ext s s2 ∧ v = .ref s.next := by
  rcases update_cases hf h f id r with ⟨_, h1⟩ | ⟨hr, t, off, x, hp, hm | ⟨_, h1⟩⟩
  · rw [h1] at hg; cases hg
  · obtain ⟨m, m1, mr⟩ := update_ok hf h f hp hr hm
    rw [m1, Out.ok_bind] at hg
    obtain ⟨⟨e, ht, _⟩, _⟩ := hp.facts h
    rcases hp with ⟨h1, _, _⟩ | ⟨w, e', h1, h2, h3⟩
    · simp only [returnSelf, h1] at hg
      cases hg
      refine ⟨⟨rfl, by simp [newArray, alloc], ?_, ?_⟩, rfl⟩
      · intro j hj
        simp only [newArray, alloc]
        rw [if_neg (by omega)]
      · intro j t' w' hj ho
        simp only [newArray, alloc] at ho
        split at ho
        · cases ho
        · rw [h.unused j hj] at ho; cases ho
    · simp only [returnSelf, h1] at hg
      cases hg
      refine ⟨⟨rfl, by simp [alloc], ?_, ?_⟩, rfl⟩
      · intro j hj
        simp only [alloc]
        rw [if_neg (by omega)]
      · intro j t' w' hj ho
        simp only [alloc] at ho
        split at ho
        · cases ho; exact ⟨e, ht⟩
        · rw [h.unused j hj] at ho; cases ho
  · rw [h1] at hg; cases hg

theorem dangling_target {s s2 : St α} (h : Inv s) (hnd : ∀ z, ¬ Dangling s z)
    (hobjs : ∀ j, j < s.next → s2.objs j = s.objs j)
    (hviews : ∀ id t v, s.next ≤ id → s2.objs id = some (.view t v) → ∃ e, s.objs t = some (.array e))
    {z : Nat} (hz : Dangling (collect s2) z) :
    ∃ t e, s.objs t = some (.array e) ∧ ∀ y, lookup s2 y ≠ some (.ref t) := by
  obtain ⟨id, t, v, h1, h2, h3⟩ := hz
  have h2' : s2.objs id = some (.view t v) := by rw [← collect_sub (by simp [h2]), h2]
  have ht : ∃ e, s.objs t = some (.array e) := by
    rcases Nat.lt_or_ge id s.next with hid | hid
    · rw [hobjs id hid] at h2'
      obtain ⟨y, hy⟩ := h.named id (by simp [h2'])
      cases hst : s.objs t with
      | none => exact absurd ⟨id, t, v, hy, h2', hst⟩ (hnd y)
      | some o =>
        cases o with
        | array e => exact ⟨e, rfl⟩
        | view t' v' => exact absurd hst ((h.wf.view id t v h2').2.1 t' v')
    · exact hviews id t v hid h2'
  obtain ⟨e, ht⟩ := ht
  refine ⟨t, e, ht, ?_⟩
  intro y hc
  rw [collect_objs hc, hobjs t (obj_lt h.wf (by simp [ht])), ht] at h3
  cases h3

/-- `x` is the only name of an array. -/
def LastName (s : St α) (x : Nat) : Prop :=
  ∃ t e, lookup s x = some (.ref t) ∧ s.objs t = some (.array e) ∧ ∀ y, y ≠ x → lookup s y ≠ some (.ref t)

theorem dangling_origin {s s2 : St α} (h : Inv s) (hnd : ∀ z, ¬ Dangling s z)
    (hobjs : ∀ j, j < s.next → s2.objs j = s.objs j)
    (hviews : ∀ id t v, s.next ≤ id → s2.objs id = some (.view t v) → ∃ e, s.objs t = some (.array e))
    {x : Nat} (hl : ∀ y, y ≠ x → lookup s2 y = lookup s y) {z : Nat} (hz : Dangling (collect s2) z) : LastName s x := by
  obtain ⟨t, e, ht, hne⟩ := dangling_target h hnd hobjs hviews hz
  have hne' : ∀ y, y ≠ x → lookup s y ≠ some (.ref t) := fun y hy hc => hne y (by rw [hl y hy, hc])
  obtain ⟨y, hy⟩ := h.named t (by simp [ht])
  by_cases hyx : y = x
  · subst hyx
    exact ⟨t, e, hy, ht, hne'⟩
  · exact absurd hy (hne' y hyx)

theorem dangling_none {s s2 : St α} (h : Inv s) (hnd : ∀ z, ¬ Dangling s z) (hE : Ext s s2) (z : Nat) : ¬ Dangling (collect s2) z := by
  intro hz
  obtain ⟨t, e, ht, hne⟩ := dangling_target h hnd hE.objs hE.views hz
  obtain ⟨y, hy⟩ := h.named t (by simp [ht])
  apply hne y
  unfold lookup
  rw [hE.vars]
  exact hy

theorem Ext.refl {s : St α} (h : WF s) : Ext s s :=
  ⟨rfl, Nat.le_refl _, fun _ _ => rfl, fun id t v hid ho => by rw [h.unused id hid] at ho; cases ho⟩

theorem Ext.mem {s s2 : St α} (h : Ext s s2) (m : Mem α) : Ext s { s2 with mem := m } := ⟨h.vars, h.next, h.objs, h.views⟩

/-- The variable that a statement binds or deletes. -/
def target : Stmt α → Option Nat
  | .new x _ _ => some x
  | .name x _ => some x
  | .get x _ _ => some x
  | .bin x _ _ _ => some x
  | .aug x _ _ => some x
  | .del x => some x
  | .set _ _ _ => none
  | .augItem _ _ _ _ => none

/-- What a statement without dangling views before it may leave. -/
def Origin (s : St α) (x : Option Nat) : Done α → Prop
  | .ok s' => ∀ z, Dangling s' z → ∃ y, x = some y ∧ LastName s y
  | .raise _ s' => ∀ z, ¬ Dangling s' z
  | .ub => True

theorem origin_bind {s s2 : St α} (h : Inv s) (hnd : ∀ z, ¬ Dangling s z) (hE : Ext s s2) (x : Nat) (v : Val α) :
    Origin s (some x) (.ok (collect (bindVar s2 x v))) := by
  intro z hz
  refine ⟨x, rfl, dangling_origin h hnd (s2 := bindVar s2 x v) hE.objs hE.views ?_ hz⟩
  intro y hy
  rw [lookup_bind_other _ _ hy]
  unfold lookup
  rw [hE.vars]

theorem origin_finishBind {s : St α} (h : Inv s) (hnd : ∀ z, ¬ Dangling s z) (x : Nat) {r : Out (St α × Val α)}
    (hr : ∀ s2 v, r = .ok (s2, v) → Ext s s2) : Origin s (some x) (finishBind s x r) := by
  cases r with
  | ok q => exact origin_bind h hnd (hr q.1 q.2 rfl) x q.2
  | throw e => exact hnd
  | ub => trivial

theorem origin_finish {fresh : Nat → List α} (hf : ∀ n, (fresh n).length = n) {s s2 : St α} (h : Inv s) (hnd : ∀ z, ¬ Dangling s z)
    (hE : Ext s s2) (hw : WF s2) (id : Nat) (i : Int) (r : Val α) : Origin s none (finish s2 (setitem s2 id i r)) := by
  rcases setitem_cases hf hw id i r with ⟨_, h1⟩ | ⟨t, off, x, hp, ⟨d, ds, m, _, _, _, _, _, h1, h2⟩ | ⟨_, e, h1⟩ | ⟨_, h1⟩⟩
  · rw [h1]; trivial
  · rw [h1]
    intro z hz
    exact absurd hz (dangling_none h hnd (hE.mem m) z)
  · rw [h1]; exact dangling_none h hnd hE
  · rw [h1]; exact dangling_none h hnd hE

/-- C124, where dangling views come from: if no variable holds a view of a destroyed array before a statement, then one does so afterwards only if
the statement binds or deletes a variable (`x = ...`, `x op= ...`, `del x`) that was the last name of an array. Subscripted assignments and
statements that raise exceptions never destroy arrays. -/
theorem C124_origin_partial {ar : Op → α → α → α} {fresh : Nat → List α} (hf : ∀ n, (fresh n).length = n) {s : St α}
    (h : Reached ar fresh s) (hnd : ∀ z, ¬ Dangling s z) {p : Stmt α} (hp : Valid p) : Origin s (target p) (step ar fresh s p) := by
  have hI := inv_reached hf h
  cases p with
  | new x e data =>
    apply origin_bind hI hnd (s2 := newArray s e data)
    refine ⟨rfl, by simp [newArray, alloc], ?_, ?_⟩
    · intro j hj
      simp only [newArray, alloc]
      rw [if_neg (by omega)]
    · intro j t' w' hj ho
      simp only [newArray, alloc] at ho
      split at ho
      · cases ho
      · rw [hI.wf.unused j hj] at ho; cases ho
  | name x y =>
    simp only [step]
    cases hy : lookup s y with
    | none => exact hnd
    | some v => exact origin_bind hI hnd (Ext.refl hI.wf) x v
  | get x y i =>
    simp only [step]
    cases hy : lookup s y with
    | none => exact hnd
    | some v =>
      cases v with
      | num c => exact hnd
      | ref id => exact origin_finishBind hI hnd x (fun s2 v hg => (ext_getitem hI.wf hg).1)
  | set x i y =>
    simp only [step]
    cases hx : lookup s x with
    | none => exact hnd
    | some v =>
      cases hy : opd s y with
      | none => cases v <;> exact hnd
      | some w =>
        cases v with
        | num c => exact hnd
        | ref id => exact origin_finish hf hI hnd (Ext.refl hI.wf) hI.wf id i w
  | bin x op l r =>
    simp only [step]
    cases hl : opd s l with
    | none => exact hnd
    | some a =>
      cases hr : opd s r with
      | none => exact hnd
      | some b =>
        simp only
        by_cases hn : ∀ c d, ¬ (a = .num c ∧ b = .num d)
        · rw [binOp_eq _ _ _ hn]
          split
          · exact hnd
          · exact origin_finishBind hI hnd x (fun s2 v hg => ext_binary hf hI.wf hn hg)
        · simp only [not_forall, not_not] at hn
          obtain ⟨c, d, rfl, rfl⟩ := hn
          exact origin_bind hI hnd (Ext.refl hI.wf) x _
  | aug x op r =>
    simp only [step]
    cases hx : lookup s x with
    | none => exact hnd
    | some v =>
      cases hr : opd s r with
      | none => exact hnd
      | some b =>
        simp only
        cases v with
        | ref id =>
          rw [augOp_eq]
          split
          · exact hnd
          · exact origin_finishBind hI hnd x (fun s2 v hg => (ext_augOp hf hI.wf hg).1)
        | num c =>
          cases b with
          | num d => exact origin_bind hI hnd (Ext.refl hI.wf) x _
          | ref j =>
            simp only [augOp]
            rw [binOp_eq _ _ _ (by simp)]
            split
            · exact hnd
            · exact origin_finishBind hI hnd x (fun s2 v hg => ext_binary hf hI.wf (by simp) hg)
  | augItem x i op r =>
    simp only [step]
    cases hx : lookup s x with
    | none => exact hnd
    | some v =>
      cases hr : opd s r with
      | none => cases v <;> exact hnd
      | some b =>
        cases v with
        | num c => exact hnd
        | ref id =>
          simp only [augItem]
          have hg := good_getitem hI.wf hI.keys id i
          cases hgi : getitem s id i with
          | throw e => exact hnd
          | ub => trivial
          | ok q =>
            obtain ⟨s1, t⟩ := q
            rw [hgi] at hg
            obtain ⟨g1, g2, g3⟩ := hg
            obtain ⟨hE, hA⟩ := ext_getitem hI.wf hgi
            have ht : ∃ j, t = .ref j := by
              rcases getitem_cases hI.wf id i with ⟨_, h1⟩ | ⟨_, _, _, _, ⟨_, _, _, _, _, _, _, _, _, _, h1, _⟩ | ⟨_, _, h1⟩⟩
              · rw [h1] at hgi; cases hgi
              · rw [h1] at hgi; cases hgi; exact ⟨_, rfl⟩
              · rw [h1] at hgi; cases hgi
            obtain ⟨j, rfl⟩ := ht
            simp only
            rw [augOp_eq]
            split
            · exact dangling_none hI hnd hE
            · have hg2 := good_augOp (ar := ar) hf g1 g2 (id := j) (r := b)
              cases hu : (update (ar .add) s1 j b >>= fun s' => returnSelf s' j) with
              | throw e => exact dangling_none hI hnd hE
              | ub => trivial
              | ok q =>
                obtain ⟨s3, t⟩ := q
                rw [hu] at hg2
                have hE2 := (ext_augOp hf g1 hu).1
                refine origin_finish hf hI hnd ⟨hE2.vars.trans hE.vars, hE.next.trans hE2.next, ?_, ?_⟩ hg2.1 id i t
                · intro k hk
                  have := hE.next
                  rw [hE2.objs k (by omega), hE.objs k hk]
                · intro k t' w hk ho
                  rcases Nat.lt_or_ge k s1.next with hk' | hk'
                  · rw [hE2.objs k hk'] at ho
                    exact hE.views k t' w hk ho
                  · obtain ⟨e, he⟩ := hE2.views k t' w hk' ho
                    exact ⟨e, hA t' e he⟩
  | del x =>
    intro z hz
    refine ⟨x, rfl, dangling_origin hI hnd (s2 := { s with vars := s.vars.filter (fun p => p.1 != x) }) (fun _ _ => rfl)
      (Ext.refl hI.wf).views ?_ hz⟩
    intro y hy
    exact lookup_filter _ hy

theorem usable_of_not_dangling {s : St α} (h : Inv s) (hnd : ∀ z, ¬ Dangling s z) {v : Val α} (hv : ∀ id, v = .ref id → s.objs id ≠ none) :
    Usable s v := by
  cases v with
  | num c => trivial
  | ref id =>
    have ho := hv id rfl
    obtain ⟨z, hz⟩ := h.named id ho
    cases hob : s.objs id with
    | none => exact absurd hob ho
    | some o =>
      cases o with
      | array e => exact .inl ⟨e, hob⟩
      | view t w =>
        cases hst : s.objs t with
        | none => exact absurd ⟨id, t, w, hz, hob, hst⟩ (hnd z)
        | some o =>
          cases o with
          | array e => exact .inr ⟨t, w, e, hob, hst⟩
          | view t' v' => exact absurd hst ((h.wf.view id t w hob).2.1 t' v')

theorem Ext.usable {s s2 : St α} (hw : WF s) (h : Ext s s2) {v : Val α} (hv : Usable s v) : Usable s2 v := by
  cases v with
  | num c => trivial
  | ref id =>
    rcases hv with ⟨e, he⟩ | ⟨t, w, e, hw', ht⟩
    · exact .inl ⟨e, by rw [h.objs id (obj_lt hw (by simp [he])), he]⟩
    · exact .inr ⟨t, w, e, by rw [h.objs id (obj_lt hw (by simp [hw'])), hw'], by rw [h.objs t (obj_lt hw (by simp [ht])), ht]⟩

/-- C124, programs without dangling views: in every state of every program, a statement has no undefined behaviour and every variable can be
printed if no variable holds a view of a destroyed array. -/
theorem C124_safe_partial {ar : Op → α → α → α} {fresh : Nat → List α} (hf : ∀ n, (fresh n).length = n) {s : St α}
    (h : Reached ar fresh s) (hnd : ∀ z, ¬ Dangling s z) :
    (∀ p, step ar fresh s p ≠ .ub) ∧ ∀ z v, lookup s z = some v → ∃ xs, elements fresh s v = .ok xs := by
  have hI := inv_reached hf h
  have hlu : ∀ {x : Nat} {v : Val α}, lookup s x = some v → Usable s v := fun hx => usable_of_not_dangling hI hnd (lookup_held hI.wf hx)
  have hou : ∀ {x : Opd α} {v : Val α}, opd s x = some v → Usable s v := fun hx => usable_of_not_dangling hI hnd (opd_held hI.wf hx)
  have hbin : ∀ {x : Nat} {f : α → α → α} {l r : Val α}, Usable s l → Usable s r → (∀ a b, ¬ (l = .num a ∧ r = .num b)) →
      finishBind s x (binary fresh f s l r) ≠ .ub := by
    intro x f l r hl hr hn
    rcases binary_cases hf hI.wf f hn with ⟨h1 | h1, _⟩ | ⟨_, _, ⟨x', hm⟩ | ⟨_, h1⟩⟩
    · exact absurd hl h1
    · exact absurd hr h1
    · obtain ⟨m, m1, _⟩ := binary_ok hf hI.wf f hl hr hm
      rw [m1]
      simp [finishBind]
    · rw [h1]
      simp [finishBind]
  have haug : ∀ {s1 : St α} {f : α → α → α} {id : Nat} {r : Val α}, WF s1 → Usable s1 (.ref id) → Usable s1 r →
      (update f s1 id r >>= fun s' => returnSelf s' id) ≠ .ub := by
    intro s1 f id r hw hl hr
    rcases update_cases hf hw f id r with ⟨h1 | h1, _⟩ | ⟨_, t, off, x', hp, hm | ⟨_, h1⟩⟩
    · exact absurd hl h1
    · exact absurd hr h1
    · obtain ⟨m, m1, mr⟩ := update_ok hf hw f hp hr hm
      obtain ⟨s2, q1, _⟩ := returnSelf_ok (s := { s1 with mem := m }) (wf_mem hw mr.lengths) (id := id)
        (by rcases hp with ⟨a, _⟩ | ⟨_, _, a, _⟩ <;> simp [a])
      rw [m1, Out.ok_bind, q1]
      simp
    · rw [h1]
      simp
  have hset : ∀ {s1 : St α} {id : Nat} {i : Int} {r : Val α}, WF s1 → Usable s1 (.ref id) → Usable s1 r →
      finish s1 (setitem s1 id i r) ≠ .ub := by
    intro s1 id i r hw hl hr
    rcases setitem_cases hf hw id i r with ⟨h1 | h1, _⟩ | ⟨t, off, x', hp, ⟨d, ds, m, _, _, _, _, _, h1, h2⟩ | ⟨_, e, h1⟩ | ⟨_, h1⟩⟩
    · exact absurd hl h1
    · exact absurd hr h1
    all_goals rw [h1]; simp [finish]
  refine ⟨?_, ?_⟩
  · intro p
    cases p with
    | new x e data => simp [step]
    | name x y =>
      simp only [step]
      split <;> simp
    | get x y i =>
      simp only [step]
      cases hy : lookup s y with
      | none => simp
      | some v =>
        cases v with
        | num c => simp
        | ref id =>
          simp only
          rcases getitem_cases hI.wf id i with ⟨h1, _⟩ | ⟨_, _, _, _, ⟨_, _, _, _, _, _, _, _, _, _, h1, _⟩ | ⟨_, _, h1⟩⟩
          · exact absurd (hlu hy) h1
          · rw [h1]; simp [finishBind]
          · rw [h1]; simp [finishBind]
    | set x i y =>
      simp only [step]
      cases hx : lookup s x with
      | none => simp
      | some v =>
        cases hy : opd s y with
        | none => cases v <;> simp
        | some w =>
          cases v with
          | num c => simp
          | ref id => exact hset hI.wf (hlu hx) (hou hy)
    | bin x op l r =>
      simp only [step]
      cases hl : opd s l with
      | none => simp
      | some a =>
        cases hr : opd s r with
        | none => simp
        | some b =>
          simp only
          by_cases hn : ∀ c d, ¬ (a = .num c ∧ b = .num d)
          · rw [binOp_eq _ _ _ hn]
            split
            · simp [finishOp]
            · exact hbin (hou hl) (hou hr) hn
          · simp only [not_forall, not_not] at hn
            obtain ⟨c, d, rfl, rfl⟩ := hn
            simp [binOp, finishOp, finishBind]
    | aug x op r =>
      simp only [step]
      cases hx : lookup s x with
      | none => simp
      | some v =>
        cases hr : opd s r with
        | none => simp
        | some b =>
          simp only
          cases v with
          | ref id =>
            rw [augOp_eq]
            split
            · simp [finishOp]
            · have := haug (f := ar .add) hI.wf (hlu hx) (hou hr)
              simp only [finishOp]
              cases hq : (update (ar .add) s id b >>= fun s' => returnSelf s' id) with
              | ok q => simp [finishBind]
              | throw e => simp [finishBind]
              | ub => exact absurd hq this
          | num c =>
            cases b with
            | num d => simp [augOp, binOp, finishOp, finishBind]
            | ref j =>
              simp only [augOp]
              rw [binOp_eq _ _ _ (by simp)]
              split
              · simp [finishOp]
              · exact hbin trivial (hou hr) (by simp)
    | augItem x i op r =>
      simp only [step]
      cases hx : lookup s x with
      | none => simp
      | some v =>
        cases hr : opd s r with
        | none => cases v <;> simp
        | some b =>
          cases v with
          | num c => simp
          | ref id =>
            simp only [augItem]
            rcases getitem_cases hI.wf id i with ⟨h1, _⟩ | ⟨t, off, x', hp, ⟨d, ds, w, _, _, _, _, _, _, _, h1, h2, h3⟩ | ⟨_, _, h1⟩⟩
            · exact absurd (hlu hx) h1
            · have hE := (ext_getitem hI.wf h1).1
              rw [h1]
              simp only
              rw [augOp_eq]
              split
              · simp [augSet]
              · have hu2 := hE.usable hI.wf (hou hr)
                have := haug (f := ar .add) h2 h3.usable hu2
                have hg2 := good_augOp (ar := ar) hf h2 hI.keys (id := s.next) (r := b)
                cases hq : (update (ar .add) (alloc s (.view t w)) s.next b >>= fun s' => returnSelf s' s.next) with
                | throw e => simp [augSet]
                | ub => exact absurd hq this
                | ok q =>
                  obtain ⟨s3, v3⟩ := q
                  rw [hq] at hg2
                  obtain ⟨hE2, rfl⟩ := ext_augOp hf h2 hq
                  refine hset hg2.1 (hE2.usable h2 (hE.usable hI.wf (hlu hx))) ?_
                  have ho := hg2.2.2 _ rfl
                  cases hob : s3.objs (alloc s (.view t w)).next with
                  | none => exact absurd hob ho
                  | some o =>
                    cases o with
                    | array e => exact .inl ⟨e, hob⟩
                    | view t' w' =>
                      obtain ⟨e, he⟩ := hE2.views _ t' w' (Nat.le_refl _) hob
                      exact .inr ⟨t', w', e, hob, by rw [hE2.objs t' (obj_lt h2 (by simp [he])), he]⟩
            · rw [h1]
              simp
    | del x => simp [step]
  · intro z v hz
    have hu := hlu hz
    cases v with
    | num c => exact ⟨[c], rfl⟩
    | ref id =>
      obtain ⟨t, off, x, hp⟩ := place_of hI.wf hu
      exact ⟨_, elements_place hf hI.wf hp⟩

/-! ## Cases that meet the hypotheses -/

/-- `x0 = Array([[1, 2], [3, 4]]); x1 = x0; x2 = x0 * x1; x3 = 10 - x0`, then all printed. -/
example : prints [.new 0 [2, 2] [1, 2, 3, 4], .name 1 0, .bin 2 .mul (.var 0) (.var 1), .bin 3 .sub (.lit 10) (.var 0)]
    [0, 1, 2, 3] = some [some (.ok [1, 2, 3, 4]), some (.ok [1, 2, 3, 4]), some (.ok [1, 4, 9, 16]), some (.ok [9, 8, 7, 6])] := by
  decide +kernel

/-- `x0 = Array([[1, 2], [3, 4]]); x1 = x0[1]`: the state for the examples below. -/
def viewState : St Int :=
  collect (bindVar (alloc (collect (bindVar (newArray start [2, 2] [1, 2, 3, 4]) 0 (.ref 0))) (.view 0 ⟨.shape [2], [1], 2⟩)) 1 (.ref 1))

theorem viewState_reached : Reached intAr zeros viewState :=
  .ok (p := .get 1 0 1) (.ok (p := .new 0 [2, 2] [1, 2, 3, 4]) .start ⟨by decide, by decide, by decide⟩ rfl) trivial rfl

theorem viewState_view : IsView ⟨.shape [2], [1], 2⟩ [2] 2 := ⟨rfl, by decide, rfl, by simp, by decide, by decide⟩

/-- `x1 += 5` changes row 1, and `x1` becomes row 0. -/
example : ∃ s' j zs, step intAr zeros viewState (.aug 1 .add (.lit 5)) = .ok s' ∧ lookup s' 1 = some (.ref j) ∧
    elements zeros s' (.ref 0) = .ok zs ∧ zs[0]? = some 1 ∧ zs[1]? = some 2 ∧ elements zeros s' (.ref j) = .ok (zs.take 2) := by
  obtain ⟨s', j, zs, h1, h2, _, h4, _, _, h7, h8⟩ := C123_view_moves (x := 1) (i := 1) (t := 0) (op := .add) (y := [2]) (e := [2, 2])
    zeros_length viewState_reached (by simp) rfl rfl rfl viewState_view (r := .lit 5) (b := .num 5) rfl trivial (.inr rfl)
  exact ⟨s', j, zs, h1, h2, h4, (h7 0 (by decide)).trans rfl, (h7 1 (by decide)).trans rfl, h8⟩

/-- `x0[1] *= x1` copies row 0 over row 1. -/
example : ∃ s' ys, step intAr zeros viewState (.augItem 0 1 .mul (.var 1)) = .ok s' ∧ elements zeros s' (.ref 0) = .ok ys ∧
    ys[2]? = some 1 ∧ ys[3]? = some 2 := by
  obtain ⟨s', ys, h1, _, h3, _, h5, _⟩ := C123_item_moves (x := 0) (id := 0) (op := .mul) (d := 2) (ds := [2]) zeros_length
    viewState_reached (by simp) rfl rfl (r := .var 1) (b := .ref 1) rfl (.inr ⟨0, _, [2, 2], rfl, rfl⟩) (.inl rfl) (i := 1) (by decide)
  exact ⟨s', ys, h1, h3, (h5 0 (by decide)).trans rfl, (h5 1 (by decide)).trans rfl⟩

/-- `x0[0] = x1` copies row 1 over row 0. -/
example : ∃ s' ys, step intAr zeros viewState (.set 0 0 (.var 1)) = .ok s' ∧ elements zeros s' (.ref 0) = .ok ys ∧ ys.length = 4 := by
  have hp : Place viewState 1 0 2 [2] := .inr ⟨_, [2, 2], rfl, rfl, viewState_view⟩
  obtain ⟨h, _⟩ := C123_set_partial (x := 0) (id := 0) (d := 2) (ds := [2]) zeros_length viewState_reached rfl (.inl ⟨[2, 2], rfl⟩) rfl
    (y := .var 1) (w := .ref 1) rfl hp.usable 0
  obtain ⟨s', ys, _, h1, _, _, h4, h5, _⟩ := h ⟨by decide, by decide⟩ (.inl hp.extents_eq)
  exact ⟨s', ys, h1, h4, h5⟩

/-- No view dangles in this state, and `del x0` makes `x1` dangle. -/
example : (∀ z, ¬ Dangling viewState z) ∧ ∃ s', step intAr zeros viewState (.del 0) = .ok s' ∧ Dangling s' 1 := by
  refine ⟨?_, _, rfl, 1, 0, _, rfl, rfl, rfl⟩
  rintro z ⟨id, t, v, h1, h2, h3⟩
  have hI := inv_reached zeros_length viewState_reached
  have hlt : id < 2 := obj_lt hI.wf (by simp [h2])
  have h01 : id = 0 ∨ id = 1 := by omega
  rcases h01 with rfl | rfl
  · have e : viewState.objs 0 = some (.array [2, 2]) := rfl
    rw [e] at h2; cases h2
  · have e : viewState.objs 1 = some (.view 0 ⟨.shape [2], [1], 2⟩) := rfl
    rw [e] at h2; cases h2
    have e : viewState.objs 0 = some (.array [2, 2]) := rfl
    rw [e] at h3; cases h3

/-- `x1 = x0; x0 += 1; x0 += 1`: the second statement does not reach `x1`. -/
example : prints [.new 0 [2] [1, 2], .name 1 0, .aug 0 .add (.lit 1), .aug 0 .add (.lit 1)] [0, 1] =
    some [some (.ok [3, 4]), some (.ok [2, 3])] := by
  decide +kernel

/-- `x2 = x0 + x1; x3 = x2[0]; del x2`: `x3` dangles. -/
example : prints [.new 0 [1] [1], .new 1 [1] [2], .bin 2 .add (.var 0) (.var 1), .get 3 2 0, .del 2] [0, 1, 3] =
    some [some (.ok [1]), some (.ok [2]), some .ub] := by
  decide +kernel

end Verif.PyM
