import Verif.Model.Python
import Verif.Props.Alias

/-! Lemmas for the Python bindings: what every state reached by a program satisfies, and what the methods do in such states. -/

namespace Verif.PyM

open ShapeM Conc ExprM ViewM Grid AliasM

variable {α : Type}

/-- A view of the part of an array with `n` elements, at a multiple of its own size. -/
def Fits (v : View) (n : Nat) : Prop := ∃ x off, IsView v x off ∧ off + count x ≤ n ∧ count x ∣ off

/-- What holds in every state that a program reaches (`wf_step`). -/
structure WF (s : St α) : Prop where
  unused : ∀ id, s.next ≤ id → s.objs id = none
  arr : ∀ id e, s.objs id = some (.array e) → 0 < count e ∧ count e < 2 ^ 32 ∧ (s.mem id).length = count e
  view : ∀ id t v, s.objs id = some (.view t v) → t < s.next ∧ (∀ t' v', s.objs t ≠ some (.view t' v')) ∧
    ∃ n, Fits v n ∧ n < 2 ^ 32 ∧ ∀ e, s.objs t = some (.array e) → count e = n
  vars : ∀ p ∈ s.vars, ∀ id, p.2 = .ref id → s.objs id ≠ none

/-- The object is an array or a view of an array that still exists. -/
def Usable (s : St α) : Val α → Prop
  | .num _ => True
  | .ref id => (∃ e, s.objs id = some (.array e)) ∨ ∃ t v e, s.objs id = some (.view t v) ∧ s.objs t = some (.array e)

/-- Extents of a value; numbers have none. -/
def extents (s : St α) : Val α → Option (List Nat)
  | .num _ => none
  | .ref id =>
    match s.objs id with
    | some (.array e) => some e
    | some (.view _ v) => some (ext v.shape)
    | none => none

/-- Element `k` of a value as printing shows it; a number is the same everywhere. -/
def elem (fresh : Nat → List α) (s : St α) (v : Val α) (k : Nat) : Option α :=
  match v with
  | .num c => some c
  | .ref id =>
    match elements fresh s (.ref id) with
    | .ok xs => xs[k]?
    | _ => none

theorem live_iff {s : St α} {t : Nat} : live s t = true ↔ ∃ e, s.objs t = some (.array e) := by
  unfold live
  split
  · rename_i e h; simp [h]
  · rename_i h
    simp only [Bool.false_eq_true, false_iff]
    rintro ⟨e, he⟩
    exact h e he

theorem mul_apart {n a b k : Nat} (ha : n ∣ a) (hb : n ∣ b) (hk : k < n) : ¬ (a ≤ b + k ∧ b + k < a + k) := by
  obtain ⟨p, rfl⟩ := ha
  obtain ⟨q, rfl⟩ := hb
  rintro ⟨h1, h2⟩
  have h3 : n * q < n * p := by omega
  have h4 : q < p := Nat.lt_of_mul_lt_mul_left h3
  have h5 : n * (q + 1) ≤ n * p := Nat.mul_le_mul_left n h4
  rw [Nat.mul_add, Nat.mul_one] at h5
  omega

/-- A value as an operand: its expression, its shape, and its elements, which are the same while elements below `off + k` of a part of
an array at `off` are being replaced. -/
theorem operand_ok {fresh : Nat → List α} (hf : ∀ n, (fresh n).length = n) {s : St α} (h : WF s) {v : Val α} (hu : Usable s v) :
    ∃ e, operand s v = .ok e ∧
      (∃ sh, build true (shapes s) e = .ok sh ∧ sh.map ext = extents s v) ∧
      (∀ x, extents s v = some x → 0 < count x ∧ count x < 2 ^ 32) ∧
      ∀ n, (∀ x, extents s v = some x → count x = n) → ∀ k, k < n → ∃ y, elem fresh s v k = some y ∧ valueAt s.mem k e = some y ∧
        ∀ (m : Mem α) (t off : Nat), (∀ id, id ≠ t → m id = s.mem id) →
          (s.objs t = none ∨ n ∣ off ∧ AgreeOutside (s.mem t) (m t) off (off + k)) → run (scalarP k e) m = .ok (y, m) := by
  cases v with
  | num c =>
    refine ⟨.scalar c, rfl, ⟨none, rfl, rfl⟩, by simp [extents], ?_⟩
    intro n _ k _
    exact ⟨c, rfl, rfl, fun m t off _ _ => rfl⟩
  | ref id =>
    rcases hu with ⟨e, he⟩ | ⟨t, v, e, hv, ht⟩
    · obtain ⟨h1, h2, h3⟩ := h.arr id e he
      refine ⟨.arr id, by simp [operand, he], ⟨some (.shape e), by simp [build, shapes, he], by simp [extents, he, ext]⟩, ?_, ?_⟩
      · intro x hx
        simp only [extents, he, Option.some.injEq] at hx
        subst hx
        exact ⟨h1, h2⟩
      · intro n hn k hk
        have hn' := hn e (by simp [extents, he])
        subst hn'
        have hk' : k < (s.mem id).length := by omega
        refine ⟨(s.mem id)[k], ?_, ?_, ?_⟩
        · simp [elem, elements, he, List.getElem?_eq_getElem hk']
        · simp [valueAt, List.getElem?_eq_getElem hk']
        · intro m t off hm hor
          have hg : (m id)[k]? = (s.mem id)[k]? := by
            by_cases hid : id = t
            · subst hid
              rcases hor with hor | ⟨hd, hag⟩
              · rw [hor] at he; cases he
              apply hag.2
              have := mul_apart hd (Nat.dvd_zero _) hk
              simpa using this
            · rw [hm id hid]
          simp only [scalarP, run, Mem.get?, hg, List.getElem?_eq_getElem hk']
    · obtain ⟨h1, h2, n0, ⟨x, off, hx, hfit, hdvd⟩, hn0, hn1⟩ := h.view id t v hv
      have hcnt := hn1 e ht
      obtain ⟨a1, a2, a3⟩ := h.arr t e ht
      have hlive : live s t = true := live_iff.2 ⟨e, ht⟩
      refine ⟨.view t v, by simp [operand, hv, hlive], ⟨some v.shape, by simp [build], by simp [extents, hv]⟩, ?_, ?_⟩
      · intro y hy
        simp only [extents, hv, Option.some.injEq] at hy
        rw [hx.ext_eq] at hy
        subst hy
        exact ⟨hx.pos, hx.small⟩
      · intro n hn k hk
        have hn' := hn (ext v.shape) (by simp [extents, hv])
        rw [hx.ext_eq] at hn'
        subst hn'
        have hk' : off + k < (s.mem t).length := by omega
        have hsc := scalar_ok hx hk hk'
        obtain ⟨res, r1, r2, r3⟩ := eval_ok hx (data := s.mem t) (init := fresh (size v.shape)) (by omega)
          (by rw [hf, size_view hx])
        refine ⟨(s.mem t)[off + k], ?_, ?_, ?_⟩
        · simp only [elem, elements, hv, hlive, if_pos, r1]
          rw [r3 k hk, List.getElem?_eq_getElem hk']
        · simp [valueAt, hsc]
        · intro m t' off' hm hor
          have hg : (m t)[off + k]? = (s.mem t)[off + k]? := by
            by_cases hid : t = t'
            · subst hid
              rcases hor with hor | ⟨hd, hag⟩
              · rw [hor] at ht; cases ht
              apply hag.2
              exact mul_apart hd hdvd hk
            · rw [hm t hid]
          have hlt : off + k < (m t).length := by
            rw [List.getElem?_eq_getElem hk'] at hg
            exact (List.getElem?_eq_some_iff.1 hg).1
          rw [List.getElem?_eq_getElem hk', List.getElem?_eq_getElem hlt] at hg
          injection hg with hg
          apply scalarP_view
          rw [scalar_ok hx hk hlt, hg]

/-- Two values can be combined: equal extents, or one of them a number. -/
def Match (s : St α) (l r : Val α) (x : List Nat) : Prop :=
  (extents s l = some x ∧ extents s r = some x) ∨ (extents s l = some x ∧ extents s r = none) ∨
    (extents s l = none ∧ extents s r = some x)

theorem pair_shape {s : St α} {f : α → α → α} {el er : Expr α} {l r : Val α} {x : List Nat} (hm : Match s l r x)
    (hl : ∃ sh, build true (shapes s) el = .ok sh ∧ sh.map ext = extents s l)
    (hr : ∃ sh, build true (shapes s) er = .ok sh ∧ sh.map ext = extents s r) :
    ∃ sh, exprShape s (.bin f el er) = .ok sh ∧ ext sh = x := by
  obtain ⟨sl, l1, l2⟩ := hl
  obtain ⟨sr, r1, r2⟩ := hr
  unfold exprShape
  simp only [build, l1, r1, Out.ok_bind]
  rcases hm with ⟨h1, h2⟩ | ⟨h1, h2⟩ | ⟨h1, h2⟩
  · rw [h1] at l2; rw [h2] at r2
    cases sl with
    | none => cases l2
    | some a =>
      cases sr with
      | none => cases r2
      | some b =>
        simp only [Option.map_some, Option.some.injEq] at l2 r2
        refine ⟨a, ?_, l2⟩
        simp [binShape, l2, r2, shapeEq_iff.2 (rfl : x = x)]
  · rw [h1] at l2; rw [h2] at r2
    cases sl with
    | none => cases l2
    | some a =>
      cases sr with
      | some b => cases r2
      | none =>
        simp only [Option.map_some, Option.some.injEq] at l2
        exact ⟨a, by simp [binShape], l2⟩
  · rw [h1] at l2; rw [h2] at r2
    cases sl with
    | some a => cases l2
    | none =>
      cases sr with
      | none => cases r2
      | some b =>
        simp only [Option.map_some, Option.some.injEq] at r2
        exact ⟨b, by simp [binShape], r2⟩

/-- The assignment loop of `array d = expression`, where the expression may read `d`, but at pass `k` only elements that have not been
assigned yet. -/
theorem store_loop {d n : Nat} {e : Expr α} {m0 : Mem α} (val : Nat → α) (hn : (m0 d).length = n)
    (hv : ∀ k, k < n → ∀ m : Mem α, (∀ id, id ≠ d → m id = m0 id) → AgreeOutside (m0 d) (m d) 0 k → run (scalarP k e) m = .ok (val k, m)) :
    ∀ c lo (m : Mem α), lo + c = n → (∀ id, id ≠ d → m id = m0 id) → (m d).length = n →
      (∀ q, (m d)[q]? = if q < lo then some (val q) else (m0 d)[q]?) →
      ∃ m', run (seqAll (scalarBody d e) (indices lo n 1)) m = .ok ((), m') ∧ (∀ id, id ≠ d → m' id = m0 id) ∧
        m' d = (List.range n).map val := by
  intro c
  induction c with
  | zero =>
    intro lo m hlo hoth hlen hq
    rw [indices, if_neg (by omega)]
    refine ⟨m, rfl, hoth, ?_⟩
    apply List.ext_getElem?
    intro q
    rw [hq, List.getElem?_map]
    by_cases hql : q < lo
    · rw [if_pos hql, List.getElem?_range (by omega)]; rfl
    · rw [if_neg hql, List.getElem?_eq_none (by omega), List.getElem?_eq_none (by simp; omega)]; rfl
  | succ c ih =>
    intro lo m hlo hoth hlen hq
    rw [indices, if_pos (by omega)]
    simp only [seqAll]
    have h1 := hv lo (by omega) m hoth ⟨by omega, fun q hq' => by rw [hq, if_neg (by omega)]⟩
    have hget : Mem.get? m (d, lo) = some ((m d)[lo]'(by omega)) := List.getElem?_eq_getElem _
    obtain ⟨m', e1, e2, e3⟩ := ih (lo + 1) (Mem.set m (d, lo) (val lo)) (by omega)
      (fun id hid => by simp [Mem.set, hid, hoth id hid]) (by simp [Mem.set, hlen]) (by
        intro q
        simp only [Mem.set, if_pos, List.getElem?_set]
        by_cases hql : lo = q
        · subst hql
          rw [if_pos rfl, if_pos (by omega), if_pos (by omega)]
        · rw [if_neg hql, hq]
          by_cases hqs : q < lo
          · rw [if_pos hqs, if_pos (by omega)]
          · rw [if_neg hqs, if_neg (by omega)])
    refine ⟨m', ?_, e2, e3⟩
    rw [run_bind]
    unfold scalarBody
    rw [run_bind, h1]
    simp only [Out.ok_bind, run, hget]
    exact e1

/-! ## Objects -/

theorem wf_newView {s : St α} (h : WF s) {t : Nat} {v : View} (ht : t < s.next) (hnv : ∀ t' v', s.objs t ≠ some (.view t' v'))
    (hn : ∃ n, Fits v n ∧ n < 2 ^ 32 ∧ ∀ e, s.objs t = some (.array e) → count e = n) : WF (alloc s (.view t v)) := by
  refine ⟨?_, ?_, ?_, ?_⟩
  · intro id hid
    simp only [alloc] at hid ⊢
    rw [if_neg (by omega)]
    exact h.unused id (by omega)
  · intro id e he
    simp only [alloc] at he ⊢
    split at he
    · cases he
    · exact h.arr id e he
  · intro id t' v' hv
    simp only [alloc] at hv ⊢
    split at hv
    · injection hv with hv
      injection hv with e1 e2
      subst e1 e2
      refine ⟨by omega, ?_, ?_⟩
      · intro a b hc
        rw [if_neg (by omega)] at hc
        exact hnv a b hc
      · obtain ⟨n, n1, n2, n3⟩ := hn
        refine ⟨n, n1, n2, fun e he => n3 e ?_⟩
        rw [if_neg (by omega)] at he
        exact he
    · obtain ⟨h1, h2, n, n1, n2, n3⟩ := h.view id t' v' hv
      refine ⟨by omega, ?_, n, n1, n2, ?_⟩
      · intro a b hc
        rw [if_neg (by omega)] at hc
        exact h2 a b hc
      · intro e he
        rw [if_neg (by omega)] at he
        exact n3 e he
  · intro p hp id hid
    simp only [alloc] at hp ⊢
    split
    · simp
    · exact h.vars p hp id hid

theorem wf_newArray {s : St α} (h : WF s) {x : List Nat} (hx : 0 < count x) (hx' : count x < 2 ^ 32) {m : Mem α}
    (hm : ∀ id, id ≠ s.next → m id = s.mem id) (hl : (m s.next).length = count x) : WF { alloc s (.array x) with mem := m } := by
  refine ⟨?_, ?_, ?_, ?_⟩
  · intro id hid
    simp only [alloc] at hid ⊢
    rw [if_neg (by omega)]
    exact h.unused id (by omega)
  · intro id e he
    simp only [alloc] at he ⊢
    split at he
    · rename_i hid
      injection he with he
      injection he with he
      subst he hid
      exact ⟨hx, hx', hl⟩
    · rename_i hid
      rw [hm id hid]
      exact h.arr id e he
  · intro id t v hv
    simp only [alloc] at hv ⊢
    split at hv
    · cases hv
    · obtain ⟨h1, h2, n, n1, n2, n3⟩ := h.view id t v hv
      refine ⟨by omega, ?_, n, n1, n2, ?_⟩
      · intro a b hc
        rw [if_neg (by omega)] at hc
        exact h2 a b hc
      · intro e he
        rw [if_neg (by omega)] at he
        exact n3 e he
  · intro p hp id hid
    simp only [alloc] at hp ⊢
    split
    · simp
    · exact h.vars p hp id hid

theorem wf_mem {s : St α} (h : WF s) {m : Mem α} (hm : ∀ id, (m id).length = (s.mem id).length) : WF { s with mem := m } :=
  ⟨h.unused, fun id e he => by simpa only [hm id] using h.arr id e he, h.view, h.vars⟩

theorem wf_bind {s : St α} (h : WF s) {x : Nat} {v : Val α} (hv : ∀ id, v = .ref id → s.objs id ≠ none) : WF (bindVar s x v) := by
  refine ⟨h.unused, h.arr, h.view, ?_⟩
  intro p hp id hid
  simp only [bindVar, List.mem_cons, List.mem_filter] at hp
  rcases hp with rfl | ⟨hp, _⟩
  · exact hv id hid
  · exact h.vars p hp id hid

theorem wf_filter {s : St α} (h : WF s) (f : Nat × Val α → Bool) : WF { s with vars := s.vars.filter f } :=
  ⟨h.unused, h.arr, h.view, fun p hp id hid => h.vars p (List.mem_filter.1 hp).1 id hid⟩

theorem referenced_of {s : St α} {p : Nat × Val α} (hp : p ∈ s.vars) {id : Nat} (hid : p.2 = .ref id) : referenced s id = true := by
  unfold referenced
  rw [List.any_eq_true]
  refine ⟨p, hp, ?_⟩
  rw [hid]
  simp

theorem wf_collect {s : St α} (h : WF s) : WF (collect s) := by
  refine ⟨?_, ?_, ?_, ?_⟩
  · intro id hid
    simp only [collect] at hid ⊢
    split
    · exact h.unused id hid
    · rfl
  · intro id e he
    simp only [collect] at he ⊢
    split at he
    · exact h.arr id e he
    · cases he
  · intro id t v hv
    simp only [collect] at hv ⊢
    split at hv
    · obtain ⟨h1, h2, n, n1, n2, n3⟩ := h.view id t v hv
      refine ⟨h1, ?_, n, n1, n2, ?_⟩
      · intro a b hc
        split at hc
        · exact h2 a b hc
        · cases hc
      · intro e he
        split at he
        · exact n3 e he
        · cases he
    · cases hv
  · intro p hp id hid
    simp only [collect] at hp ⊢
    rw [if_pos (referenced_of hp hid)]
    exact h.vars p hp id hid

/-! ## Methods -/

/-- `(l op r).eval()`. -/
theorem binary_ok {fresh : Nat → List α} (hf : ∀ n, (fresh n).length = n) {s : St α} (h : WF s) (f : α → α → α) {l r : Val α}
    (hl : Usable s l) (hr : Usable s r) {x : List Nat} (hm : Match s l r x) :
    ∃ m, binary fresh f s l r = .ok ({ alloc s (.array x) with mem := m }, .ref s.next) ∧ (∀ id, id ≠ s.next → m id = s.mem id) ∧
      (m s.next).length = count x ∧ 0 < count x ∧ count x < 2 ^ 32 ∧
      ∀ k, k < count x → ∃ a b, elem fresh s l k = some a ∧ elem fresh s r k = some b ∧ (m s.next)[k]? = some (f a b) := by
  obtain ⟨el, l1, l2, l3, l5⟩ := operand_ok hf h hl
  obtain ⟨er, r1, r2, r3, r5⟩ := operand_ok hf h hr
  obtain ⟨sh, s1, rfl⟩ := pair_shape (f := f) hm l2 r2
  have hx : 0 < count (ext sh) ∧ count (ext sh) < 2 ^ 32 := by
    rcases hm with ⟨h1, _⟩ | ⟨h1, _⟩ | ⟨_, h1⟩
    · exact l3 _ h1
    · exact l3 _ h1
    · exact r3 _ h1
  have hln : ∀ y, extents s l = some y → count y = count (ext sh) := by
    intro y hy
    rcases hm with ⟨h1, _⟩ | ⟨h1, _⟩ | ⟨h1, _⟩ <;> rw [h1] at hy <;> cases hy <;> rfl
  have hrn : ∀ y, extents s r = some y → count y = count (ext sh) := by
    intro y hy
    rcases hm with ⟨_, h1⟩ | ⟨_, h1⟩ | ⟨_, h1⟩ <;> rw [h1] at hy <;> cases hy <;> rfl
  have hsz : size sh = count (ext sh) := size_small hx.2
  obtain ⟨a0, _, _, _⟩ := l5 _ hln 0 hx.1
  obtain ⟨b0, _, _, _⟩ := r5 _ hrn 0 hx.1
  obtain ⟨m, m1, m2, m3⟩ := store_loop (d := s.next) (n := count (ext sh)) (e := .bin f el er)
    (m0 := setData s.mem s.next (fresh (size sh)))
    (fun k => f ((elem fresh s l k).getD a0) ((elem fresh s r k).getD b0)) (by simp [hf, hsz]) (by
      intro k hk m hm hag
      obtain ⟨a, a1, a2, a3⟩ := l5 _ hln k hk
      obtain ⟨b, b1, b2, b3⟩ := r5 _ hrn k hk
      have hm' : ∀ id, id ≠ s.next → m id = s.mem id := fun id hid => by rw [hm id hid, setData_other _ _ hid]
      have hd := Or.inl (b := count (ext sh) ∣ 0 ∧ AgreeOutside (s.mem s.next) (m s.next) 0 (0 + k)) (h.unused s.next (Nat.le_refl _))
      simp only [scalarP, run_bind, a3 m s.next 0 hm' hd, b3 m s.next 0 hm' hd, Out.ok_bind, run, a1, b1, Option.getD_some]) (count (ext sh)) 0 (setData s.mem s.next (fresh (size sh))) (by omega) (fun _ _ => rfl) (by simp [hf, hsz])
      (by intro q; simp)
  refine ⟨m, ?_, ?_, ?_, hx.1, hx.2, ?_⟩
  · unfold binary store
    simp only [l1, r1, s1, Out.ok_bind, hsz]
    rw [if_neg (by omega)]
    rw [hsz] at m1
    simp only [m1, Out.ok_bind, Out.pure_eq]
  · intro id hid
    rw [m2 id hid, setData_other _ _ hid]
  · simp [m3]
  · intro k hk
    obtain ⟨a, a1, _, _⟩ := l5 _ hln k hk
    obtain ⟨b, b1, _, _⟩ := r5 _ hrn k hk
    refine ⟨a, b, a1, b1, ?_⟩
    rw [m3, List.getElem?_map, List.getElem?_range hk, Option.map_some, a1, b1]
    rfl

/-- The object `id` stands for the `count x` elements from `off` on of the array `t`. -/
def Place (s : St α) (id t off : Nat) (x : List Nat) : Prop :=
  (s.objs id = some (.array x) ∧ t = id ∧ off = 0) ∨
    ∃ v e, s.objs id = some (.view t v) ∧ s.objs t = some (.array e) ∧ IsView v x off

theorem isView_unique {v : View} {x y : List Nat} {a b : Nat} (h : IsView v x a) (h' : IsView v y b) : x = y ∧ a = b :=
  ⟨h.ext_eq.symm.trans h'.ext_eq, by have := h.off_eq.symm.trans h'.off_eq; omega⟩

theorem place_of {s : St α} (h : WF s) {id : Nat} (hu : Usable s (.ref id)) : ∃ t off x, Place s id t off x := by
  rcases hu with ⟨e, he⟩ | ⟨t, v, e, hv, ht⟩
  · exact ⟨id, 0, e, .inl ⟨he, rfl, rfl⟩⟩
  · obtain ⟨_, _, _, ⟨x, off, hx, _⟩, _⟩ := h.view id t v hv
    exact ⟨t, off, x, .inr ⟨v, e, hv, ht, hx⟩⟩

theorem Place.usable {s : St α} {id t off : Nat} {x : List Nat} (hp : Place s id t off x) : Usable s (.ref id) := by
  rcases hp with ⟨h1, _, _⟩ | ⟨v, e, h1, h2, _⟩
  · exact .inl ⟨x, h1⟩
  · exact .inr ⟨t, v, e, h1, h2⟩

theorem Place.extents_eq {s : St α} {id t off : Nat} {x : List Nat} (hp : Place s id t off x) : extents s (.ref id) = some x := by
  rcases hp with ⟨h1, _, _⟩ | ⟨v, e, h1, h2, h3⟩
  · simp [extents, h1]
  · simp [extents, h1, h3.ext_eq]

theorem Place.facts {s : St α} (h : WF s) {id t off : Nat} {x : List Nat} (hp : Place s id t off x) :
    (∃ e, s.objs t = some (.array e) ∧ (s.mem t).length = count e) ∧ off + count x ≤ (s.mem t).length ∧ count x ∣ off ∧ 0 < count x ∧
      count x < 2 ^ 32 := by
  rcases hp with ⟨h1, rfl, rfl⟩ | ⟨v, e, h1, h2, h3⟩
  · obtain ⟨a1, a2, a3⟩ := h.arr t x h1
    exact ⟨⟨x, h1, a3⟩, by omega, Nat.dvd_zero _, a1, a2⟩
  · obtain ⟨_, _, n, ⟨y, b, hy, hfit, hdvd⟩, _, hn⟩ := h.view id t v h1
    obtain ⟨rfl, rfl⟩ := isView_unique h3 hy
    obtain ⟨a1, a2, a3⟩ := h.arr t e h2
    have := hn e h2
    exact ⟨⟨e, h2, a3⟩, by omega, hdvd, h3.pos, h3.small⟩

theorem elem_place {fresh : Nat → List α} (hf : ∀ n, (fresh n).length = n) {s : St α} (h : WF s) {id t off : Nat} {x : List Nat}
    (hp : Place s id t off x) {k : Nat} (hk : k < count x) : elem fresh s (.ref id) k = (s.mem t)[off + k]? := by
  have hfit := (hp.facts h).2.1
  rcases hp with ⟨h1, rfl, rfl⟩ | ⟨v, e, h1, h2, h3⟩
  · simp [elem, elements, h1]
  · obtain ⟨res, r1, r2, r3⟩ := eval_ok h3 (data := s.mem t) (init := fresh (size v.shape)) hfit (by rw [hf, size_view h3])
    simp only [elem, elements, h1, live_iff.2 ⟨e, h2⟩, if_pos, r1]
    exact r3 k hk

/-- Replace the elements of a place. -/
def Replaced (s : St α) (m : Mem α) (t off n : Nat) (val : Nat → Option α) : Prop :=
  (∀ id, id ≠ t → m id = s.mem id) ∧ (m t).length = (s.mem t).length ∧
    ∀ q : Nat, (m t)[q]? = if off ≤ q ∧ q < off + n then val (q - off) else (s.mem t)[q]?

theorem Replaced.lengths {s : St α} {m : Mem α} {t off n : Nat} {val : Nat → Option α} (h : Replaced s m t off n val) (id : Nat) :
    (m id).length = (s.mem id).length := by
  by_cases hid : id = t
  · subst hid; exact h.2.1
  · rw [h.1 id hid]

/-- The expression of `self op other`, and what it gives while the elements of `self` are being replaced. -/
theorem pair_reads {fresh : Nat → List α} (hf : ∀ n, (fresh n).length = n) {s : St α} (h : WF s) (f : α → α → α) {id t off : Nat}
    {x : List Nat} (hp : Place s id t off x) {r : Val α} (hr : Usable s r) (hm : extents s r = some x ∨ extents s r = none) :
    ∃ es er sh, operand s (.ref id) = .ok es ∧ operand s r = .ok er ∧ exprShape s (.bin f es er) = .ok sh ∧ ext sh = x ∧
      ∀ k, k < count x → ∃ a b, (s.mem t)[off + k]? = some a ∧ elem fresh s r k = some b ∧
        ∀ m : Mem α, (∀ id, id ≠ t → m id = s.mem id) → AgreeOutside (s.mem t) (m t) off (off + k) →
          run (scalarP k (.bin f es er)) m = .ok (f a b, m) := by
  obtain ⟨_, _, hdvd, _, _⟩ := hp.facts h
  have hext := hp.extents_eq
  obtain ⟨el, l1, l2, l3, l5⟩ := operand_ok hf h hp.usable
  obtain ⟨er, r1, r2, r3, r5⟩ := operand_ok hf h hr
  have hm' : Match s (.ref id) r x := by
    rcases hm with h1 | h1
    · exact .inl ⟨hext, h1⟩
    · exact .inr (.inl ⟨hext, h1⟩)
  obtain ⟨sh, s1, s2⟩ := pair_shape (f := f) hm' l2 r2
  refine ⟨el, er, sh, l1, r1, s1, s2, ?_⟩
  intro k hk
  obtain ⟨a, a1, a2, a3⟩ := l5 (count x) (by intro y hy; rw [hext] at hy; cases hy; rfl) k hk
  obtain ⟨b, b1, b2, b3⟩ := r5 (count x) (by intro y hy; rcases hm with h1 | h1 <;> rw [h1] at hy <;> cases hy; rfl) k hk
  refine ⟨a, b, by rw [← elem_place hf h hp hk, a1], b1, ?_⟩
  intro m hm hag
  simp only [scalarP, run_bind, a3 m t off hm (.inr ⟨hdvd, hag⟩), b3 m t off hm (.inr ⟨hdvd, hag⟩), Out.ok_bind, run]

/-- `self += other` and its like: the elements of `self` are replaced by the results. -/
theorem update_ok {fresh : Nat → List α} (hf : ∀ n, (fresh n).length = n) {s : St α} (h : WF s) (f : α → α → α) {id t off : Nat}
    {x : List Nat} (hp : Place s id t off x) {r : Val α} (hr : Usable s r) (hm : extents s r = some x ∨ extents s r = none) :
    ∃ m, update f s id r = .ok { s with mem := m } ∧
      Replaced s m t off (count x) (fun k => match (s.mem t)[off + k]?, elem fresh s r k with
        | some a, some b => some (f a b)
        | _, _ => none) := by
  obtain ⟨⟨e, ht, hlen⟩, hfit, hdvd, hpos, hsm⟩ := hp.facts h
  obtain ⟨es, er, sh, o1, o2, o3, rfl, o5⟩ := pair_reads hf h f hp hr hm
  have hsz : size sh = count (ext sh) := size_small hsm
  obtain ⟨a0, b0, _, _, _⟩ := o5 0 hpos
  have hval : ∃ val : Nat → α, ∀ k, k < count (ext sh) →
      (∃ a b, (s.mem t)[off + k]? = some a ∧ elem fresh s r k = some b ∧ val k = f a b) ∧
      ∀ m : Mem α, (∀ id, id ≠ t → m id = s.mem id) → AgreeOutside (s.mem t) (m t) off (off + k) →
          run (scalarP k (.bin f es er)) m = .ok (val k, m) := by
    refine ⟨fun k => f (((s.mem t)[off + k]?).getD a0) ((elem fresh s r k).getD b0), ?_⟩
    intro k hk
    obtain ⟨a, b, a1, b1, hrun⟩ := o5 k hk
    simp only [a1, b1, Option.getD_some]
    exact ⟨⟨a, b, rfl, rfl, rfl⟩, hrun⟩
  obtain ⟨val, hval⟩ := hval
  rcases hp with ⟨h1, rfl, rfl⟩ | ⟨v, e', h1, h2, h3⟩
  · obtain ⟨a1, a2, a3⟩ := h.arr t _ h1
    obtain ⟨m, m1, m2, m3⟩ := store_loop (d := t) (n := count (ext sh)) (e := .bin f es er) (m0 := s.mem) val a3 (by
      intro k hk m hm hag
      exact (hval k hk).2 m hm (by simpa using hag)) (count (ext sh)) 0 s.mem (by omega) (fun _ _ => rfl) a3 (by intro q; simp)
    refine ⟨m, ?_, m2, by rw [m3]; simp [a3], ?_⟩
    · unfold update store
      simp only [o1, o2, o3, Out.ok_bind, h1, hsz]
      rw [if_neg (by omega)]
      simp only [m1, Out.ok_bind, Out.pure_eq]
    · intro q
      rw [m3, List.getElem?_map]
      by_cases hq : q < count (ext sh)
      · obtain ⟨⟨a, b, e1, e2, e3⟩, _⟩ := hval q hq
        rw [if_pos ⟨by omega, by omega⟩, List.getElem?_range hq, Nat.sub_zero, Option.map_some, e3]
        simp only [e1, e2]
      · rw [if_neg (by omega), List.getElem?_eq_none (by simp; omega), List.getElem?_eq_none (by omega)]
        rfl
  · obtain ⟨data, d1, d2, d3⟩ := assign_ok (asserts := true) h3 (srcShape := sh) rfl (src := exprSrc s.mem t (.bin f es er))
      (data := s.mem t) val hfit (by
        intro k hk data' hag
        unfold exprSrc
        rw [(hval k hk).2 (setData s.mem t data') (fun id hid => setData_other _ _ hid) (by simpa using hag)]
        rfl)
    refine ⟨setData s.mem t data, ?_, fun id hid => setData_other _ _ hid, by simp [d2], ?_⟩
    · unfold update
      simp only [o1, o2, o3, Out.ok_bind, h1]
      unfold assignExpr
      simp only [d1, Out.ok_bind, Out.pure_eq]
    · intro q
      rw [setData_same, d3]
      split
      · rename_i hq
        obtain ⟨⟨a, b, e1, e2, e3⟩, _⟩ := hval (q - off) (by omega)
        rw [e3]
        simp only [e1, e2]
      · rfl

/-- `self[i]`: the part with this leading coordinate, or `IndexError`. -/
theorem item_ok {s : St α} (h : WF s) {id t off : Nat} {x : List Nat} (hp : Place s id t off x) (i : Int) :
    (∃ d ds v, x = d :: ds ∧ 0 ≤ i ∧ i < d ∧ item s id i = .ok (t, v) ∧ IsView v ds (off + i.toNat * count ds)) ∨
      ((∀ d ds, x = d :: ds → i < 0 ∨ (d : Int) ≤ i) ∧ item s id i = .throw .outOfRange) := by
  obtain ⟨⟨e, ht, hlen⟩, hfit, hdvd, hpos, hsm⟩ := hp.facts h
  have hchain : ∀ e i, chain true (.shape e) i [] = arrayIndex true (.shape e) i := by
    intro e i
    unfold chain
    cases arrayIndex true (.shape e) i <;> rfl
  by_cases hg : ∃ d ds, x = d :: ds ∧ 0 ≤ i ∧ i < d
  · obtain ⟨d, ds, rfl, h0, h1⟩ := hg
    refine .inl ⟨d, ds, ?_⟩
    obtain ⟨j, rfl⟩ := Int.eq_ofNat_of_zero_le h0
    have hj : j < d := by omega
    rcases hp with ⟨a1, rfl, rfl⟩ | ⟨v, e', a1, a2, a3⟩
    · obtain ⟨v, v1, v2⟩ := arrayView_ok (asserts := true) (s := .shape (d :: ds)) (i := j) (is := []) (by simp) hsm (by simp [ext])
        (by simp only [ext, List.length_cons, List.length_nil, List.take_succ_cons, List.take_zero]; exact .cons hj .nil) hpos
      refine ⟨v, rfl, h0, h1, ?_, by simpa [ravel, ext, count] using v2⟩
      unfold item
      simp only [a1]
      have v3 : arrayIndex true (.shape (d :: ds)) (j : Nat) = .ok v := by rw [← hchain]; exact v1
      rw [v3]
      rfl
    · obtain ⟨v', v1, v2⟩ := index_ok (asserts := true) a3 hj
      refine ⟨v', rfl, h0, h1, ?_, by simpa using v2⟩
      unfold item
      simp only [a1, live_iff.2 ⟨e', a2⟩, if_pos]
      rw [v1]
      rfl
  · have hb : ∀ d ds, x = d :: ds → ¬ (0 ≤ i ∧ i < d) := fun d ds hx hc => hg ⟨d, ds, hx, hc.1, hc.2⟩
    refine .inr ⟨fun d ds hx => by have := hb d ds hx; omega, ?_⟩
    rcases hp with ⟨a1, rfl, rfl⟩ | ⟨v, e', a1, a2, a3⟩
    · have hr : chain true (.shape x) i [] = .throw .outOfRange := by
        apply C17_reject_partial _ (by simp)
        intro c hc heq
        have hin := mem_coords.1 hc
        cases c with
        | nil => simp at heq
        | cons j js =>
          simp only [List.map_cons, List.cons.injEq] at heq
          cases x with
          | nil => simp only [ext, List.take_nil] at hin; cases hin
          | cons d ds =>
            simp only [ext, List.length_cons, List.length_nil, List.take_succ_cons] at hin
            cases hin with
            | cons h1 _ => exact hb d ds rfl (by omega)
      unfold item
      simp only [a1]
      rw [← hchain, hr]
      rfl
    · have hr := index_reject (v := v) (e := x) (i := i) ⟨a3.ext_eq, a3.notVec⟩ hb
      unfold item
      simp only [a1, live_iff.2 ⟨e', a2⟩, if_pos, hr]
      rfl

/-- `view = other`: the elements of the view are replaced by those of the other value. -/
theorem assignTo_ok {fresh : Nat → List α} (hf : ∀ n, (fresh n).length = n) {s : St α} (h : WF s) {t off : Nat} {v : View}
    {x : List Nat} (hv : IsView v x off) (hfit : off + count x ≤ (s.mem t).length) (hdvd : count x ∣ off) {r : Val α}
    (hr : Usable s r) (hm : extents s r = some x ∨ (extents s r = none ∧ x = [])) :
    ∃ data, assignTo s t v r = .ok data ∧ Replaced s (setData s.mem t data) t off (count x) (elem fresh s r) := by
  cases r with
  | num c =>
    rcases hm with hm | ⟨_, rfl⟩
    · cases hm
    have hlt : off < (s.mem t).length := by simp only [count] at hfit; omega
    have hnd : ndim v.shape = 0 := by rw [ndim_eq, hv.ext_eq]; rfl
    refine ⟨(s.mem t).set off c, ?_, fun id hid => setData_other _ _ hid, by simp, ?_⟩
    · unfold assignTo assignScalar
      rw [hnd, hv.off_eq]
      exact writeAt_nat _ _ _ hlt
    · intro q
      rw [setData_same, List.getElem?_set, show count [] = 1 from rfl]
      by_cases hq : off = q
      · subst hq
        rw [if_pos rfl, if_pos hlt]
        simp [elem]
      · rw [if_neg hq]
        have : ¬ (off ≤ q ∧ q < off + 1) := by omega
        simp [this]
  | ref id =>
    have hm' : extents s (.ref id) = some x := by
      rcases hm with hm | ⟨hm, _⟩
      · exact hm
      · obtain ⟨_, _, y, hp⟩ := place_of h hr
        rw [hp.extents_eq] at hm
        cases hm
    obtain ⟨e, l1, ⟨sh, l2, l2'⟩, l3, l5⟩ := operand_ok hf h hr
    rw [hm'] at l2'
    cases sh with
    | none => cases l2'
    | some sh =>
      simp only [Option.map_some, Option.some.injEq] at l2'
      have l5' := l5 (count x) (by intro y hy; rw [hm'] at hy; cases hy; rfl)
      obtain ⟨y0, _, _, _⟩ := l5' 0 hv.pos
      obtain ⟨data, d1, d2, d3⟩ := assign_ok (asserts := true) hv (srcShape := sh) l2' (src := exprSrc s.mem t e)
        (data := s.mem t) (fun k => (elem fresh s (.ref id) k).getD y0) hfit (by
          intro k hk data' hag
          obtain ⟨y, y1, y2, y3⟩ := l5' k hk
          unfold exprSrc
          rw [y3 (setData s.mem t data') t off (fun id hid => setData_other _ _ hid) (.inr ⟨hdvd, by simpa using hag⟩), y1]
          rfl)
      refine ⟨data, ?_, fun id hid => setData_other _ _ hid, by simp [d2], ?_⟩
      · unfold assignTo exprShape assignExpr
        simp only [l1, l2, Out.ok_bind]
        exact d1
      · intro q
        rw [setData_same, d3]
        split
        · rename_i hq
          obtain ⟨y, y1, _, _⟩ := l5' (q - off) (by omega)
          rw [y1]; rfl
        · rfl

/-- `view = other` is rejected if the extents differ. -/
theorem assignTo_throws {fresh : Nat → List α} (hf : ∀ n, (fresh n).length = n) {s : St α} (h : WF s) {t off : Nat} {v : View}
    {x : List Nat} (hv : IsView v x off) {r : Val α} (hr : Usable s r)
    (hm : ¬ (extents s r = some x ∨ (extents s r = none ∧ x = []))) : ∃ e, assignTo s t v r = .throw e := by
  cases r with
  | num c =>
    have hx : x ≠ [] := fun hx => hm (.inr ⟨rfl, hx⟩)
    have hnd : ndim v.shape ≠ 0 := by
      rw [ndim_eq, hv.ext_eq]
      intro h0
      exact hx (List.length_eq_zero_iff.1 h0)
    exact ⟨.invalidArgument, by simp [assignTo, assignScalar, hnd]⟩
  | ref id =>
    obtain ⟨e, l1, ⟨sh, l2, l2'⟩, l3, l5⟩ := operand_ok hf h hr
    obtain ⟨_, _, y, hp⟩ := place_of h hr
    rw [hp.extents_eq] at l2' hm
    cases sh with
    | none => cases l2'
    | some sh =>
      simp only [Option.map_some, Option.some.injEq] at l2'
      have hne : shapeEq x y = false := by
        rw [Bool.eq_false_iff]
        intro hc
        exact hm (.inl (by rw [shapeEq_iff.1 hc]))
      refine ⟨.rangeError, ?_⟩
      unfold assignTo exprShape assignExpr assign
      simp [l1, l2, hv.ext_eq, l2', hne]

/-- `l op r` is rejected if the extents differ. -/
theorem pair_throws {fresh : Nat → List α} (hf : ∀ n, (fresh n).length = n) {s : St α} (h : WF s) (f : α → α → α) {l r : Val α}
    (hl : Usable s l) (hr : Usable s r) {x y : List Nat} (hx : extents s l = some x) (hy : extents s r = some y) (hne : x ≠ y) :
    ∃ el er, operand s l = .ok el ∧ operand s r = .ok er ∧ exprShape s (.bin f el er) = .throw .rangeError := by
  obtain ⟨el, l1, ⟨sl, l2, l2'⟩, _, _⟩ := operand_ok hf h hl
  obtain ⟨er, r1, ⟨sr, r2, r2'⟩, _, _⟩ := operand_ok hf h hr
  refine ⟨el, er, l1, r1, ?_⟩
  rw [hx] at l2'
  rw [hy] at r2'
  cases sl with
  | none => cases l2'
  | some a =>
    cases sr with
    | none => cases r2'
    | some b =>
      simp only [Option.map_some, Option.some.injEq] at l2' r2'
      have : shapeEq x y = false := by
        rw [Bool.eq_false_iff]
        intro hc
        exact hne (shapeEq_iff.1 hc)
      unfold exprShape
      simp [build, l2, r2, binShape, l2', r2', this]

end Verif.PyM
