import Verif.Lemmas.Python
import Verif.Props.Iterate

/-! Lemmas for the Python bindings: outcomes of the methods for any arguments, and the invariant of programs. -/

namespace Verif.PyM

open ShapeM Conc ExprM ViewM Grid AliasM

variable {α : Type}

/-- What printing shows for an object that stands for a part of an array. -/
theorem elements_place {fresh : Nat → List α} (hf : ∀ n, (fresh n).length = n) {s : St α} (h : WF s) {id t off : Nat} {x : List Nat}
    (hp : Place s id t off x) : elements fresh s (.ref id) = .ok (((s.mem t).drop off).take (count x)) := by
  have hfit := (hp.facts h).2.1
  rcases hp with ⟨h1, rfl, rfl⟩ | ⟨v, e, h1, h2, h3⟩
  · obtain ⟨_, _, a3⟩ := h.arr t x h1
    simp [elements, h1, ← a3]
  · obtain ⟨res, r1, r2, r3⟩ := eval_ok h3 (data := s.mem t) (init := fresh (size v.shape)) hfit (by rw [hf, size_view h3])
    simp only [elements, h1, live_iff.2 ⟨e, h2⟩, if_pos, r1]
    congr 1
    apply List.ext_getElem?
    intro k
    by_cases hk : k < count x
    · rw [r3 k hk, List.getElem?_take_of_lt hk, List.getElem?_drop]
    · rw [List.getElem?_eq_none (by omega), List.getElem?_eq_none (by simp; omega)]

theorem Place.same {s s' : St α} {id t off : Nat} {x : List Nat} (hp : Place s id t off x) (h1 : s'.objs id = s.objs id)
    (h2 : s'.objs t = s.objs t) : Place s' id t off x := by
  unfold Place
  rw [h1, h2]
  exact hp

theorem Place.unique {s : St α} {id t t' off off' : Nat} {x x' : List Nat} (h : Place s id t off x) (h' : Place s id t' off' x') :
    t = t' ∧ off = off' ∧ x = x' := by
  rcases h with ⟨a, rfl, rfl⟩ | ⟨v, e, a, b, c⟩ <;> rcases h' with ⟨a', rfl, rfl⟩ | ⟨v', e', a', b', c'⟩
  · rw [a] at a'; injection a' with a'; injection a' with a'; exact ⟨rfl, rfl, a'⟩
  · rw [a] at a'; cases a'
  · rw [a] at a'; cases a'
  · rw [a] at a'
    injection a' with a'; injection a' with a1 a2
    subst a1 a2
    obtain ⟨h1, h2⟩ := isView_unique c c'
    exact ⟨rfl, h2, h1⟩

theorem operand_ub {s : St α} {v : Val α} (hu : ¬ Usable s v) : operand s v = .ub := by
  cases v with
  | num c => exact absurd trivial hu
  | ref id =>
    cases ho : s.objs id with
    | none => simp [operand, ho]
    | some o =>
      cases o with
      | array e => exact absurd (.inl ⟨e, ho⟩) hu
      | view t v =>
        have : live s t = false := by
          rw [Bool.eq_false_iff]
          intro hc
          obtain ⟨e, he⟩ := live_iff.1 hc
          exact hu (.inr ⟨t, v, e, ho, he⟩)
        simp [operand, ho, this]

theorem operand_cases {s : St α} {v : Val α} : (∃ e, operand s v = .ok e) ∨ operand s v = .ub := by
  cases v with
  | num c => exact .inl ⟨_, rfl⟩
  | ref id =>
    cases ho : s.objs id with
    | none => exact .inr (by simp [operand, ho])
    | some o =>
      cases o with
      | array e => exact .inl ⟨_, by simp only [operand, ho]; rfl⟩
      | view t v =>
        cases hl : live s t with
        | true => exact .inl ⟨_, by simp only [operand, ho, hl, if_true]; rfl⟩
        | false => exact .inr (by simp [operand, ho, hl])

/-- `l op r` for any two values, not both numbers. -/
theorem binary_cases {fresh : Nat → List α} (hf : ∀ n, (fresh n).length = n) {s : St α} (h : WF s) (f : α → α → α) {l r : Val α}
    (hn : ∀ a b, ¬ (l = .num a ∧ r = .num b)) :
    ((¬ Usable s l ∨ ¬ Usable s r) ∧ binary fresh f s l r = .ub) ∨
    (Usable s l ∧ Usable s r ∧ ((∃ x, Match s l r x) ∨
      ((∃ x y, extents s l = some x ∧ extents s r = some y ∧ x ≠ y) ∧ binary fresh f s l r = .throw .rangeError))) := by
  by_cases hl : Usable s l
  · by_cases hr : Usable s r
    · refine .inr ⟨hl, hr, ?_⟩
      have hext : ∀ v : Val α, Usable s v → (∃ c, v = .num c) ∨ ∃ x, extents s v = some x := by
        intro v hv
        cases v with
        | num c => exact .inl ⟨c, rfl⟩
        | ref id =>
          obtain ⟨_, _, x, hp⟩ := place_of h hv
          exact .inr ⟨x, hp.extents_eq⟩
      rcases hext l hl with ⟨a, rfl⟩ | ⟨x, hx⟩ <;> rcases hext r hr with ⟨b, rfl⟩ | ⟨y, hy⟩
      · exact absurd ⟨rfl, rfl⟩ (hn a b)
      · exact .inl ⟨y, .inr (.inr ⟨rfl, hy⟩)⟩
      · exact .inl ⟨x, .inr (.inl ⟨hx, rfl⟩)⟩
      · by_cases hxy : x = y
        · subst hxy; exact .inl ⟨x, .inl ⟨hx, hy⟩⟩
        · refine .inr ⟨⟨x, y, hx, hy, hxy⟩, ?_⟩
          obtain ⟨el, er, e1, e2, e3⟩ := pair_throws hf h f hl hr hx hy hxy
          unfold binary
          simp [e1, e2, e3]
    · refine .inl ⟨.inr hr, ?_⟩
      unfold binary
      rcases operand_cases (s := s) (v := l) with ⟨e, he⟩ | he <;> simp [he, operand_ub hr]
  · refine .inl ⟨.inl hl, ?_⟩
    unfold binary
    simp [operand_ub hl]

/-- `self op= other` for any two values. -/
theorem update_cases {fresh : Nat → List α} (hf : ∀ n, (fresh n).length = n) {s : St α} (h : WF s) (f : α → α → α) (id : Nat)
    (r : Val α) :
    ((¬ Usable s (.ref id) ∨ ¬ Usable s r) ∧ update f s id r = .ub) ∨
    (Usable s r ∧ ∃ t off x, Place s id t off x ∧ ((extents s r = some x ∨ extents s r = none) ∨
      ((∃ y, extents s r = some y ∧ x ≠ y) ∧ update f s id r = .throw .rangeError))) := by
  by_cases hl : Usable s (.ref id)
  · by_cases hr : Usable s r
    · obtain ⟨t, off, x, hp⟩ := place_of h hl
      refine .inr ⟨hr, t, off, x, hp, ?_⟩
      cases hy : extents s r with
      | none => exact .inl (.inr rfl)
      | some y =>
        by_cases hxy : x = y
        · exact .inl (.inl (by rw [hxy]))
        · refine .inr ⟨⟨y, rfl, hxy⟩, ?_⟩
          obtain ⟨el, er, e1, e2, e3⟩ := pair_throws hf h f hl hr hp.extents_eq hy hxy
          unfold update
          simp [e1, e2, e3]
    · refine .inl ⟨.inr hr, ?_⟩
      unfold update
      simp [operand_ub hr]
  · refine .inl ⟨.inl hl, ?_⟩
    unfold update
    rcases operand_cases (s := s) (v := r) with ⟨e, he⟩ | he <;> simp [he, operand_ub hl]

theorem item_ub {s : St α} {id : Nat} (hu : ¬ Usable s (.ref id)) (i : Int) : item s id i = .ub := by
  cases ho : s.objs id with
  | none => simp [item, ho]
  | some o =>
    cases o with
    | array e => exact absurd (.inl ⟨e, ho⟩) hu
    | view t v =>
      have : live s t = false := by
        rw [Bool.eq_false_iff]
        intro hc
        obtain ⟨e, he⟩ := live_iff.1 hc
        exact hu (.inr ⟨t, v, e, ho, he⟩)
      simp [item, ho, this]

/-- The part of a part. -/
theorem row_fits {d i c off n : Nat} (hi : i < d) (hfit : off + d * c ≤ n) (hdvd : d * c ∣ off) :
    off + i * c + c ≤ n ∧ c ∣ off + i * c := by
  constructor
  · have : (i + 1) * c ≤ d * c := Nat.mul_le_mul_right _ (by omega)
    rw [Nat.add_mul] at this
    omega
  · exact Nat.dvd_add (Nat.dvd_trans (Nat.dvd_mul_left _ _) hdvd) (Nat.dvd_mul_left _ _)

theorem obj_lt {s : St α} (h : WF s) {id : Nat} (ho : s.objs id ≠ none) : id < s.next := by
  rcases Nat.lt_or_ge id s.next with h1 | h1
  · exact h1
  · exact absurd (h.unused id h1) ho

theorem place_lt {s : St α} (h : WF s) {id t off : Nat} {x : List Nat} (hp : Place s id t off x) : id < s.next ∧ t < s.next := by
  obtain ⟨⟨e, ht, _⟩, _⟩ := hp.facts h
  refine ⟨obj_lt h ?_, obj_lt h (by simp [ht])⟩
  rcases hp with ⟨a, _⟩ | ⟨v, e', a, _⟩ <;> simp [a]

/-- A new view of a part of a place. -/
theorem wf_sub {s : St α} (h : WF s) {id t off off' : Nat} {x x' : List Nat} (hp : Place s id t off x) {v : View} (hv : IsView v x' off')
    (hfit : off' + count x' ≤ (s.mem t).length) (hdvd : count x' ∣ off') : WF (alloc s (.view t v)) := by
  obtain ⟨⟨e, ht, hlen⟩, _⟩ := hp.facts h
  refine wf_newView h (place_lt h hp).2 (by simp [ht]) ⟨count e, ⟨x', off', hv, by omega, hdvd⟩, (h.arr t e ht).2.1, ?_⟩
  intro e' he'
  rw [ht] at he'
  cases he'
  rfl

/-- `self[i]` for any object. -/
theorem getitem_cases {s : St α} (h : WF s) (id : Nat) (i : Int) :
    (¬ Usable s (.ref id) ∧ getitem s id i = .ub) ∨
    (∃ t off x, Place s id t off x ∧
      ((∃ d ds v, x = d :: ds ∧ 0 ≤ i ∧ i < d ∧ item s id i = .ok (t, v) ∧ IsView v ds (off + i.toNat * count ds) ∧
          off + i.toNat * count ds + count ds ≤ (s.mem t).length ∧ count ds ∣ off + i.toNat * count ds ∧
          getitem s id i = .ok (alloc s (.view t v), .ref s.next) ∧ WF (alloc s (.view t v)) ∧
          Place (alloc s (.view t v)) s.next t (off + i.toNat * count ds) ds) ∨
        ((∀ d ds, x = d :: ds → i < 0 ∨ (d : Int) ≤ i) ∧ item s id i = .throw .outOfRange ∧
          getitem s id i = .throw .outOfRange))) := by
  by_cases hu : Usable s (.ref id)
  · obtain ⟨t, off, x, hp⟩ := place_of h hu
    refine .inr ⟨t, off, x, hp, ?_⟩
    obtain ⟨⟨e, ht, hlen⟩, hfit, hdvd, _⟩ := hp.facts h
    rcases item_ok h hp i with ⟨d, ds, v, rfl, h0, h1, h2, h3⟩ | ⟨h0, h1⟩
    · have hrow := row_fits (i := i.toNat) (d := d) (c := count ds) (by omega) (by simpa [count] using hfit) (by simpa [count] using hdvd)
      refine .inl ⟨d, ds, v, rfl, h0, h1, h2, h3, hrow.1, hrow.2, ?_, wf_sub h hp h3 hrow.1 hrow.2, ?_⟩
      · unfold getitem
        rw [h2]
        rfl
      · have htn : t ≠ s.next := by have := (place_lt h hp).2; omega
        exact .inr ⟨v, e, by simp [alloc], by simp [alloc, htn, ht], h3⟩
    · refine .inr ⟨h0, h1, ?_⟩
      unfold getitem
      rw [h1]
      rfl
  · refine .inl ⟨hu, ?_⟩
    unfold getitem
    rw [item_ub hu]
    rfl

theorem assignTo_ub {s : St α} {r : Val α} (hr : ¬ Usable s r) (t : Nat) (v : View) : assignTo s t v r = .ub := by
  cases r with
  | num c => exact absurd trivial hr
  | ref id =>
    unfold assignTo
    simp [operand_ub hr]

/-- `self[i] = r` for any object and value. -/
theorem setitem_cases {fresh : Nat → List α} (hf : ∀ n, (fresh n).length = n) {s : St α} (h : WF s) (id : Nat) (i : Int) (r : Val α) :
    ((¬ Usable s (.ref id) ∨ ¬ Usable s r) ∧ setitem s id i r = .ub) ∨
    (∃ t off x, Place s id t off x ∧
      ((∃ d ds m, x = d :: ds ∧ 0 ≤ i ∧ i < d ∧ Usable s r ∧ (extents s r = some ds ∨ (extents s r = none ∧ ds = [])) ∧
          setitem s id i r = .ok { s with mem := m } ∧
          Replaced s m t (off + i.toNat * count ds) (count ds) (elem fresh s r)) ∨
        ((∃ d ds, x = d :: ds ∧ 0 ≤ i ∧ i < d ∧ Usable s r ∧ ¬ (extents s r = some ds ∨ (extents s r = none ∧ ds = []))) ∧
          ∃ e, setitem s id i r = .throw e) ∨
        ((∀ d ds, x = d :: ds → i < 0 ∨ (d : Int) ≤ i) ∧ setitem s id i r = .throw .outOfRange))) := by
  rcases getitem_cases h id i with ⟨hu, _⟩ | ⟨t, off, x, hp, ⟨d, ds, v, rfl, h0, h1, h2, h3, h4, h5, _⟩ | ⟨h0, h1, _⟩⟩
  · refine .inl ⟨.inl hu, ?_⟩
    unfold setitem
    rw [item_ub hu]
    rfl
  · by_cases hr : Usable s r
    · refine .inr ⟨t, off, d :: ds, hp, ?_⟩
      by_cases hm : extents s r = some ds ∨ (extents s r = none ∧ ds = [])
      · obtain ⟨data, d1, d2⟩ := assignTo_ok hf h h3 h4 h5 hr hm
        refine .inl ⟨d, ds, setData s.mem t data, rfl, h0, h1, hr, hm, ?_, d2⟩
        unfold setitem
        simp only [h2, Out.ok_bind, d1, Out.pure_eq]
      · obtain ⟨e, he⟩ := assignTo_throws hf h (t := t) h3 hr hm
        refine .inr (.inl ⟨⟨d, ds, rfl, h0, h1, hr, hm⟩, e, ?_⟩)
        unfold setitem
        simp only [h2, Out.ok_bind, he, Out.throw_bind]
    · refine .inl ⟨.inr hr, ?_⟩
      unfold setitem
      simp only [h2, Out.ok_bind, assignTo_ub hr, Out.ub_bind]
  · refine .inr ⟨t, off, x, hp, .inr (.inr ⟨h0, ?_⟩)⟩
    unfold setitem
    rw [h1]
    rfl

/-! ## Operators -/

theorem method_plain {op : Op} (h : op ≠ .div) : method .plain (pyBase op) = some (.binary op) := by
  cases op <;> first | rfl | exact absurd rfl h

theorem method_reflected {op : Op} (h : op ≠ .div) : method .reflected (pyBase op) = some (.swapped op) := by
  cases op <;> first | rfl | exact absurd rfl h

theorem method_inplace {op : Op} (h : op ≠ .div) : method .inplace (pyBase op) = some (.update .add) := by
  cases op <;> first | rfl | exact absurd rfl h

theorem method_div (k : Kind) : method k (pyBase .div) = none := by
  cases k <;> rfl

theorem binOp_eq (ar : Op → α → α → α) (fresh : Nat → List α) (s : St α) {op : Op} {l r : Val α}
    (hn : ∀ a b, ¬ (l = .num a ∧ r = .num b)) :
    binOp ar fresh s op l r = if op = .div then none else some (binary fresh (ar op) s l r) := by
  by_cases hop : op = .div
  · subst hop
    cases l with
    | num a =>
      cases r with
      | num b => exact absurd ⟨rfl, rfl⟩ (hn a b)
      | ref j => simp [binOp, dispatch, method_div]
    | ref i => cases r <;> simp [binOp, dispatch, method_div]
  · rw [if_neg hop]
    cases l with
    | num a =>
      cases r with
      | num b => exact absurd ⟨rfl, rfl⟩ (hn a b)
      | ref j => simp [binOp, dispatch, method_reflected hop]
    | ref i => cases r <;> simp [binOp, dispatch, method_plain hop]

theorem augOp_eq (ar : Op → α → α → α) (fresh : Nat → List α) (s : St α) {op : Op} (id : Nat) (r : Val α) :
    augOp ar fresh s op (.ref id) r =
      if op = .div then none else some (update (ar .add) s id r >>= fun s' => returnSelf s' id) := by
  by_cases hop : op = .div
  · subst hop
    unfold augOp
    simp only [method_div]
    rw [binOp_eq _ _ _ (by simp)]
    simp
  · rw [if_neg hop]
    unfold augOp
    simp only [method_inplace hop]

/-- `return self;` -/
theorem returnSelf_ok {s : St α} (h : WF s) {id : Nat} (ho : s.objs id ≠ none) :
    ∃ s', returnSelf s id = .ok (s', .ref s.next) ∧ WF s' ∧ s'.vars = s.vars ∧ (∀ j, j ≠ s.next → s'.objs j = s.objs j) ∧
      (∀ j, j ≠ s.next → s'.mem j = s.mem j) ∧ s'.objs s.next ≠ none ∧
      (∀ e, s.objs id = some (.array e) → Place s' s.next s.next 0 e ∧ s'.mem s.next = s.mem id) ∧
      ∀ t off x v, s.objs id = some (.view t v) → Place s id t off x → Place s' s.next t 0 x := by
  cases ho' : s.objs id with
  | none => exact absurd ho' ho
  | some o =>
    cases o with
    | array e =>
      obtain ⟨a1, a2, a3⟩ := h.arr id e ho'
      refine ⟨newArray s e (s.mem id), by simp [returnSelf, ho'], ?_, rfl, ?_, ?_, ?_, ?_, ?_⟩
      · exact wf_newArray h a1 a2 (fun j hj => setData_other _ _ hj) (by simp [a3])
      · intro j hj; simp [newArray, alloc, hj]
      · intro j hj; exact setData_other _ _ hj
      · simp [newArray, alloc]
      · intro e' he'
        cases he'
        exact ⟨.inl ⟨by simp [newArray, alloc], rfl, rfl⟩, setData_same _ _ _⟩
      · intro t off x v hv; cases hv
    | view t v =>
      obtain ⟨h1, h2, n, ⟨x, off, x1, x2, x3⟩, n2, n3⟩ := h.view id t v ho'
      refine ⟨alloc s (.view t (copy v)), by simp [returnSelf, ho'], ?_, rfl, ?_, fun _ _ => rfl, by simp [alloc], ?_, ?_⟩
      · exact wf_newView h h1 h2 ⟨n, ⟨x, 0, isView_copy x1, by omega, Nat.dvd_zero _⟩, n2, n3⟩
      · intro j hj; simp [alloc, hj]
      · intro e he; cases he
      · intro t' off' x' v' hv hp
        cases hv
        rcases hp with ⟨a, _, _⟩ | ⟨v', e, a, b, c⟩
        · rw [ho'] at a; cases a
        · rw [ho'] at a
          cases a
          have htn : t ≠ s.next := by omega
          exact .inr ⟨copy v, e, by simp [alloc], by simp [alloc, htn, b], isView_copy c⟩

/-! ## Statements -/

/-- Every entry is the value of its variable. -/
def Keys (s : St α) : Prop := ∀ p ∈ s.vars, lookup s p.1 = some p.2

/-- The invariant of programs. -/
structure Inv (s : St α) : Prop where
  wf : WF s
  named : ∀ id, s.objs id ≠ none → ∃ z, lookup s z = some (.ref id)
  keys : Keys s

theorem mem_of_lookup {s : St α} {z : Nat} {v : Val α} (h : lookup s z = some v) : (z, v) ∈ s.vars := by
  unfold lookup at h
  induction hs : s.vars generalizing s with
  | nil => rw [hs] at h; cases h
  | cons p ps ih =>
    rw [hs, List.lookup_cons] at h
    split at h
    · rename_i hz
      simp only [Option.some.injEq] at h
      obtain ⟨a, b⟩ := p
      simp only [beq_iff_eq] at hz
      simp only at h
      subst h hz
      exact List.mem_cons_self
    · exact List.mem_cons_of_mem _ (ih (s := { s with vars := ps }) h rfl)

theorem lookup_bind_same (s : St α) (x : Nat) (v : Val α) : lookup (bindVar s x v) x = some v := by
  simp [lookup, bindVar]

theorem lookup_filter (vars : List (Nat × Val α)) {x z : Nat} (h : z ≠ x) :
    (vars.filter (fun p => p.1 != x)).lookup z = vars.lookup z := by
  induction vars with
  | nil => rfl
  | cons p ps ih =>
    rw [List.filter_cons]
    split
    · rw [List.lookup_cons, List.lookup_cons, ih]
    · rename_i hp
      simp only [bne_iff_ne, ne_eq, not_not] at hp
      have hz : (z == p.1) = false := by rw [beq_eq_false_iff_ne, hp]; exact h
      rw [List.lookup_cons, hz, ih]

theorem lookup_bind_other (s : St α) {x z : Nat} (v : Val α) (h : z ≠ x) : lookup (bindVar s x v) z = lookup s z := by
  have hz : (z == x) = false := by rw [beq_eq_false_iff_ne]; exact h
  simp only [lookup, bindVar, List.lookup_cons, hz]
  exact lookup_filter _ h

theorem lookup_collect (s : St α) (z : Nat) : lookup (collect s) z = lookup s z := rfl

theorem keys_bind {s : St α} (h : Keys s) (x : Nat) (v : Val α) : Keys (bindVar s x v) := by
  intro p hp
  simp only [bindVar, List.mem_cons, List.mem_filter, bne_iff_ne] at hp
  rcases hp with rfl | ⟨hp, hne⟩
  · exact lookup_bind_same s x v
  · rw [lookup_bind_other s v hne]
    exact h p hp

theorem keys_filter {s : St α} (h : Keys s) (x : Nat) : Keys { s with vars := s.vars.filter (fun p => p.1 != x) } := by
  intro p hp
  simp only [List.mem_filter, bne_iff_ne] at hp
  simp only [lookup]
  rw [lookup_filter _ hp.2]
  exact h p hp.1

theorem inv_collect {s : St α} (h : WF s) (hk : Keys s) : Inv (collect s) := by
  refine ⟨wf_collect h, ?_, hk⟩
  intro id hid
  simp only [collect] at hid
  split at hid
  · rename_i hr
    unfold referenced at hr
    rw [List.any_eq_true] at hr
    obtain ⟨p, hp, hp'⟩ := hr
    refine ⟨p.1, ?_⟩
    rw [lookup_collect, hk p hp]
    split at hp'
    · rename_i j hj
      rw [beq_iff_eq] at hp'
      rw [hj, hp']
    · cases hp'
  · exact absurd rfl hid

theorem opd_held {s : St α} (h : WF s) {y : Opd α} {v : Val α} (hv : opd s y = some v) : ∀ id, v = .ref id → s.objs id ≠ none := by
  intro id hid
  cases y with
  | lit c => cases hv; cases hid
  | var x => exact h.vars _ (mem_of_lookup hv) id hid

theorem lookup_held {s : St α} (h : WF s) {x : Nat} {v : Val α} (hv : lookup s x = some v) : ∀ id, v = .ref id → s.objs id ≠ none :=
  fun id hid => h.vars _ (mem_of_lookup hv) id hid

/-- An outcome that a statement can go on with. -/
def Good : Out (St α × Val α) → Prop
  | .ok (s', v) => WF s' ∧ Keys s' ∧ ∀ id, v = .ref id → s'.objs id ≠ none
  | _ => True

theorem good_getitem {s : St α} (h : WF s) (hk : Keys s) (id : Nat) (i : Int) : Good (getitem s id i) := by
  rcases getitem_cases h id i with ⟨_, h1⟩ | ⟨t, off, x, hp, ⟨d, ds, v, _, _, _, _, _, _, _, h1, h2, _⟩ | ⟨_, _, h1⟩⟩
  · rw [h1]; trivial
  · rw [h1]
    exact ⟨h2, hk, fun j hj => by cases hj; simp [alloc]⟩
  · rw [h1]; trivial

theorem good_binary {fresh : Nat → List α} (hf : ∀ n, (fresh n).length = n) {s : St α} (h : WF s) (hk : Keys s) (f : α → α → α)
    {l r : Val α} (hn : ∀ a b, ¬ (l = .num a ∧ r = .num b)) : Good (binary fresh f s l r) := by
  rcases binary_cases hf h f hn with ⟨_, h1⟩ | ⟨hl, hr, ⟨x, hm⟩ | ⟨_, h1⟩⟩
  · rw [h1]; trivial
  · obtain ⟨m, m1, m2, m3, m4, m5, _⟩ := binary_ok hf h f hl hr hm
    rw [m1]
    exact ⟨wf_newArray h m4 m5 m2 m3, hk, fun j hj => by cases hj; simp [alloc]⟩
  · rw [h1]; trivial

theorem good_augOp {ar : Op → α → α → α} {fresh : Nat → List α} (hf : ∀ n, (fresh n).length = n) {s : St α} (h : WF s) (hk : Keys s)
    {id : Nat} {r : Val α} : Good (update (ar .add) s id r >>= fun s' => returnSelf s' id) := by
  rcases update_cases hf h (ar .add) id r with ⟨_, h1⟩ | ⟨hr, t, off, x, hp, hm | ⟨_, h1⟩⟩
  · rw [h1]; trivial
  · obtain ⟨m, m1, m2⟩ := update_ok hf h (ar .add) hp hr hm
    have hw : WF { s with mem := m } := wf_mem h m2.lengths
    have ho : ({ s with mem := m } : St α).objs id ≠ none := by
      rcases hp with ⟨a, _⟩ | ⟨v, e, a, _⟩ <;> simp [a]
    obtain ⟨s', s1, s2, s3, s4, _, s5, _⟩ := returnSelf_ok hw ho
    rw [m1, Out.ok_bind, s1]
    refine ⟨s2, ?_, fun j hj => by cases hj; exact s5⟩
    intro p hp
    unfold lookup
    rw [s3] at hp ⊢
    exact hk p hp
  · rw [h1]; trivial

/-- The invariant holds after the statement. -/
def InvDone : Done α → Prop
  | .ok s => Inv s
  | .raise _ s => Inv s
  | .ub => True

theorem inv_finishBind {s : St α} (h : Inv s) (x : Nat) {r : Out (St α × Val α)} (hr : Good r) : InvDone (finishBind s x r) := by
  cases r with
  | ok q =>
    obtain ⟨s', v⟩ := q
    exact inv_collect (wf_bind hr.1 hr.2.2) (keys_bind hr.2.1 x v)
  | throw e => exact h
  | ub => trivial

theorem inv_finish {fresh : Nat → List α} (hf : ∀ n, (fresh n).length = n) {s : St α} (h : WF s) (hk : Keys s) (id : Nat) (i : Int)
    (r : Val α) : InvDone (finish s (setitem s id i r)) := by
  rcases setitem_cases hf h id i r with ⟨_, h1⟩ | ⟨t, off, x, hp, ⟨d, ds, m, _, _, _, _, _, h1, h2⟩ | ⟨_, e, h1⟩ | ⟨_, h1⟩⟩
  · rw [h1]; trivial
  · rw [h1]
    exact inv_collect (s := { s with mem := m }) (wf_mem h h2.lengths) hk
  · rw [h1]
    exact inv_collect h hk
  · rw [h1]
    exact inv_collect h hk

/-- Statements that make an array give it as many elements as its extents say, at least one and fewer than 2^32. -/
def Valid : Stmt α → Prop
  | .new _ e data => 0 < count e ∧ count e < 2 ^ 32 ∧ data.length = count e
  | _ => True

/-- The invariant is kept by every statement. -/
theorem inv_step {ar : Op → α → α → α} {fresh : Nat → List α} (hf : ∀ n, (fresh n).length = n) {s : St α} (h : Inv s) {p : Stmt α}
    (hp : Valid p) : InvDone (step ar fresh s p) := by
  cases p with
  | new x e data =>
    refine inv_collect (wf_bind (wf_newArray h.wf hp.1 hp.2.1 (fun j hj => setData_other _ _ hj) (by simp [hp.2.2])) ?_)
      (keys_bind (s := newArray s e data) h.keys x _)
    intro id hid
    cases hid
    simp [alloc]
  | name x y =>
    simp only [step]
    cases hy : lookup s y with
    | none => exact h
    | some v => exact inv_collect (wf_bind h.wf (lookup_held h.wf hy)) (keys_bind h.keys x v)
  | get x y i =>
    simp only [step]
    cases hy : lookup s y with
    | none => exact h
    | some v =>
      cases v with
      | num c => exact h
      | ref id => exact inv_finishBind h x (good_getitem h.wf h.keys id i)
  | set x i y =>
    simp only [step]
    cases hx : lookup s x with
    | none => exact h
    | some v =>
      cases hy : opd s y with
      | none => cases v <;> exact h
      | some w =>
        cases v with
        | num c => exact h
        | ref id => exact inv_finish hf h.wf h.keys id i w
  | bin x op l r =>
    simp only [step]
    cases hl : opd s l with
    | none => exact h
    | some a =>
      cases hr : opd s r with
      | none => exact h
      | some b =>
        simp only
        by_cases hn : ∀ c d, ¬ (a = .num c ∧ b = .num d)
        · rw [binOp_eq _ _ _ hn]
          split
          · exact h
          · exact inv_finishBind h x (good_binary hf h.wf h.keys (ar op) hn)
        · simp only [not_forall, not_not] at hn
          obtain ⟨c, d, rfl, rfl⟩ := hn
          exact inv_collect (wf_bind h.wf (by simp)) (keys_bind h.keys x _)
  | aug x op r =>
    simp only [step]
    cases hx : lookup s x with
    | none => exact h
    | some v =>
      cases hr : opd s r with
      | none => exact h
      | some b =>
        simp only
        cases v with
        | ref id =>
          rw [augOp_eq]
          split
          · exact h
          · exact inv_finishBind h x (good_augOp hf h.wf h.keys)
        | num c =>
          cases b with
          | num d => exact inv_collect (wf_bind h.wf (by simp)) (keys_bind h.keys x _)
          | ref j =>
            simp only [augOp]
            rw [binOp_eq _ _ _ (by simp)]
            split
            · exact h
            · exact inv_finishBind h x (good_binary hf h.wf h.keys (ar op) (by simp))
  | augItem x i op r =>
    simp only [step]
    cases hx : lookup s x with
    | none => exact h
    | some v =>
      cases hr : opd s r with
      | none => cases v <;> exact h
      | some b =>
        cases v with
        | num c => exact h
        | ref id =>
          simp only [augItem]
          have hg := good_getitem h.wf h.keys id i
          cases hgi : getitem s id i with
          | throw e => exact h
          | ub => trivial
          | ok q =>
            obtain ⟨s', t⟩ := q
            rw [hgi] at hg
            obtain ⟨g1, g2, g3⟩ := hg
            have ht : ∃ j, t = .ref j := by
              rcases getitem_cases h.wf id i with ⟨_, h1⟩ | ⟨_, _, _, _, ⟨_, _, _, _, _, _, _, _, _, _, h1, _⟩ | ⟨_, _, h1⟩⟩
              · rw [h1] at hgi; cases hgi
              · rw [h1] at hgi; cases hgi; exact ⟨_, rfl⟩
              · rw [h1] at hgi; cases hgi
            obtain ⟨j, rfl⟩ := ht
            simp only
            rw [augOp_eq]
            split
            · exact inv_collect g1 g2
            · have hg2 := good_augOp (ar := ar) hf g1 g2 (id := j) (r := b)
              cases hu : (update (ar .add) s' j b >>= fun s' => returnSelf s' j) with
              | throw e => exact inv_collect g1 g2
              | ub => trivial
              | ok q =>
                obtain ⟨s'', t⟩ := q
                rw [hu] at hg2
                exact inv_finish hf hg2.1 hg2.2.1 id i t
  | del x => exact inv_collect (wf_filter h.wf _) (keys_filter h.keys x)

end Verif.PyM
