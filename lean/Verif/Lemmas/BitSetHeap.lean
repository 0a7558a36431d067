import Verif.Spec.BitSetHeap

/-! Lemmas about heap-allocated bit sets: while no pointer is copied, every variable has an array of its own. -/

namespace Verif.BitSetM.Heap

/-- Every variable points to a live array of its own that holds its value. -/
structure R {n : Nat} (s : St) (v : Vals n) : Prop where
  some : ∀ x b, v x = some b → ∃ p, s.objs x = some p ∧ s.blocks[p]? = some (some b.words)
  none : ∀ x, v x = .none → s.objs x = .none
  inj : ∀ x y p, s.objs x = .some p → s.objs y = .some p → x = y

/-- Both undefined, both the same exception, or related results. -/
def Both {α β : Type} (Q : α → β → Prop) : Out α → Out β → Prop
  | .ok a, .ok b => Q a b
  | .throw e, .throw e' => e = e'
  | .ub, .ub => True
  | _, _ => False

theorem Both.bind {α β γ δ : Type} {Q : α → β → Prop} {P : γ → δ → Prop} {a : Out α} {b : Out β} {f : α → Out γ} {g : β → Out δ}
    (h : Both Q a b) (hf : ∀ x y, Q x y → Both P (f x) (g y)) : Both P (a >>= f) (b >>= g) := by
  cases a <;> cases b <;> simp_all [Both]

theorem R.bound {n : Nat} {s : St} {v : Vals n} (h : R s v) {x p : Nat} (hp : s.objs x = .some p) : p < s.blocks.length := by
  cases hv : v x with
  | none => rw [h.none x hv] at hp; cases hp
  | some b =>
    obtain ⟨q, hq, hb⟩ := h.some x b hv
    rw [hq] at hp; cases hp
    rw [List.getElem?_eq_some_iff] at hb
    exact hb.1

theorem R.load {n : Nat} {s : St} {v : Vals n} (h : R s v) (x : Nat) :
    Both (fun ws b => ws = b.words) (load s x) (v.at x) := by
  cases hv : v x with
  | none => simp [Heap.load, Vals.at, h.none x hv, hv, Both]
  | some b =>
    obtain ⟨p, hp, hb⟩ := h.some x b hv
    simp [Heap.load, Vals.at, hp, hb, hv, Both]

theorem R.make {n : Nat} {s : St} {v : Vals n} (h : R s v) (x : Nat) (b : BS n) (hx : v x = .none) :
    R (point (alloc s b.words) x s.blocks.length) (Function.update v x (.some b)) := by
  constructor
  · intro y c hc
    by_cases e : y = x
    · subst e
      simp only [Function.update_self, Option.some.injEq] at hc
      subst hc
      exact ⟨s.blocks.length, by simp [point], by simp [point, alloc]⟩
    · rw [Function.update_of_ne e] at hc
      obtain ⟨p, hp, hb⟩ := h.some y c hc
      refine ⟨p, by simp [point, alloc, e, hp], ?_⟩
      simp only [point, alloc]
      rw [List.getElem?_append_left (h.bound hp)]
      exact hb
  · intro y hy
    by_cases e : y = x
    · subst e; simp at hy
    · rw [Function.update_of_ne e] at hy
      simp [point, alloc, e, h.none y hy]
  · intro y z p hy hz
    simp only [point, alloc] at hy hz
    by_cases e : y = x <;> by_cases e' : z = x
    · rw [e, e']
    · rw [if_pos e] at hy; rw [if_neg e'] at hz
      have := h.bound hz
      simp only [Option.some.injEq] at hy
      omega
    · rw [if_neg e] at hy; rw [if_pos e'] at hz
      have := h.bound hy
      simp only [Option.some.injEq] at hz
      omega
    · rw [if_neg e] at hy; rw [if_neg e'] at hz
      exact h.inj y z p hy hz

theorem R.create {n : Nat} {s : St} {v : Vals n} (h : R s v) (x : Nat) (b : BS n) :
    Both R (create s x b.words) (v.make x b) := by
  cases hv : v x with
  | none =>
    simp only [Heap.create, Vals.make, h.none x hv, hv, Both]
    exact h.make x b hv
  | some c =>
    obtain ⟨p, hp, _⟩ := h.some x c hv
    simp [Heap.create, Vals.make, hp, hv, Both]

theorem R.ret {n : Nat} {s : St} {v : Vals n} (h : R s v) (x : Nat) (b : BS n) :
    Both R (ret true s x b.words) (v.make x b) := h.create x b

theorem R.store {n : Nat} {s : St} {v : Vals n} (h : R s v) (x : Nat) (b : BS n) :
    Both R (store s x b.words) (v.put x b) := by
  cases hv : v x with
  | none => simp [Heap.store, Vals.put, h.none x hv, hv, Both]
  | some c =>
    obtain ⟨p, hp, hb⟩ := h.some x c hv
    have hl := h.bound hp
    simp only [Heap.store, Vals.put, hp, hb, hv, Both]
    constructor
    · intro y d hd
      by_cases e : y = x
      · subst e
        simp only [Function.update_self, Option.some.injEq] at hd
        subst hd
        exact ⟨p, hp, by simp [hl]⟩
      · rw [Function.update_of_ne e] at hd
        obtain ⟨q, hq, hd'⟩ := h.some y d hd
        have hne : p ≠ q := by
          rintro rfl
          exact e (h.inj y x p hq hp)
        exact ⟨q, hq, by simp only; rw [List.getElem?_set_ne hne]; exact hd'⟩
    · intro y hy
      by_cases e : y = x
      · subst e; simp at hy
      · rw [Function.update_of_ne e] at hy
        exact h.none y hy
    · exact h.inj

theorem R.dtor {n : Nat} {s : St} {v : Vals n} (h : R s v) (x : Nat) :
    Both R (dtor s x) (do let _ ← v.at x; return Function.update v x .none) := by
  cases hv : v x with
  | none => simp [Heap.dtor, Vals.at, h.none x hv, hv, Both]
  | some c =>
    obtain ⟨p, hp, hb⟩ := h.some x c hv
    simp only [Heap.dtor, Vals.at, free, hp, hb, hv, Both, Out.ok_bind, Out.pure_eq]
    constructor
    · intro y d hd
      by_cases e : y = x
      · subst e; simp at hd
      · rw [Function.update_of_ne e] at hd
        obtain ⟨q, hq, hd'⟩ := h.some y d hd
        have hne : p ≠ q := by
          rintro rfl
          exact e (h.inj y x p hq hp)
        exact ⟨q, by simp [drop, e, hq], by simp only [drop]; rw [List.getElem?_set_ne hne]; exact hd'⟩
    · intro y hy
      by_cases e : y = x
      · simp [drop, e]
      · rw [Function.update_of_ne e] at hy
        simp [drop, e, h.none y hy]
    · intro y z q hy hz
      simp only [drop] at hy hz
      by_cases e : y = x
      · rw [if_pos e] at hy; cases hy
      · by_cases e' : z = x
        · rw [if_pos e'] at hz; cases hz
        · rw [if_neg e] at hy; rw [if_neg e'] at hz
          exact h.inj y z q hy hz

theorem R.assign {n : Nat} {s : St} {v : Vals n} (h : R s v) (x : Nat) :
    Both R (assignPtr s x x) (do v.put x (← v.at x)) := by
  cases hv : v x with
  | none => simp [Heap.assignPtr, Vals.at, h.none x hv, hv, Both]
  | some c =>
    obtain ⟨p, hp, hb⟩ := h.some x c hv
    have e1 : point s x p = s := by
      cases s with
      | mk bl ob =>
        simp only [point, St.mk.injEq, true_and]
        funext y
        by_cases e : y = x
        · subst e; simpa using hp.symm
        · simp [e]
    have e2 : Function.update v x (.some c) = v := by rw [← hv]; exact Function.update_eq_self x v
    simp only [Heap.assignPtr, Vals.at, Vals.put, hp, hv, Both, Out.ok_bind, e1, e2]
    exact h

theorem Both.refl {α : Type} (a : Out α) : Both (fun x y => x = y) a a := by cases a <;> simp [Both]

theorem R.string {n : Nat} {s : St} {v : Vals n} (h : R s v) (asserts : Bool) (x : Nat) (t : List Char) (z o : Char) :
    Both (fun a b => a.1 = b.1 ∧ R a.2 b.2) (stringCtor asserts n s x t z o) (v.ofString asserts x t z o) := by
  cases hv : v x with
  | some c =>
    obtain ⟨p, hp, _⟩ := h.some x c hv
    simp [stringCtor, Vals.ofString, hp, hv, Both]
  | none =>
    simp only [stringCtor, Vals.ofString, h.none x hv, hv]
    cases hs : BitSetM.ofString asserts n t z o with
    | ok b => exact ⟨rfl, h.make x b hv⟩
    | ub => trivial
    | throw e =>
      refine ⟨rfl, ?_, h.none, h.inj⟩
      intro y c hc
      obtain ⟨p, hp, hb⟩ := h.some y c hc
      refine ⟨p, hp, ?_⟩
      simp only [alloc]
      rw [List.getElem?_append_left (h.bound hp)]
      exact hb

theorem R.step {n : Nat} {s : St} {v : Vals n} (h : R s v) (c : Cmd) (hc : c.Plain) :
    Both R (step true n s c) (vstep v c) := by
  cases c with
  | ctor x => exact h.create x _
  | ofValue x w => exact (Both.refl _).bind (by rintro a _ rfl; exact h.create x a)
  | ofString x t z o => trivial
  | copy x y => exact (h.load y).bind (by rintro _ b rfl; exact h.create x b)
  | move x y => exact hc.elim
  | assign x y => obtain rfl : x = y := hc; exact h.assign x
  | assignMove x y => obtain rfl : x = y := hc; exact h.assign x
  | upd x u =>
    refine (h.load x).bind ?_
    rintro _ b rfl
    exact (Both.refl _).bind (by rintro a _ rfl; exact h.store x a)
  | opAssign x o y =>
    refine (h.load x).bind ?_
    rintro _ b rfl
    refine (h.load y).bind ?_
    rintro _ d rfl
    exact (Both.refl _).bind (by rintro a _ rfl; exact h.store x a)
  | binary x y o z =>
    refine (h.load y).bind ?_
    rintro _ b rfl
    refine (h.load z).bind ?_
    rintro _ d rfl
    exact (Both.refl _).bind (by rintro a _ rfl; exact h.ret x a)
  | shifted x y left k =>
    refine (h.load y).bind ?_
    rintro _ b rfl
    exact (Both.refl _).bind (by rintro a _ rfl; exact h.ret x a)
  | compl x y =>
    refine (h.load y).bind ?_
    rintro _ b rfl
    exact (Both.refl _).bind (by rintro a _ rfl; exact h.ret x a)
  | dtor x => exact h.dtor x

theorem R.exec {n : Nat} {s : St} {v : Vals n} (h : R s v) (asserts : Bool) (c : Cmd) (hc : c.Plain) :
    Both (fun a b => a.1 = b.1 ∧ R a.2 b.2) (exec asserts true n s c) (vexec asserts v c) := by
  have key : Both (fun a b => a.1 = b.1 ∧ R a.2 b.2) (do return (false, ← Heap.step true n s c) : Out (Bool × St))
      (do return (false, ← vstep v c) : Out (Bool × Vals n)) :=
    (h.step c hc).bind (fun a b hab => ⟨rfl, hab⟩)
  cases c with
  | ofString x t z o => exact h.string asserts x t z o
  | _ => exact key

theorem R.run {n : Nat} (asserts : Bool) (cs : List Cmd) (hc : ∀ c ∈ cs, c.Plain) {s : St} {v : Vals n} (h : R s v) :
    Both (fun a b => a.1 = b.1 ∧ R a.2 b.2) (run asserts true n cs s) (vrun asserts cs v) := by
  induction cs generalizing s v with
  | nil => exact ⟨rfl, h⟩
  | cons c cs ih =>
    refine (h.exec asserts c (hc c (by simp))).bind ?_
    rintro ⟨f, s'⟩ ⟨g, v'⟩ ⟨rfl, hr⟩
    refine (ih (fun d hd => hc d (by simp [hd])) hr).bind ?_
    rintro ⟨f', s''⟩ ⟨g', v''⟩ ⟨rfl, hr'⟩
    exact ⟨rfl, hr'⟩

theorem R.init {n : Nat} : R init (fun _ => .none : Vals n) :=
  ⟨fun _ _ h => by simp at h, fun _ _ => rfl, fun _ _ _ h => by simp [Heap.init] at h⟩

/-! ### Nothing is left behind -/

/-- Every live array belongs to a variable. -/
def Owned (s : St) : Prop := ∀ (p : Nat) (ws : List W), s.blocks[p]? = some (some ws) → ∃ x, s.objs x = some p

theorem Owned.make {s : St} (h : Owned s) {x : Nat} (hx : s.objs x = .none) (ws : List W) :
    Owned (point (alloc s ws) x s.blocks.length) := by
  intro p vs hp
  simp only [point, alloc] at hp ⊢
  by_cases hl : p < s.blocks.length
  · rw [List.getElem?_append_left hl] at hp
    obtain ⟨y, hy⟩ := h p vs hp
    refine ⟨y, ?_⟩
    rw [if_neg]
    · exact hy
    · rintro rfl; rw [hx] at hy; cases hy
  · have : p = s.blocks.length := by
      have := (List.getElem?_eq_some_iff.1 hp).1
      simp at this; omega
    exact ⟨x, by simp [this]⟩

theorem Owned.create {s s' : St} (h : Owned s) {x : Nat} {ws : List W} (e : create s x ws = .ok s') : Owned s' := by
  unfold Heap.create at e
  cases hx : s.objs x with
  | some p => rw [hx] at e; cases e
  | none => rw [hx] at e; cases e; exact h.make hx ws

theorem Owned.store {s s' : St} (h : Owned s) {x : Nat} {ws : List W} (e : store s x ws = .ok s') : Owned s' := by
  unfold Heap.store at e
  split at e
  · next p hp =>
    split at e
    · next vs hb =>
      cases e
      intro q us hq
      simp only at hq ⊢
      by_cases c : p = q
      · exact ⟨x, by rw [← c]; exact hp⟩
      · rw [List.getElem?_set_ne c] at hq
        exact h q us hq
    · cases e
  · cases e

theorem Owned.dtor {s s' : St} (h : Owned s) {x : Nat} (e : dtor s x = .ok s') : Owned s' := by
  unfold Heap.dtor at e
  split at e
  · next p hp =>
    rw [Out.bind_eq_ok] at e
    obtain ⟨t, ht, e⟩ := e
    unfold free at ht
    split at ht
    · next vs hb =>
      cases ht; cases e
      intro q us hq
      simp only [drop] at hq ⊢
      by_cases c : p = q
      · subst c
        have hl := (List.getElem?_eq_some_iff.1 hb).1
        rw [List.getElem?_set_self hl] at hq
        cases hq
      · rw [List.getElem?_set_ne c] at hq
        obtain ⟨y, hy⟩ := h q us hq
        refine ⟨y, ?_⟩
        rw [if_neg]
        · exact hy
        · rintro rfl
          rw [hp] at hy; exact c (Option.some.inj hy)
    · cases ht
  · cases e

theorem Owned.assign {s s' : St} (h : Owned s) {x : Nat} (e : assignPtr s x x = .ok s') : Owned s' := by
  unfold assignPtr at e
  cases hx : s.objs x with
  | none => simp [hx] at e
  | some p =>
    simp only [hx] at e
    cases e
    intro q us hq
    obtain ⟨y, hy⟩ := h q us hq
    refine ⟨y, ?_⟩
    simp only [point]
    by_cases c : y = x
    · subst c; rw [if_pos rfl, ← hx, hy]
    · rw [if_neg c]; exact hy

theorem Owned.step {n : Nat} {s s' : St} (h : Owned s) {c : Cmd} (hc : c.Plain) (e : step true n s c = .ok s') : Owned s' := by
  cases c with
  | ctor x => exact h.create e
  | ofValue x w => obtain ⟨a, _, e⟩ := Out.bind_eq_ok.1 e; exact h.create e
  | ofString x t z o => cases e
  | copy x y => obtain ⟨a, _, e⟩ := Out.bind_eq_ok.1 e; exact h.create e
  | move x y => exact hc.elim
  | assign x y => obtain rfl : x = y := hc; exact h.assign e
  | assignMove x y => obtain rfl : x = y := hc; exact h.assign e
  | upd x u =>
    obtain ⟨a, _, e⟩ := Out.bind_eq_ok.1 e
    obtain ⟨b, _, e⟩ := Out.bind_eq_ok.1 e
    exact h.store e
  | opAssign x o y =>
    obtain ⟨a, _, e⟩ := Out.bind_eq_ok.1 e
    obtain ⟨b, _, e⟩ := Out.bind_eq_ok.1 e
    obtain ⟨d, _, e⟩ := Out.bind_eq_ok.1 e
    exact h.store e
  | binary x y o z =>
    obtain ⟨a, _, e⟩ := Out.bind_eq_ok.1 e
    obtain ⟨b, _, e⟩ := Out.bind_eq_ok.1 e
    obtain ⟨d, _, e⟩ := Out.bind_eq_ok.1 e
    exact Owned.create (x := x) (ws := d.words) h e
  | shifted x y left k =>
    obtain ⟨a, _, e⟩ := Out.bind_eq_ok.1 e
    obtain ⟨d, _, e⟩ := Out.bind_eq_ok.1 e
    exact Owned.create (x := x) (ws := d.words) h e
  | compl x y =>
    obtain ⟨a, _, e⟩ := Out.bind_eq_ok.1 e
    obtain ⟨d, _, e⟩ := Out.bind_eq_ok.1 e
    exact Owned.create (x := x) (ws := d.words) h e
  | dtor x => exact h.dtor e

theorem Owned.exec {asserts : Bool} {n : Nat} {s : St} {r : Bool × St} (h : Owned s) {c : Cmd} (hc : c.Plain)
    (e : exec asserts true n s c = .ok r) (hr : r.1 = false) : Owned r.2 := by
  have key : (do return (false, ← Heap.step true n s c) : Out (Bool × St)) = .ok r → Owned r.2 := by
    intro e
    obtain ⟨a, ha, e⟩ := Out.bind_eq_ok.1 e
    cases e
    exact h.step hc ha
  cases c with
  | ofString x t z o =>
    simp only [Heap.exec, stringCtor] at e
    cases hx : s.objs x with
    | some p => rw [hx] at e; cases e
    | none =>
      rw [hx] at e
      cases hs : BitSetM.ofString asserts n t z o with
      | ok b => rw [hs] at e; cases e; exact h.make hx _
      | ub => rw [hs] at e; cases e
      | throw _ => rw [hs] at e; cases e; cases hr
  | _ => exact key e

theorem Owned.run {asserts : Bool} {n : Nat} (cs : List Cmd) (hc : ∀ c ∈ cs, c.Plain) {s : St} (h : Owned s) {r : List Bool × St}
    (e : run asserts true n cs s = .ok r) (hr : ∀ b ∈ r.1, b = false) : Owned r.2 := by
  induction cs generalizing s r with
  | nil => cases e; exact h
  | cons c cs ih =>
    obtain ⟨a, ha, e⟩ := Out.bind_eq_ok.1 e
    obtain ⟨q, hq, e⟩ := Out.bind_eq_ok.1 e
    cases e
    exact ih (r := q) (fun d hd => hc d (by simp [hd])) (h.exec (hc c (by simp)) ha (hr a.1 (by simp))) hq
      (fun b hb => hr b (by simp [hb]))

/-! ### Shared arrays -/

/-- Of two variables with one array, the second cannot be destroyed after the first. -/
theorem shared_double_free {s : St} {x y p : Nat} (hxy : x ≠ y) (hx : s.objs x = some p) (hy : s.objs y = some p) :
    (do let t ← dtor s x; dtor t y) = .ub := by
  by_cases hb : ∃ ws, s.blocks[p]? = some (some ws)
  · obtain ⟨ws, hb⟩ := hb
    have hl := (List.getElem?_eq_some_iff.1 hb).1
    have e : dtor s x = .ok (drop { s with blocks := s.blocks.set p .none } x) := by
      simp [Heap.dtor, hx, free, hb]
    rw [e]
    have e2 : (drop { s with blocks := s.blocks.set p .none } x).objs y = some p := by simp [drop, Ne.symm hxy, hy]
    have e3 : (drop { s with blocks := s.blocks.set p .none } x).blocks[p]? = some .none := by simp [drop, hl]
    simp [Heap.dtor, e2, free, e3]
  · have e : dtor s x = .ub := by
      simp only [Heap.dtor, hx, free]
      split
      · next ws h => exact absurd ⟨ws, h⟩ hb
      · rfl
    rw [e]; rfl

/-- After an array is deleted, a variable that still points to it can be neither read nor destroyed. -/
theorem dangling {s : St} {x p : Nat} (hx : s.objs x = some p) (hb : s.blocks[p]? = some .none) :
    load s x = .ub ∧ dtor s x = .ub := by
  simp [Heap.load, Heap.dtor, hx, free, hb]

theorem Owned.init : Owned init := by intro p ws h; simp [Heap.init] at h

end Verif.BitSetM.Heap
