import Verif.Lemmas.Expr
import Verif.Props.Shape

/-! Property theorems for lazy expressions and their evaluation (C21 - C23). `valueAt`, `operandShapes`, `Operands` and
`Assigned` are in `Spec/Expr.lean`. The assignment relation `Assign` gives every outcome the assignment can have; each theorem
says that there is one and that all of them are the right one. -/

namespace Verif.ExprM

open ShapeM Conc Grid

variable {α : Type}

theorem mix_assigned {m m' : Mem α} {d n : Nat} {e : Expr α} {vals : List α} (h1 : vals.length = n)
    (hd : (m' d).length = n) (hv : ∀ i, i < n → vals[i]? = valueAt m' i e) (hval : ∀ i, valueAt m' i e = valueAt m i e)
    (hoth : ∀ id, id ≠ d → m' id = m id) : Assigned m d n e (mix m' d vals n) := by
  refine ⟨by simp [mix]; omega, ?_, ?_⟩
  · intro i hi
    have h2 := hv i hi
    rw [hval] at h2
    have h3 : vals[i]? = some (vals[i]'(by omega)) := List.getElem?_eq_getElem _
    refine ⟨vals[i]'(by omega), by rw [← h2, h3], ?_⟩
    have := mix_get? (m := m') h1 hd (Nat.le_refl n) (d, i)
    simp only [Mem.get?, if_pos, hi] at this
    rw [this, h3]
  · intro id hid
    simp only [mix, if_neg hid]
    exact hoth id hid

/-- Every outcome of the assignment is the right one, and there is one. -/
theorem assign_right {cfg : Cfg} {shapes : Nat → AnyShape} {junk : List α} {d : Nat} {e : Expr α} {m : Mem α} {s : AnyShape}
    (hw : 0 < cfg.width) (hb : build cfg.asserts shapes e = .ok (some s)) (hs : ext (shapes d) = ext s)
    (hj : junk.length = size s) (hfix : cfg.fixed = true → (m d).length = size s)
    (hne : cfg.asserts = true → cfg.fixed = false → size s ≠ 0)
    (hbug : usesThreads cfg (size s) = true → cfg.fixed = true → cfg.vec e = true)
    (h : Operands m d (size s) e) :
    (∃ o, Assign cfg shapes junk d e m o) ∧
      ∀ o, Assign cfg shapes junk d e m o → ∃ m', o = .ok m' ∧ Assigned m d (size s) e m' := by
  obtain ⟨m', hr, hl, hoth, ho, hval⟩ := resizeDiscard_ok hj hfix hne h
  obtain ⟨vals, hv1, hv2⟩ := exists_vals ho
  have hsz : assignSize cfg s m' d = size s := by unfold assignSize; split <;> simp [hl]
  have hsh : shapeEq (ext (shapes d)) (ext s) = true := shapeEq_iff.2 hs
  have hwp := packetWidth_pos hw e
  have hres := mix_assigned hv1 hl hv2 hval hoth
  constructor
  · by_cases hu : usesThreads cfg (m' d).length = true
    · rw [hl] at hu
      obtain ⟨mid, hp, ht⟩ := parLoops_ok hw (hbug hu) hv1 hl ho hv2
      have hsched : IsSchedule [parIterations cfg e (size s)] (parIterations cfg e (size s)) := by
        simp [IsSchedule]
      obtain ⟨c, hc, hf⟩ := hp.finishes _ hsched
      refine ⟨_, Assign.loops hb hr (Loops.par (fun _ => hsh) hwp (by rw [hl]; exact hu) (by rw [hsz]; exact hsched) hc hf rfl)⟩
    · exact ⟨_, Assign.loops hb hr (Loops.seq (fun _ => hsh) hwp (by simpa using hu) rfl)⟩
  · intro o hassign
    cases hassign with
    | buildThrows hx => rw [hb] at hx; cases hx
    | resizeThrows hb' hx =>
      rw [hb] at hb'
      injection hb' with hb'; injection hb' with hb'; subst hb'
      rw [hr] at hx; cases hx
    | loops hb' hr' hl' =>
      rw [hb] at hb'
      injection hb' with hb'; injection hb' with hb'; subst hb'
      rw [hr] at hr'
      injection hr' with hr'; subst hr'
      cases hl' with
      | mismatch _ hx => rw [hsh] at hx; cases hx
      | zeroWidth hx => omega
      | seq _ _ _ hx =>
        rw [hsz, seqLoops_run hw hv1 hl ho hv2] at hx
        subst hx
        exact ⟨_, rfl, hres⟩
      | par _ _ hu hsched hc hf hx =>
        rw [hl] at hu
        obtain ⟨mid, hp, ht⟩ := parLoops_ok hw (hbug hu) hv1 hl ho hv2
        rw [hsz] at hsched hx
        rw [hp.result _ hsched _ hc hf, ht] at hx
        subst hx
        exact ⟨_, rfl, hres⟩
      | parBad _ _ hu hsched hc hbad =>
        rw [hl] at hu
        obtain ⟨mid, hp, ht⟩ := parLoops_ok hw (hbug hu) hv1 hl ho hv2
        rw [hsz] at hsched
        rcases hbad with hx | hx
        · exact absurd hx (hp.noBad _ hsched _ hc)
        · exact absurd hx (hp.noRace _ hsched _ hc)

/-! ### C21 -/

/-- The full property C21: an assignment on one thread, of any size, with any packet width, stores the value of the expression
at every index and changes nothing else. -/
def C21Claim : Prop :=
  ∀ (α : Type) (cfg : Cfg) (shapes : Nat → AnyShape) (junk : List α) (d : Nat) (e : Expr α) (m : Mem α) (s : AnyShape),
    0 < cfg.width → build cfg.asserts shapes e = .ok (some s) → ext (shapes d) = ext s → junk.length = size s →
    (m d).length = size s → usesThreads cfg (size s) = false → Operands m d (size s) e →
      ∀ o, Assign cfg shapes junk d e m o → ∃ m', o = .ok m' ∧ Assigned m d (size s) e m'

/-- **C21** is false of the code: with assertions on, assigning an expression without elements throws ("Cannot resize to a
size of 0"). -/
theorem C21_empty_false : ¬ C21Claim := by
  intro h
  obtain ⟨m', h1, _⟩ := h Nat ⟨true, false, true, 4, 5000, 8, false⟩ (fun _ => .shape [0]) [] 0 (.bin (· + ·) (.arr 1) (.arr 2))
    (fun _ => []) (.shape [0]) (by decide) (by decide) rfl rfl rfl (by decide) ⟨rfl, rfl⟩ (.throw .assertion)
    (Assign.resizeThrows (s := .shape [0]) (by decide) rfl)
  cases h1

/-- **C21** for expressions with at least one element, or with assertions off, or into fixed-size arrays: every size, every
packet width, every expression (operands may include the destination). -/
theorem C21_partial {cfg : Cfg} {shapes : Nat → AnyShape} {junk : List α} {d : Nat} {e : Expr α} {m : Mem α} {s : AnyShape}
    (hw : 0 < cfg.width) (hb : build cfg.asserts shapes e = .ok (some s)) (hs : ext (shapes d) = ext s)
    (hj : junk.length = size s) (hd : (m d).length = size s)
    (hne : cfg.asserts = true → cfg.fixed = false → size s ≠ 0)
    (hu : usesThreads cfg (size s) = false) (h : Operands m d (size s) e) :
    (∃ o, Assign cfg shapes junk d e m o) ∧
      ∀ o, Assign cfg shapes junk d e m o → ∃ m', o = .ok m' ∧ Assigned m d (size s) e m' :=
  assign_right hw hb hs hj (fun _ => hd) hne (fun h1 _ => by rw [hu] at h1; cases h1) h

/-- A concrete case: `a = a + 10 * b` with seven elements and packets of four. -/
example : ∃ m', Assign (α := Nat) ⟨true, false, true, 4, 5000, 8, false⟩ (fun _ => .shape [7]) (List.replicate 7 0) 0
      (.bin (· + ·) (.arr 0) (.bin (· * ·) (.scalar 10) (.arr 1)))
      (fun id => if id = 0 then [1, 2, 3, 4, 5, 6, 7] else [7, 6, 5, 4, 3, 2, 1]) (.ok m') ∧ (m' 0)[5]? = some 26 := by
  obtain ⟨⟨o, ho⟩, h⟩ := C21_partial (α := Nat) (cfg := ⟨true, false, true, 4, 5000, 8, false⟩) (shapes := fun _ => .shape [7])
    (junk := List.replicate 7 0) (d := 0) (e := .bin (· + ·) (.arr 0) (.bin (· * ·) (.scalar 10) (.arr 1)))
    (m := fun id => if id = 0 then [1, 2, 3, 4, 5, 6, 7] else [7, 6, 5, 4, 3, 2, 1]) (s := .shape [7])
    (by decide) (by decide) rfl rfl rfl (by decide) (by decide) ⟨rfl, trivial, rfl⟩
  obtain ⟨m', rfl, _, h2, _⟩ := h o ho
  obtain ⟨x, h3, h4⟩ := h2 5 (by decide)
  refine ⟨m', ho, ?_⟩
  rw [h4, ← h3]
  rfl

/-! ### C22 -/

/-- The full property C22: with several threads, under every schedule and interleaving, the assignment gives the result of the
single-threaded assignment. -/
def C22Claim : Prop :=
  ∀ (α : Type) (cfg : Cfg) (shapes : Nat → AnyShape) (junk : List α) (d : Nat) (e : Expr α) (m : Mem α) (s : AnyShape),
    0 < cfg.width → build cfg.asserts shapes e = .ok (some s) → ext (shapes d) = ext s → junk.length = size s →
    (m d).length = size s → usesThreads cfg (size s) = true → Operands m d (size s) e →
      ∀ o o', Assign cfg shapes junk d e m o → Assign { cfg with numThreads := 1 } shapes junk d e m o' → o = o'

theorem indices_empty {n step : Nat} : indices n n step = [] := by
  rw [indices, if_neg (by omega)]

/-- The multi-threaded, non-vectorised assignment to a fixed-size array assigns nothing, under every schedule. -/
theorem C22_fixed_nothing {cfg : Cfg} {shapes : Nat → AnyShape} {junk : List α} {d : Nat} {e : Expr α} {m : Mem α}
    {s : AnyShape} (hfix : cfg.fixed = true) (hvec : cfg.vec e = false) (hb : build cfg.asserts shapes e = .ok (some s))
    (hs : ext (shapes d) = ext s) (hd : (m d).length = size s) (hu : usesThreads cfg (size s) = true) :
    ∀ o, Assign cfg shapes junk d e m o → o = .ok m := by
  have hits : parIterations cfg e (assignSize cfg s m d) = [] := by
    unfold parIterations vectorSize Cfg.packetWidth
    simp only [hvec, hfix, Bool.false_eq_true, if_false, if_true, Nat.mod_one, Nat.sub_zero]
    exact indices_empty
  have hr : resizeDiscard cfg junk d (size s) m = .ok m := by
    unfold resizeDiscard
    simp [hfix, hd]
  have hempty : ∀ sched : List (List Nat), IsSchedule sched [] → ∀ c : Config α, Reach (start (parBody cfg d e) sched m) c →
      c = start (parBody cfg d e) sched m ∧ Final c := by
    intro sched hsched c hc
    have hnil : ∀ L ∈ sched, L = [] := by
      intro L hL
      have h1 : sched.flatten = [] := List.perm_nil.1 hsched
      exact List.flatten_eq_nil_iff.1 h1 L hL
    have hfin : ∀ p ∈ (start (parBody cfg d e) sched m).threads, p = .ret () := by
      intro p hp
      simp only [start, List.mem_map] at hp
      obtain ⟨L, hL, rfl⟩ := hp
      rw [hnil L hL]; rfl
    have : c = start (parBody cfg d e) sched m := by
      induction hc with
      | refl => rfl
      | step _ hst ih =>
        subst ih
        exfalso
        generalize hcc : start (parBody cfg d e) sched m = cc at *
        cases hst with
        | read ht _ =>
          have := hfin _ (List.mem_of_getElem? ht)
          cases this
        | write ht _ =>
          have := hfin _ (List.mem_of_getElem? ht)
          cases this
    exact ⟨this, by rw [this]; exact hfin⟩
  intro o ho
  cases ho with
  | buildThrows hx => rw [hb] at hx; cases hx
  | resizeThrows hb' hx =>
    rw [hb] at hb'
    injection hb' with hb'; injection hb' with hb'; subst hb'
    rw [hr] at hx; cases hx
  | loops hb' hr' hl' =>
    rw [hb] at hb'
    injection hb' with hb'; injection hb' with hb'; subst hb'
    rw [hr] at hr'
    injection hr' with hr'; subst hr'
    cases hl' with
    | mismatch _ hx => rw [shapeEq_iff.2 hs] at hx; cases hx
    | zeroWidth hx => simp [Cfg.packetWidth, hvec] at hx
    | seq _ _ hx _ => rw [hd, hu] at hx; cases hx
    | par _ _ _ hsched hc hf hx =>
      rw [hits] at hsched
      obtain ⟨rfl, _⟩ := hempty _ hsched _ hc
      simp only [parTail, hvec, Bool.false_eq_true, if_false, run, start] at hx
      subst hx
      rfl
    | parBad _ _ _ hsched hc hbad =>
      rw [hits] at hsched
      obtain ⟨rfl, hf⟩ := hempty _ hsched _ hc
      exfalso
      rcases hbad with ⟨t, p, hp, hx⟩ | ⟨t, u, p, q, a, w, w', _, hp, _, hx, _⟩
      · have := hf p (List.mem_of_getElem? hp)
        subst this
        rcases hx with hx | ⟨a, w, hx, _⟩
        · cases hx
        · cases hx
      · have := hf p (List.mem_of_getElem? hp)
        subst this
        cases hx

/-- **C22** is false of the code for fixed-size arrays: a fixed array of 5001 elements keeps its old contents. -/
theorem C22_false : ¬ C22Claim := by
  intro h
  let cfg : Cfg := ⟨true, true, false, 4, 5000, 8, false⟩
  let m : Mem Nat := fun id => if id = 0 then List.replicate 5001 0 else List.replicate 5001 1
  have hb : build cfg.asserts (fun _ => .shape [5001]) (.un (· + 1) (.arr 1) : Expr Nat) = .ok (some (.shape [5001])) := rfl
  have hop : Operands m 0 (size (.shape [5001])) (.un (· + 1) (.arr 1) : Expr Nat) := by
    exact List.length_replicate
  have hlen : (m 0).length = size (.shape [5001]) := by
    exact List.length_replicate
  obtain ⟨⟨o', ho'⟩, h2⟩ := C21_partial (cfg := { cfg with numThreads := 1 }) (shapes := fun _ => .shape [5001])
    (junk := List.replicate 5001 0) (d := 0) (e := (.un (· + 1) (.arr 1) : Expr Nat)) (m := m) (s := .shape [5001])
    (by decide) hb rfl List.length_replicate hlen (by decide) (by decide) hop
  obtain ⟨m', rfl, _, h3, _⟩ := h2 o' ho'
  have hrun : Assign cfg (fun _ => .shape [5001]) (List.replicate 5001 0) 0 (.un (· + 1) (.arr 1) : Expr Nat) m (.ok m) := by
    refine Assign.loops hb (m' := m) ?_ ?_
    · unfold resizeDiscard
      rw [hlen]
      rfl
    · have hf : Final (start (parBody cfg 0 (.un (· + 1) (.arr 1) : Expr Nat)) [] m) := by
        intro p hp; simp [start] at hp
      refine Loops.par (sched := []) (c := start (parBody cfg 0 (.un (· + 1) (.arr 1) : Expr Nat)) [] m)
        (o := .ok ((), m)) (fun _ => by decide) (by decide) (by rw [hlen]; decide) ?_ Reach.refl hf rfl
      rw [show parIterations cfg (.un (· + 1) (.arr 1) : Expr Nat) (assignSize cfg (.shape [5001]) m 0) = [] by
        unfold parIterations vectorSize Cfg.packetWidth Cfg.vec
        simp only [cfg, Bool.false_and, Bool.false_eq_true, if_false, if_true, Nat.mod_one, Nat.sub_zero]
        exact indices_empty]
      exact List.Perm.refl _
  have heq := h Nat cfg (fun _ => .shape [5001]) (List.replicate 5001 0) 0 (.un (· + 1) (.arr 1)) m (.shape [5001])
    (by decide) hb rfl List.length_replicate hlen (by decide) hop _ _ hrun ho'
  injection heq with heq
  subst heq
  obtain ⟨x, h4, h5⟩ := h3 0 (by decide)
  have e1 : (m 0)[0]? = some 0 := List.getElem?_replicate
  have e2 : valueAt m 0 (.un (· + 1) (.arr 1) : Expr Nat) = some 2 := by
    exact congrArg (Option.map (· + 1)) (List.getElem?_replicate (a := 1) (n := 5001) (i := 0))
  rw [e1] at h5
  rw [e2] at h4
  rw [← h4] at h5
  cases h5

/-- **C22** for dynamic arrays and for vectorised fixed-size arrays: under every distribution of the iterations over any number
of threads and every interleaving, there is no data race, the assignment ends, and the outcome is the outcome of the
single-threaded assignment, which is the expression's value at every index. -/
theorem C22_partial {cfg : Cfg} {shapes : Nat → AnyShape} {junk : List α} {d : Nat} {e : Expr α} {m : Mem α} {s : AnyShape}
    (hw : 0 < cfg.width) (hb : build cfg.asserts shapes e = .ok (some s)) (hs : ext (shapes d) = ext s)
    (hj : junk.length = size s) (hd : (m d).length = size s)
    (hu : usesThreads cfg (size s) = true) (hbug : cfg.fixed = true → cfg.vec e = true) (h : Operands m d (size s) e) :
    ∃ m', Assigned m d (size s) e m' ∧ Assign cfg shapes junk d e m (.ok m') ∧
      Assign { cfg with numThreads := 1 } shapes junk d e m (.ok m') ∧
      (∀ o, Assign cfg shapes junk d e m o → o = .ok m') ∧
      (∀ sched, IsSchedule sched (parIterations cfg e (size s)) →
        (∀ c, Reach (start (parBody cfg d e) sched m) c → ¬ Race c ∧ ¬ Bad c ∧ (Final c ∨ ∃ c', Step c c')) ∧
        ¬ ∃ f : Nat → Config α, f 0 = start (parBody cfg d e) sched m ∧ ∀ n, Step (f n) (f (n + 1))) := by
  have hne : size s ≠ 0 := by
    intro h0
    rw [h0] at hu
    simp [usesThreads] at hu
  have uniq : ∀ m1 m2 : Mem α, Assigned m d (size s) e m1 → Assigned m d (size s) e m2 → m1 = m2 := by
    intro m1 m2 g1 g2
    funext id
    by_cases hid : id = d
    · subst hid
      apply List.ext_getElem?
      intro i
      by_cases hi : i < size s
      · obtain ⟨x, h1, h2⟩ := g1.2.1 i hi
        obtain ⟨y, h3, h4⟩ := g2.2.1 i hi
        rw [h1] at h3
        rw [h2, h4, h3]
      · rw [List.getElem?_eq_none (by rw [g1.1]; omega), List.getElem?_eq_none (by rw [g2.1]; omega)]
    · rw [g1.2.2 id hid, g2.2.2 id hid]
  obtain ⟨⟨o, ho⟩, h1⟩ := assign_right (junk := junk) hw hb hs hj (fun _ => hd) (fun _ _ => hne) (fun _ => hbug) h
  obtain ⟨m', rfl, hm'⟩ := h1 o ho
  have hvec1 : ({ cfg with numThreads := 1 } : Cfg).vec e = cfg.vec e := rfl
  obtain ⟨⟨o1, ho1⟩, h2⟩ := assign_right (cfg := { cfg with numThreads := 1 }) (junk := junk) hw hb hs hj (fun _ => hd)
    (fun _ _ => hne) (fun _ hf => by rw [hvec1]; exact hbug hf) h
  obtain ⟨m1, rfl, hm1⟩ := h2 o1 ho1
  have := uniq _ _ hm' hm1
  subst this
  refine ⟨m', hm', ho, ho1, ?_, ?_⟩
  · intro o' ho'
    obtain ⟨m2, rfl, hm2⟩ := h1 o' ho'
    rw [uniq _ _ hm' hm2]
  · intro sched hsched
    obtain ⟨vals, hv1, hv2⟩ := exists_vals h
    obtain ⟨mid, hp, _⟩ := parLoops_ok hw hbug hv1 hd h hv2
    exact ⟨fun c hc => ⟨hp.noRace _ hsched _ hc, hp.noBad _ hsched _ hc, hp.progress _ hsched _ hc⟩, hp.ends _ hsched⟩

/-- A concrete case of the hypotheses: `a = -b` with 5001 elements on 8 threads, packets of four. -/
example : usesThreads ⟨true, false, true, 4, 5000, 8, false⟩ (size (.shape [5001])) = true ∧
    build (α := Int) true (fun _ => .shape [5001]) (.un (- ·) (.arr 1)) = .ok (some (.shape [5001])) ∧
    IsSchedule [indices 0 8 4, [], [8]] [0, 4, 8] := by
  refine ⟨by decide, rfl, ?_⟩
  rw [show indices 0 8 4 = [0, 4] by decide +kernel]
  exact List.Perm.refl _

/-! ### C23 -/

theorem build_shapes {asserts : Bool} {shapes : Nat → AnyShape} (e : Expr α) (hall : AllSame (operandShapes shapes e)) :
    (operandShapes shapes e = [] ∧ build asserts shapes e = .ok none) ∨
      ∃ s, build asserts shapes e = .ok (some s) ∧ ext s ∈ operandShapes shapes e := by
  induction e with
  | arr id => exact Or.inr ⟨_, rfl, by simp [operandShapes]⟩
  | view id v => exact Or.inr ⟨_, rfl, by simp [operandShapes]⟩
  | scalar c => exact Or.inl ⟨rfl, rfl⟩
  | un f e ih => exact ih hall
  | bin f l r ihl ihr =>
    have hl : AllSame (operandShapes shapes l) := fun a ha b hb => hall a (by simp [operandShapes, ha]) b (by simp [operandShapes, hb])
    have hr : AllSame (operandShapes shapes r) := fun a ha b hb => hall a (by simp [operandShapes, ha]) b (by simp [operandShapes, hb])
    rcases ihl hl with ⟨l1, l2⟩ | ⟨sl, l1, l2⟩ <;> rcases ihr hr with ⟨r1, r2⟩ | ⟨sr, r1, r2⟩
    · exact Or.inl ⟨by simp [operandShapes, l1, r1], by simp [build, l2, r2, binShape]⟩
    · exact Or.inr ⟨sr, by simp [build, l2, r1, binShape], by simp [operandShapes, r2]⟩
    · exact Or.inr ⟨sl, by simp [build, l1, r2, binShape], by simp [operandShapes, l2]⟩
    · have : ext sl = ext sr := hall _ (by simp [operandShapes, l2]) _ (by simp [operandShapes, r2])
      refine Or.inr ⟨sl, ?_, by simp [operandShapes, l2]⟩
      simp [build, l1, r1, binShape, shapeEq_iff.2 this]

theorem build_ok_same {shapes : Nat → AnyShape} (e : Expr α) {o : Option AnyShape} (h : build true shapes e = .ok o) :
    ∀ a ∈ operandShapes shapes e, ∃ s, o = some s ∧ a = ext s := by
  induction e generalizing o with
  | arr id =>
    simp only [build, Out.ok.injEq] at h
    subst h
    intro a ha
    simp only [operandShapes, List.mem_singleton] at ha
    exact ⟨_, rfl, ha⟩
  | view id v =>
    simp only [build, Out.ok.injEq] at h
    subst h
    intro a ha
    simp only [operandShapes, List.mem_singleton] at ha
    exact ⟨_, rfl, ha⟩
  | scalar c => intro a ha; simp [operandShapes] at ha
  | un f e ih => exact ih h
  | bin f l r ihl ihr =>
    simp only [build] at h
    obtain ⟨sl, h1, h⟩ := Out.bind_eq_ok.1 h
    obtain ⟨sr, h2, h⟩ := Out.bind_eq_ok.1 h
    intro a ha
    simp only [operandShapes, List.mem_append] at ha
    cases sl with
    | none =>
      simp only [binShape, Out.ok.injEq] at h
      subst h
      rcases ha with ha | ha
      · obtain ⟨s, h3, _⟩ := ihl h1 a ha
        cases h3
      · exact ihr h2 a ha
    | some sl =>
      cases sr with
      | none =>
        simp only [binShape, Out.ok.injEq] at h
        subst h
        rcases ha with ha | ha
        · exact ihl h1 a ha
        · obtain ⟨s, h3, _⟩ := ihr h2 a ha
          cases h3
      | some sr =>
        simp only [binShape, Bool.true_and] at h
        split at h
        · cases h
        · rename_i hc
          injection h with h
          subst h
          have hc' : shapeEq (ext sl) (ext sr) = true := by simpa using hc
          rcases ha with ha | ha
          · exact ihl h1 a ha
          · obtain ⟨s, h3, h4⟩ := ihr h2 a ha
            injection h3 with h3
            subst h3
            exact ⟨sl, rfl, by rw [h4, shapeEq_iff.1 hc']⟩

theorem build_throw {asserts : Bool} {shapes : Nat → AnyShape} (e : Expr α) :
    (∃ o, build asserts shapes e = .ok o) ∨ build asserts shapes e = .throw .rangeError := by
  induction e with
  | arr id => exact Or.inl ⟨_, rfl⟩
  | view id v => exact Or.inl ⟨_, rfl⟩
  | scalar c => exact Or.inl ⟨_, rfl⟩
  | un f e ih => exact ih
  | bin f l r ihl ihr =>
    rcases ihl with ⟨ol, hl⟩ | hl
    · rcases ihr with ⟨or', hr⟩ | hr
      · simp only [build, hl, hr, Out.ok_bind]
        cases ol with
        | none => exact Or.inl ⟨_, rfl⟩
        | some sl =>
          cases or' with
          | none => exact Or.inl ⟨_, rfl⟩
          | some sr =>
            simp only [binShape]
            split
            · exact Or.inr rfl
            · exact Or.inl ⟨_, rfl⟩
      · exact Or.inr (by simp [build, hl, hr])
    · exact Or.inr (by simp [build, hl])

/-- **C23**, shapes: with assertions on, an expression tree of any depth can be built exactly when all its array operands have
the same shape; then that is its shape. Otherwise building it throws a range error. -/
theorem C23_shapes (shapes : Nat → AnyShape) (e : Expr α) :
    (AllSame (operandShapes shapes e) → operandShapes shapes e ≠ [] →
      ∃ s, build true shapes e = .ok (some s) ∧ ∀ a ∈ operandShapes shapes e, a = ext s) ∧
    (¬ AllSame (operandShapes shapes e) → build true shapes e = .throw .rangeError) := by
  constructor
  · intro hall hne
    rcases build_shapes (asserts := true) e hall with ⟨h1, _⟩ | ⟨s, h1, h2⟩
    · exact absurd h1 hne
    · exact ⟨s, h1, fun a ha => hall a ha _ h2⟩
  · intro hn
    rcases build_throw (asserts := true) (shapes := shapes) e with ⟨o, ho⟩ | h
    · exfalso
      apply hn
      intro a ha b hb
      obtain ⟨s, h1, h2⟩ := build_ok_same e ho a ha
      obtain ⟨s', h3, h4⟩ := build_ok_same e ho b hb
      rw [h1] at h3
      injection h3 with h3
      subst h3
      rw [h2, h4]
    · exact h

example : build (α := Nat) true (fun id => if id = 0 then .shape [2, 3] else .shape [3, 2])
    (.bin (· + ·) (.un (· + 1) (.arr 0)) (.bin (· * ·) (.scalar 2) (.arr 1))) = .throw .rangeError := by decide

/-- The full property C23 for evaluation into a new array `d` (`Function::eval`, function.hpp 284-289): every element is the
tree evaluated on the operands' elements; operands are unchanged. -/
def C23Claim : Prop :=
  ∀ (α : Type) (cfg : Cfg) (shapes : Nat → AnyShape) (junk : List α) (d : Nat) (e : Expr α) (m : Mem α) (s : AnyShape),
    0 < cfg.width → cfg.fixed = false → build cfg.asserts shapes e = .ok (some s) → ext (shapes d) = ext s →
    junk.length = size s → (m d).length = size s → Operands m d (size s) e →
      ∀ o, Assign cfg shapes junk d e m o → ∃ m', o = .ok m' ∧ Assigned m d (size s) e m'

/-- **C23** is false of the code for empty arrays with assertions on: evaluating the expression throws. -/
theorem C23_empty_false : ¬ C23Claim := by
  intro h
  obtain ⟨m', h1, _⟩ := h Nat ⟨true, false, true, 4, 5000, 8, false⟩ (fun _ => .shape [0]) [] 0 (.bin (· + ·) (.arr 1) (.arr 2))
    (fun _ => []) (.shape [0]) (by decide) (by decide) (by decide) rfl rfl rfl ⟨rfl, rfl⟩ (.throw .assertion)
    (Assign.resizeThrows (s := .shape [0]) (by decide) rfl)
  cases h1

/-- **C23**, evaluation, for non-empty expressions (or with assertions off): for every tree over arrays, views of other arrays
and scalars, with one thread or many, element `i` of the result is the tree evaluated on the `i`-th elements of the operands,
and the operands are unchanged. -/
theorem C23_value_partial {cfg : Cfg} {shapes : Nat → AnyShape} {junk : List α} {d : Nat} {e : Expr α} {m : Mem α}
    {s : AnyShape} (hw : 0 < cfg.width) (hfix : cfg.fixed = false) (hb : build cfg.asserts shapes e = .ok (some s))
    (hs : ext (shapes d) = ext s) (hj : junk.length = size s) (hne : cfg.asserts = true → size s ≠ 0)
    (h : Operands m d (size s) e) :
    (∃ o, Assign cfg shapes junk d e m o) ∧
      ∀ o, Assign cfg shapes junk d e m o → ∃ m', o = .ok m' ∧ (m' d).length = size s ∧
        (∀ i, i < size s → ∃ x, valueAt m i e = some x ∧ (m' d)[i]? = some x) ∧ ∀ id, id ≠ d → m' id = m id :=
  assign_right hw hb hs hj (fun h1 => by rw [hfix] at h1; cases h1) (fun h1 _ => hne h1)
    (fun _ h1 => by rw [hfix] at h1; cases h1) h

/-- A concrete case of the hypotheses: a tree over two arrays and a row of a third. -/
example : Operands (α := Nat) (fun id => if id = 1 then [1, 2, 3] else if id = 2 then [4, 5, 6] else [1, 2, 3, 4, 5, 6]) 0 3
    (.bin (· + ·) (.bin (· * ·) (.arr 1) (.arr 2)) (.view 3 ⟨.shape [3], [1], 3⟩)) := by
  refine ⟨⟨rfl, rfl⟩, by decide, ?_⟩
  intro i hi
  match i, hi with
  | 0, _ => exact ⟨4, by decide⟩
  | 1, _ => exact ⟨5, by decide⟩
  | 2, _ => exact ⟨6, by decide⟩

end Verif.ExprM
