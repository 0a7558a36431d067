import Verif.Spec.Container
import Verif.Lemmas.StorageOps

/-! Lemmas about array containers. -/

namespace Verif.ContM

open StorageM

variable {α : Type}

/-- The invariant: storages are separate, and arrays that were not moved from are consistent. -/
structure AInv (asserts : Bool) (s : ASt α) : Prop where
  inv : Inv s.st
  whole : ∀ x, Owner s.st x → Consistent asserts s x

/-- A step is fine: it ends in a state that satisfies the invariant, or used a variable that is not alive. -/
def AOk (asserts : Bool) : ARes α → Prop
  | .ok s => AInv asserts s
  | .throw _ s => AInv asserts s
  | .ub k => k = .badObject

theorem good_of_ok {asserts : Bool} {c : Cmd α} {s t : St α} (hc : c.Owning) (h : Inv s)
    (hfresh : ∀ x, c.creates = some x → s.objs x = none) (he : exec asserts c s = .ok () t) : Good s c.changes t := by
  have := exec_good (asserts := asserts) hc h hfresh
  rw [he] at this
  exact this

theorem holds_good {asserts : Bool} {s t : St α} {ch : List Nat} (g : Good s ch t) {x : Nat} (hx : x ∉ ch) {vals : List (Option α)}
    (h : Holds asserts s x vals) : Holds asserts t x vals := by
  obtain ⟨o, h1, h2, h3⟩ := holds_iff.mp h
  refine holds_iff.mpr ⟨o, (g.objs x hx).trans h1, h2, ?_⟩
  intro hne
  obtain ⟨b, cs, h4, h5, h6⟩ := h3 hne
  exact ⟨b, cs, h4, (g.mem x o b hx h1 h4).trans h5, h6⟩

theorem ainv_step {asserts : Bool} {s s' : ASt α} {ch : List Nat} (h : AInv asserts s) (g : Good s.st ch s'.st)
    (hm : ∀ x, x ∉ ch → s'.shape x = s.shape x ∧ s'.msize x = s.msize x)
    (hc : ∀ x, x ∈ ch → Owner s'.st x → Consistent asserts s' x) : AInv asserts s' := by
  refine ⟨g.inv, ?_⟩
  intro x hx
  by_cases hmem : x ∈ ch
  · exact hc x hmem hx
  · obtain ⟨o, h1, h2⟩ := hx
    obtain ⟨h3, vals, h4, h5⟩ := h.whole x ⟨o, (g.objs x hmem).symm.trans h1, h2⟩
    refine ⟨?_, vals, holds_good g hmem h4, ?_⟩
    · rw [(hm x hmem).1, (hm x hmem).2, h3]
    · rw [(hm x hmem).1, h5]

theorem setMeta_self (x : Nat) (dims : List Nat) (n : Nat) (s : ASt α) :
    (setMeta x dims n s).shape x = dims ∧ (setMeta x dims n s).msize x = n := by simp [setMeta]

theorem setMeta_other (x : Nat) (dims : List Nat) (n : Nat) (s : ASt α) {y : Nat} (h : y ≠ x) :
    (setMeta x dims n s).shape y = s.shape y ∧ (setMeta x dims n s).msize y = s.msize y := by simp [setMeta, h]

/-- Steps that change one array and set its shape. -/
theorem ainv_one {asserts : Bool} {s : ASt α} {t : St α} {x : Nat} {dims : List Nat} {vals : List (Option α)} (h : AInv asserts s)
    (g : Good s.st [x] t) (hv : Holds asserts t x vals) (hl : vals.length = dims.prod) :
    AInv asserts { setMeta x dims dims.prod s with st := t } := by
  refine ainv_step h g ?_ ?_
  · intro y hy
    exact setMeta_other x dims dims.prod s (by simpa using hy)
  · intro y hy _
    have : y = x := by simpa using hy
    subst this
    have e := setMeta_self y dims dims.prod s
    exact ⟨by simp [setMeta], vals, hv, by simpa [setMeta] using hl⟩

/-- Steps that change one array and leave its shape alone. -/
theorem ainv_keep {asserts : Bool} {s : ASt α} {t : St α} {x : Nat} {vals : List (Option α)} (h : AInv asserts s)
    (g : Good s.st [x] t) (hv : Holds asserts t x vals) (hl : vals.length = (s.shape x).prod) (hm : s.msize x = (s.shape x).prod) :
    AInv asserts { s with st := t } := by
  refine ainv_step h g (fun _ _ => ⟨rfl, rfl⟩) ?_
  intro y hy _
  have : y = x := by simpa using hy
  subst this
  exact ⟨hm, vals, hv, hl⟩

theorem onStorage_ok {x : SM α Unit} {s : ASt α} {t : St α} (h : x s.st = .ok () t) : onStorage x s = .ok { s with st := t } := by
  simp [onStorage, h]

/-- Writing values from index `i` on. -/
theorem fillWith_holds {asserts : Bool} {x : Nat} {vs : List α} {i : Nat} {s : St α} (hi : Inv s) {vals : List (Option α)}
    (h : Holds asserts s x vals) (hl : i + vs.length ≤ vals.length) :
    ∃ t, fillWith asserts x i vs s = .ok () t ∧ Good s [x] t ∧
      Holds asserts t x (vals.take i ++ vs.map some ++ vals.drop (i + vs.length)) := by
  induction vs generalizing i s vals with
  | nil => exact ⟨s, rfl, Good.refl hi _, by simpa using h⟩
  | cons v vs ih =>
    rw [List.length_cons] at hl
    obtain ⟨t, h1, h2⟩ := writeAt_holds (i := i) (v := v) h (by omega)
    have g := good_of_ok (asserts := asserts) (c := .write x i v) trivial hi (by simp [Cmd.creates]) h1
    obtain ⟨t', h3, g', h4⟩ := ih (i := i + 1) g.inv h2 (by rw [List.length_set]; omega)
    refine ⟨t', ?_, g.trans g', ?_⟩
    · simp only [fillWith, bind_def, h1]
      exact h3
    · have e : (vals.set i (some v)).take (i + 1) ++ vs.map some ++ (vals.set i (some v)).drop (i + 1 + vs.length) =
          vals.take i ++ (v :: vs).map some ++ vals.drop (i + (v :: vs).length) := by
        rw [List.drop_set_of_lt (by omega), List.length_cons, show i + 1 + vs.length = i + (vs.length + 1) by omega,
          List.map_cons, List.take_succ, List.getElem?_set_self (by omega), List.take_set_of_le (by omega)]
        simp
      rw [← e]
      exact h4

theorem fillWith_all {asserts : Bool} {x : Nat} {vs : List α} {s : St α} (hi : Inv s) {vals : List (Option α)}
    (h : Holds asserts s x vals) (hl : vs.length = vals.length) :
    ∃ t, fillWith asserts x 0 vs s = .ok () t ∧ Good s [x] t ∧ Holds asserts t x (vs.map some) := by
  obtain ⟨t, h1, g, h2⟩ := fillWith_holds (vs := vs) (i := 0) hi h (by omega)
  refine ⟨t, h1, g, ?_⟩
  simpa [hl] using h2

theorem resizeDiscard_throws {s : St α} {x : Nat} {o : Obj} (hx : s.objs x = some o) :
    StorageM.resizeDiscard true x 0 s = .throw .assertion s := by
  simp [StorageM.resizeDiscard, bind_def, getObj, hx, assertThat]

theorem resizeDiscard_ok {asserts : Bool} {s : St α} (hi : Inv s) {x n : Nat} {vals : List (Option α)} (hx : Owner s x)
    (h : Holds asserts s x vals) (hn : asserts = true → 0 < n) :
    ∃ t, StorageM.resizeDiscard asserts x n s = .ok () t ∧ Good s [x] t ∧ Owner t x ∧ ∃ vals', Holds asserts t x vals' ∧ vals'.length = n := by
  obtain ⟨o, hx, how⟩ := hx
  obtain ⟨o', hx', hs, -⟩ := holds_iff.mp h
  rw [hx] at hx'
  injection hx' with hx'
  subst hx'
  obtain ⟨t, h1, h2, h3⟩ := resizeDiscard_size (asserts := asserts) hi hx hn (fun _ _ => how)
  have g := good_of_ok (asserts := asserts) (c := .resizeDiscard x n) trivial hi (by simp [Cmd.creates]) h1
  have hpos : (asserts && !decide (0 < n)) = false := by
    cases asserts with
    | false => rfl
    | true => simp [hn rfl]
  by_cases hsame : n = o.size
  · have e : StorageM.resizeDiscard asserts x n s = .ok () s := by
      simp only [StorageM.resizeDiscard, bind_def, getObj, hx, assertThat, hpos, Bool.false_eq_true, if_false, if_pos hsame.symm, pure_def]
    rw [e] at h1
    cases h1
    exact ⟨s, e, g, ⟨o, hx, how⟩, vals, h, by omega⟩
  · refine ⟨t, h1, g, ?_, _, h3 hsame, by simp⟩
    -- ownership is kept
    have hsame' : ¬ o.size = n := fun h => hsame h.symm
    unfold StorageM.resizeDiscard at h1
    simp only [bind_def, getObj, hx, assertThat, hpos, Bool.false_eq_true, if_false, hsame', how, Bool.not_true, Bool.and_false] at h1
    cases ha : safeAllocate n s with
    | throw e u => rw [ha] at h1; cases h1
    | ub k => rw [ha] at h1; cases h1
    | ok p u =>
      rw [ha] at h1
      simp only [setObj_eq] at h1
      refine ⟨⟨p, n, true⟩, ?_, rfl⟩
      unfold safeDeallocate at h1
      cases hp : o.ptr with
      | none => rw [hp] at h1; cases h1; exact put_self _ _ _
      | some b =>
        rw [hp] at h1
        simp only at h1
        split at h1
        · cases h1; exact put_self _ _ _
        · cases h1
        · cases h1

theorem owner_alive {s : St α} {x : Nat} (h : Owner s x) : ∃ o, s.objs x = some o := by
  obtain ⟨o, h, _⟩ := h
  exact ⟨o, h⟩

theorem release_ok {s : St α} (h : Inv s) {x : Nat} {o : Obj} (hx : s.objs x = some o) : ∃ t, release o s = .ok () t := by
  unfold release
  cases hw : o.owns with
  | false => exact ⟨s, rfl⟩
  | true =>
    rw [if_pos rfl]
    cases hp : o.ptr with
    | none => exact ⟨s, rfl⟩
    | some b =>
      obtain ⟨cs, hl⟩ := h.live x o b hx hp
      exact ⟨_, free_live hl⟩

theorem dtor_eq {asserts : Bool} {s : ASt α} (h : AInv asserts s) (x : Nat) : AOk asserts (onStorage (StorageM.dtor x) s) := by
  cases hx : s.st.objs x with
  | none =>
    have : StorageM.dtor x s.st = .ub .badObject := by simp [StorageM.dtor, bind_def, getObj, hx]
    simp only [onStorage, this]
    rfl
  | some o =>
    obtain ⟨t, ht⟩ := release_ok h.inv hx
    have he : StorageM.dtor x s.st = .ok () { t with objs := fun y => if y = x then none else t.objs y } := by
      simp [StorageM.dtor, bind_def, getObj, hx, ht, dropObj]
    have g := good_of_ok (asserts := asserts) (c := .dtor x) trivial h.inv (by simp [Cmd.creates]) he
    rw [onStorage_ok he]
    refine ainv_step h g (fun _ _ => ⟨rfl, rfl⟩) ?_
    rintro y hy ⟨o, ho, -⟩
    have : y = x := by simpa [Cmd.changes] using hy
    subst this
    simp at ho

theorem move_eq {asserts : Bool} {s : ASt α} (h : AInv asserts s) {x y : Nat} (c : Cmd α)
    (hc : c = .ctorMove x y ∧ s.st.objs x = none ∨ c = .assignMove x y) :
    AOk asserts (onStorage (exec asserts c) (setMeta x (s.shape y) (s.msize y) s)) := by
  have hch : c.changes = [x, y] := by rcases hc with ⟨rfl, -⟩ | rfl <;> rfl
  have hown : c.Owning := by rcases hc with ⟨rfl, -⟩ | rfl <;> trivial
  cases hy : s.st.objs y with
  | none =>
    have : exec asserts c s.st = .ub .badObject := by
      rcases hc with ⟨rfl, -⟩ | rfl
      · simp [exec, ctorMove, bind_def, getObj, hy]
      · simp only [exec, assignMove, bind_def, getObj, hy]
        cases s.st.objs x with
        | none => rfl
        | some _ => simp only [hy]
    simp only [onStorage, setMeta, this]
    rfl
  | some o =>
    by_cases hxy : x = y
    · subst hxy
      rcases hc with ⟨rfl, h0⟩ | rfl
      · rw [h0] at hy; cases hy
      · have : exec asserts (.assignMove x x) s.st = .ok () s.st := by
          simp [exec, assignMove, bind_def, getObj, hy, pure_def]
        rw [onStorage_ok (s := setMeta x (s.shape x) (s.msize x) s) (t := s.st) this]
        refine ainv_step (ch := []) h (Good.refl h.inv _) ?_ (by simp)
        intro z _
        by_cases hz : z = x <;> simp [setMeta, hz]
    · cases hx : s.st.objs x with
      | none =>
        rcases hc with ⟨rfl, -⟩ | rfl
        · have he : exec asserts (.ctorMove x y) s.st = .ok () ((s.st.put x o).put y ⟨none, 0, false⟩) := by
            simp [exec, ctorMove, bind_def, getObj, hy, setObj_eq]
          have g := good_of_ok (asserts := asserts) hown h.inv (by simp [Cmd.creates, hx]) he
          rw [onStorage_ok (s := setMeta x (s.shape y) (s.msize y) s) he]
          exact moved h hxy hy g
        · have : exec asserts (.assignMove x y) s.st = .ub .badObject := by
            simp [exec, assignMove, bind_def, getObj, hx]
          simp only [onStorage, setMeta, this]
          rfl
      | some o' =>
        rcases hc with ⟨rfl, h0⟩ | rfl
        · rw [h0] at hx; cases hx
        · have he : exec asserts (.assignMove x y) s.st = .ok () ((s.st.put x o).put y ⟨none, 0, false⟩) := by
            simp [exec, assignMove, bind_def, getObj, hy, hx, setObj_eq, hxy]
          have g := good_of_ok (asserts := asserts) hown h.inv (by simp [Cmd.creates]) he
          rw [onStorage_ok (s := setMeta x (s.shape y) (s.msize y) s) he]
          exact moved h hxy hy g
where
  moved {asserts : Bool} {s : ASt α} (h : AInv asserts s) {x y : Nat} (hxy : x ≠ y) {o : Obj} (hy : s.st.objs y = some o)
      (g : Good s.st [x, y] ((s.st.put x o).put y ⟨none, 0, false⟩)) :
      AInv asserts { setMeta x (s.shape y) (s.msize y) s with st := (s.st.put x o).put y ⟨none, 0, false⟩ } := by
    refine ainv_step h g ?_ ?_
    · intro z hz
      simp only [List.mem_cons, List.not_mem_nil, or_false, not_or] at hz
      exact setMeta_other _ _ _ _ hz.1
    · rintro z hz ⟨p, hp, hpo⟩
      simp only [List.mem_cons, List.not_mem_nil, or_false] at hz
      rcases hz with rfl | rfl
      · have hp' : p = o := by
          have := (put_other (s.st.put z o) ⟨none, 0, false⟩ hxy).trans (put_self s.st z o)
          have e := hp.symm.trans this
          injection e
        subst hp'
        obtain ⟨h1, vals, h2, h3⟩ := h.whole y ⟨p, hy, hpo⟩
        obtain ⟨t, ht, hv, -⟩ := ctorMove_holds (asserts := asserts) hxy h2
        have : t = (s.st.put z p).put y ⟨none, 0, false⟩ := by
          have e : ctorMove z y s.st = .ok () ((s.st.put z p).put y ⟨none, 0, false⟩) := by
            simp [ctorMove, bind_def, getObj, hy, setObj_eq]
          rw [e] at ht
          cases ht
          rfl
        subst this
        exact ⟨by simpa [setMeta] using h1, vals, hv, by simpa [setMeta] using h3⟩
      · have e := hp.symm.trans (put_self (s.st.put x o) z ⟨none, 0, false⟩)
        injection e with e
        subst e
        cases hpo

theorem ub_of_dead {x : Nat} {s : St α} {f : Obj → SM α Unit} (h : s.objs x = none) : (getObj x >>= f) s = .ub .badObject := by
  simp [bind_def, getObj, h]

/-- Filling array `x`, whose shape is already right. -/
theorem fill_ok {asserts : Bool} {s : ASt α} (h : AInv asserts s) {x : Nat} (hx : Owner s.st x) {vs : List α}
    (hl : vs.length = (s.shape x).prod) : AOk asserts (onStorage (fillWith asserts x 0 vs) s) := by
  obtain ⟨hm, vals, hv, hlen⟩ := h.whole x hx
  obtain ⟨t, h1, g, h2⟩ := fillWith_all (vs := vs) h.inv hv (by omega)
  rw [onStorage_ok h1]
  exact ainv_keep h g h2 (by simpa using hl) hm

theorem owner_put {s : St α} {x : Nat} {o : Obj} (h : o.owns = true) : Owner (s.put x o) x := ⟨o, put_self _ _ _, h⟩

theorem assignExpr_ok {asserts : Bool} {s : ASt α} (h : AInv asserts s) {x : Nat} {dims : List Nat} {vs : List α} (hx : Owner s.st x)
    (hl : vs.length = dims.prod) (hd : dims.prod = (s.shape x).prod ∨ (asserts = true ∧ dims.prod = 0)) :
    AOk asserts (aassignExpr asserts x dims vs s) ∧ (∀ s', aassignExpr asserts x dims vs s = .ok s' → Owner s'.st x →
      Holds asserts s'.st x (vs.map some) ∧ s'.shape = s.shape) := by
  obtain ⟨hm, vals, hv, hlen⟩ := h.whole x hx
  unfold aassignExpr extent
  by_cases h0 : asserts = true ∧ dims.prod = 0
  · obtain ⟨rfl, h0⟩ := h0
    obtain ⟨o, ho⟩ := owner_alive hx
    rw [h0]
    unfold onStorage
    rw [resizeDiscard_throws ho]
    exact ⟨h, by simp [ARes.andThen]⟩
  · have hpos : asserts = true → 0 < dims.prod := fun ha => Nat.pos_of_ne_zero (fun h1 => h0 ⟨ha, h1⟩)
    have hd' : dims.prod = (s.shape x).prod := by
      rcases hd with hd | hd
      · exact hd
      · exact absurd hd h0
    obtain ⟨t, h1, g, ho, vals', hv', hl'⟩ := resizeDiscard_ok h.inv hx hv hpos
    rw [onStorage_ok h1]
    have hi : AInv asserts { s with st := t } := ainv_keep h g hv' (by omega) hm
    simp only [ARes.andThen, check]
    cases hc : (asserts && !decide (s.shape x = dims)) with
    | true => simp only [if_true]; exact ⟨hi, by simp⟩
    | false =>
      simp only [Bool.false_eq_true, if_false]
      refine ⟨fill_ok hi ho (by simp only; omega), ?_⟩
      intro s' hs' _
      obtain ⟨t', h1', g', h2'⟩ := fillWith_all (vs := vs) hi.inv hv' (by omega)
      rw [onStorage_ok (s := { s with st := t }) h1'] at hs'
      cases hs'
      exact ⟨h2', rfl⟩

theorem assignOp_ok {asserts : Bool} {s : ASt α} (h : AInv asserts s) {x : Nat} {dims : List Nat} {vs : List α} (hx : Owner s.st x)
    (hl : vs.length = dims.prod) (hd : asserts = true → dims.prod = 0 → (s.shape x).prod = 0) :
    AOk asserts (aassignOp asserts x dims vs s) ∧ ((asserts = true → 0 < dims.prod) → ∃ s', aassignOp asserts x dims vs s = .ok s' ∧
      Holds asserts s'.st x (vs.map some) ∧ s'.shape x = dims) := by
  obtain ⟨hm, vals, hv, hlen⟩ := h.whole x hx
  unfold aassignOp extent
  by_cases h0 : asserts = true ∧ dims.prod = 0
  · obtain ⟨rfl, h0⟩ := h0
    obtain ⟨o, ho⟩ := owner_alive hx
    refine ⟨?_, fun hp => absurd (hp rfl) (by omega)⟩
    unfold onStorage
    rw [h0, resizeDiscard_throws (s := (setMeta x dims 0 s).st) ho]
    have := ainv_one (dims := dims) h (Good.refl h.inv [x]) hv (by rw [hlen, hd rfl h0, h0])
    rw [h0] at this
    exact this
  · have hpos : asserts = true → 0 < dims.prod := fun ha => Nat.pos_of_ne_zero (fun h1 => h0 ⟨ha, h1⟩)
    obtain ⟨t, h1, g, ho, vals', hv', hl'⟩ := resizeDiscard_ok h.inv hx hv hpos
    rw [onStorage_ok (s := setMeta x dims dims.prod s) h1]
    have hi : AInv asserts { setMeta x dims dims.prod s with st := t } := ainv_one h g hv' hl'
    simp only [ARes.andThen]
    refine ⟨fill_ok hi ho (by simpa [setMeta] using hl), fun _ => ?_⟩
    obtain ⟨t', h1', g', h2'⟩ := fillWith_all (vs := vs) hi.inv hv' (by omega)
    refine ⟨_, onStorage_ok (s := { setMeta x dims dims.prod s with st := t }) h1', h2', by simp [setMeta]⟩

/-- One command. -/
theorem aexec_ok {asserts : Bool} {c : ACmd α} {s : ASt α} (hw : c.WellFormed) (ht : c.Tidy asserts s) (h : AInv asserts s)
    (hfresh : ∀ x ∈ c.creates, s.st.objs x = none) : AOk asserts (aexec asserts c s) := by
  cases c with
  | ctorDefault x =>
    have hx := hfresh x (by simp [ACmd.creates])
    have he : exec asserts (Cmd.ctorDefault x) s.st = .ok () (s.st.put x fresh) := rfl
    have g := good_of_ok (asserts := asserts) (c := .ctorDefault x) trivial h.inv (by simp [Cmd.creates, hx]) he
    exact ainv_one (dims := [0]) (vals := []) h g (holds_iff.mpr ⟨_, put_self _ _ _, rfl, by simp⟩) (by simp)
  | ctorShape x dims =>
    have hx := hfresh x (by simp [ACmd.creates])
    obtain ⟨t, h1, h2⟩ := ctorSize_holds (asserts := asserts) (s := s.st) (x := x) (n := dims.prod)
    have g := good_of_ok (asserts := asserts) (c := .ctorSize x dims.prod) trivial h.inv (by simp [Cmd.creates, hx]) h1
    change AOk asserts (onStorage (ctorSize x dims.prod) (setMeta x dims dims.prod s))
    rw [onStorage_ok (s := setMeta x dims dims.prod s) h1]
    exact ainv_one h g h2 (by simp)
  | ctorFill x dims v =>
    have hx := hfresh x (by simp [ACmd.creates])
    obtain ⟨t, h1, h2⟩ := ctorFill_holds (asserts := asserts) (s := s.st) (x := x) (n := dims.prod) (v := v)
    have g := good_of_ok (asserts := asserts) (c := .ctorFill x dims.prod v) trivial h.inv (by simp [Cmd.creates, hx]) h1
    change AOk asserts (onStorage (ctorFill asserts x dims.prod v) (setMeta x dims dims.prod s))
    rw [onStorage_ok (s := setMeta x dims dims.prod s) h1]
    exact ainv_one h g h2 (by simp)
  | ctorCopy x y =>
    have hx := hfresh x (by simp [ACmd.creates])
    obtain ⟨hm, vals, hv, hlen⟩ := h.whole y ht
    have hxy : x ≠ y := by
      rintro rfl
      obtain ⟨o, ho⟩ := owner_alive ht
      rw [hx] at ho
      cases ho
    obtain ⟨t, h1, h2, -⟩ := ctorCopy_holds (asserts := asserts) hxy hv
    have g := good_of_ok (asserts := asserts) (c := .ctorCopy x y) trivial h.inv (by simp [Cmd.creates, hx]) h1
    change AOk asserts (onStorage (ctorCopy asserts x y) (setMeta x (s.shape y) (s.msize y) s))
    rw [hm, onStorage_ok (s := setMeta x (s.shape y) (s.shape y).prod s) h1]
    exact ainv_one h g h2 hlen
  | ctorMove x y =>
    exact move_eq h _ (Or.inl ⟨rfl, hfresh x (by simp [ACmd.creates])⟩)
  | ctorExpr x dims vals =>
    have hx := hfresh x (by simp [ACmd.creates])
    obtain ⟨t, h1, h2⟩ := ctorSize_holds (asserts := asserts) (s := s.st) (x := x) (n := dims.prod)
    have g := good_of_ok (asserts := asserts) (c := .ctorSize x dims.prod) trivial h.inv (by simp [Cmd.creates, hx]) h1
    change AOk asserts ((onStorage (ctorSize x dims.prod) (setMeta x dims dims.prod s)).andThen _)
    rw [onStorage_ok (s := setMeta x dims dims.prod s) h1]
    have hi := ainv_one (dims := dims) h g h2 (by simp)
    have ho : Owner t x := by
      unfold ctorSize at h1
      simp only [bind_def, setObj_eq] at h1
      split at h1
      · cases h1; exact owner_put rfl
      · cases h1
      · cases h1
    have := (assignExpr_ok (dims := dims) (vs := vals) hi ho hw (Or.inl (by simp [setMeta]))).1
    simp only [ARes.andThen]
    cases hr : aassignExpr asserts x dims vals { setMeta x dims dims.prod s with st := t } with
    | ok s' => rw [hr] at this; exact this
    | ub k => rw [hr] at this; exact this
    | throw e s' =>
      rw [hr] at this
      have hdt := dtor_eq (asserts := asserts) this x
      simp only [ARes.unwind]
      cases hq : onStorage (StorageM.dtor x) s' with
      | ok s'' => rw [hq] at hdt; exact hdt
      | throw e' s'' => rw [hq] at hdt; exact hdt
      | ub k => rw [hq] at hdt; exact hdt
  | copyOf x tmp y =>
    have hx := hfresh x (by simp [ACmd.creates])
    have htmp := hfresh tmp (by simp [ACmd.creates])
    have hne : x ≠ tmp := hw
    obtain ⟨hm, vals, hv, hlen⟩ := h.whole y ht
    have hxy : y ≠ x := by
      rintro rfl
      obtain ⟨o, ho⟩ := owner_alive ht
      rw [hx] at ho
      cases ho
    have hty : tmp ≠ y := by
      rintro rfl
      obtain ⟨o, ho⟩ := owner_alive ht
      rw [htmp] at ho
      cases ho
    obtain ⟨t1, h1, h2⟩ := ctorSize_holds (asserts := asserts) (s := s.st) (x := x) (n := (s.shape y).prod)
    have g1 := good_of_ok (asserts := asserts) (c := .ctorSize x (s.shape y).prod) trivial h.inv (by simp [Cmd.creates, hx]) h1
    have hv1 := holds_good (asserts := asserts) g1 (by simpa [Cmd.changes] using hxy) hv
    have htmp1 : t1.objs tmp = none := (g1.objs tmp (by simpa [Cmd.changes] using Ne.symm hne)).trans htmp
    obtain ⟨t2, h3, h4, h5⟩ := copyOf_holds (asserts := asserts) hty hv1
    have g2 := good_of_ok (asserts := asserts) (c := .copyOf tmp y) trivial g1.inv (by simp [Cmd.creates, htmp1]) h3
    obtain ⟨o2, ho2, -⟩ := holds_iff.mp (holds_good (asserts := asserts) g2 (by simpa [Cmd.changes] using hne) h2)
    obtain ⟨t3, h6, h7, h8⟩ := assignMove_holds (asserts := asserts) hne ho2 h4
    have g3 := good_of_ok (asserts := asserts) (c := .assignMove x tmp) trivial g2.inv (by simp [Cmd.creates]) h6
    have e1 : (onStorage (ctorSize x (s.shape y).prod) (setMeta x (s.shape y) (s.shape y).prod s)).andThen
        (onStorage (StorageM.copyOf asserts tmp y)) = .ok { setMeta x (s.shape y) (s.shape y).prod s with st := t2 } := by
      rw [onStorage_ok (s := setMeta x (s.shape y) (s.shape y).prod s) h1]
      exact onStorage_ok (s := { setMeta x (s.shape y) (s.shape y).prod s with st := t1 }) h3
    have e2 : onStorage (StorageM.assignMove x tmp) { setMeta x (s.shape y) (s.shape y).prod s with st := t2 } =
        .ok { setMeta x (s.shape y) (s.shape y).prod s with st := t3 } :=
      onStorage_ok (s := { setMeta x (s.shape y) (s.shape y).prod s with st := t2 }) h6
    change AOk asserts ((((onStorage (ctorSize x (s.shape y).prod) (setMeta x (s.shape y) (s.shape y).prod s)).andThen
        (onStorage (StorageM.copyOf asserts tmp y))).andThen (onStorage (StorageM.assignMove x tmp))).andThen (onStorage (StorageM.dtor tmp)))
    rw [e1]
    simp only [ARes.andThen, e2]
    apply dtor_eq
    have g : Good s.st [x, tmp] t3 :=
      ((g1.mono (by simp [Cmd.changes])).trans (g2.mono (by simp [Cmd.changes]))).trans (g3.mono (by simp [Cmd.changes]))
    refine ainv_step h g ?_ ?_
    · intro z hz
      simp only [List.mem_cons, List.not_mem_nil, or_false, not_or] at hz
      exact setMeta_other _ _ _ _ hz.1
    · intro z hz ho
      simp only [List.mem_cons, List.not_mem_nil, or_false] at hz
      rcases hz with rfl | rfl
      · exact ⟨by simp [setMeta], vals, h7, by simpa [setMeta] using hlen⟩
      · exfalso
        obtain ⟨o, h9, h10⟩ := ho
        unfold assignMove at h6
        obtain ⟨o3, ho3, -⟩ := holds_iff.mp h4
        simp only [bind_def, getObj, ho2, ho3, if_neg hne, setObj_eq] at h6
        cases h6
        have e := h9.symm.trans (put_self _ _ _)
        injection e with e
        subst e
        cases h10
  | assignCopy x y =>
    change AOk asserts (onStorage (StorageM.assignCopy asserts x y) (setMeta x (s.shape y) (s.msize y) s))
    by_cases hxy : x = y
    · subst hxy
      cases hx : s.st.objs x with
      | none =>
        have : StorageM.assignCopy asserts x x s.st = .ub .badObject := ub_of_dead hx
        simp only [onStorage, setMeta, this]
        rfl
      | some o =>
        have he : StorageM.assignCopy asserts x x s.st = .ok () s.st := by
          simp [StorageM.assignCopy, bind_def, getObj, hx, pure_def]
        rw [onStorage_ok (s := setMeta x (s.shape x) (s.msize x) s) he]
        refine ainv_step (ch := []) h (Good.refl h.inv _) ?_ (by simp)
        intro z _
        by_cases hz : z = x <;> simp [setMeta, hz]
    · rcases ht with ht | ⟨hx, hy, hz⟩
      · exact absurd ht hxy
      · obtain ⟨hmx, vx, hvx, hlx⟩ := h.whole x hx
        obtain ⟨hmy, vy, hvy, hly⟩ := h.whole y hy
        by_cases hne : vy = []
        · -- the storage of an empty array is not assigned
          subst hne
          rw [List.length_nil] at hly
          obtain ⟨o, ho⟩ := owner_alive hx
          obtain ⟨p, hp, hps, -⟩ := holds_iff.mp hvy
          have he : StorageM.assignCopy asserts x y s.st = .ok () s.st := by
            simp only [StorageM.assignCopy, bind_def, getObj, ho, hp, if_neg hxy]
            rw [if_pos (show p.size = 0 from hps)]
            rfl
          rw [hmy, onStorage_ok (s := setMeta x (s.shape y) (s.shape y).prod s) he]
          exact ainv_one h (Good.refl h.inv _) hvx (by omega)
        · obtain ⟨t, h1, h2, -⟩ := assignCopy_holds (asserts := asserts) h.inv hvx hvy hne (Or.inl hx)
          have g := good_of_ok (asserts := asserts) (c := .assignCopy x y) trivial h.inv (by simp [Cmd.creates]) h1
          rw [hmy, onStorage_ok (s := setMeta x (s.shape y) (s.shape y).prod s) h1]
          exact ainv_one h g h2 hly
  | assignMove x y => exact move_eq h _ (Or.inr rfl)
  | assignExpr x dims vals => exact (assignExpr_ok h ht.1 hw ht.2).1
  | assignOp x dims vals => exact (assignOp_ok h ht.1 hw ht.2).1
  | assignScalar x v =>
    change AOk asserts ((check asserts (decide ((s.shape x).length = 0)) .invalidArgument s).andThen _)
    obtain ⟨hm, vals, hv, hlen⟩ := h.whole x ht.1
    unfold check
    cases hc : (asserts && !decide ((s.shape x).length = 0)) with
    | true => simp only [if_true, ARes.andThen]; exact h
    | false =>
      simp only [Bool.false_eq_true, if_false, ARes.andThen]
      have hpos : 0 < vals.length := by
        cases ha : asserts with
        | false => rw [hlen]; exact ht.2 ha
        | true =>
          rw [ha] at hc
          have : (s.shape x).length = 0 := by simpa using hc
          rw [hlen, List.length_eq_zero_iff.mp this]
          simp
      obtain ⟨t, h1, h2⟩ := writeAt_holds (v := v) hv hpos
      have g := good_of_ok (asserts := asserts) (c := .write x 0 v) trivial h.inv (by simp [Cmd.creates]) h1
      rw [onStorage_ok h1]
      exact ainv_keep h g h2 (by simpa using hlen) hm
  | resize x dims =>
    change AOk asserts ((check asserts (decide (dims.prod = s.msize x)) .assertion s).andThen fun s => .ok (setMeta x dims dims.prod s))
    obtain ⟨hm, vals, hv, hlen⟩ := h.whole x ht.1
    unfold check
    cases hc : (asserts && !decide (dims.prod = s.msize x)) with
    | true => simp only [if_true, ARes.andThen]; exact h
    | false =>
      simp only [Bool.false_eq_true, if_false, ARes.andThen]
      have he : dims.prod = (s.shape x).prod := by
        cases ha : asserts with
        | false => exact ht.2 ha
        | true =>
          rw [ha] at hc
          have : dims.prod = s.msize x := by simpa using hc
          omega
      exact ainv_one h (Good.refl h.inv _) hv (by omega)
  | write x i v =>
    change AOk asserts (onStorage (StorageM.writeAt asserts x i v) s)
    obtain ⟨hm, vals, hv, hlen⟩ := h.whole x ht.1
    by_cases hi : i < vals.length
    · obtain ⟨t, h1, h2⟩ := writeAt_holds (v := v) hv hi
      have g := good_of_ok (asserts := asserts) (c := .write x i v) trivial h.inv (by simp [Cmd.creates]) h1
      rw [onStorage_ok h1]
      exact ainv_keep h g h2 (by simpa using hlen) hm
    · have ha : asserts = true := by
        cases ha : asserts with
        | true => rfl
        | false => exact absurd (ht.2 ha) (by omega)
      subst ha
      obtain ⟨o, hx, hs, -⟩ := holds_iff.mp hv
      have : StorageM.writeAt true x i v s.st = .throw .assertion s.st := by
        simp [StorageM.writeAt, bind_def, getObj, hx, assertThat, show ¬ i < o.size by omega]
      simp only [onStorage, this]
      exact h
  | dtor x => exact dtor_eq h x

end Verif.ContM
