import Verif.Lemmas.Storage

/-! What each storage operation returns, from what its operands hold. -/

namespace Verif.StorageM

variable {α : Type}

theorem readAt_eq {asserts : Bool} {s : St α} {x i b : Nat} {o : Obj} {cs : List (Option α)} {v : Option α} (hx : s.objs x = some o)
    (hb : o.ptr = some b) (hl : LiveAt s b cs) (hi : i < o.size) (hv : cs[i]? = some v) : readAt asserts x i s = .ok v s := by
  unfold LiveAt at hl
  simp [readAt, bind_def, getObj, hx, assertThat, hi, cellsAt, hb, hl, elemAt, hv]

theorem readAt_inv {asserts : Bool} {s : St α} {x i : Nat} {o : Obj} {v : Option α} (hx : s.objs x = some o)
    (h : readAt asserts x i s = .ok v s) : ∃ b cs, o.ptr = some b ∧ LiveAt s b cs ∧ cs[i]? = some v := by
  simp only [readAt, bind_def, getObj, hx, assertThat] at h
  cases ha : (asserts && !decide (i < o.size)) with
  | true => rw [ha] at h; simp at h
  | false =>
    rw [ha] at h
    simp only [Bool.false_eq_true, if_false, cellsAt] at h
    cases hp : o.ptr with
    | none => rw [hp] at h; simp at h
    | some b =>
      rw [hp] at h
      simp only at h
      cases hb : s.blocks[b]? with
      | none => rw [hb] at h; simp at h
      | some blk =>
        rw [hb] at h
        cases blk with
        | freed => simp at h
        | live cs =>
          refine ⟨b, cs, rfl, hb, ?_⟩
          simp only [elemAt] at h
          cases hc : cs[i]? with
          | none => rw [hc] at h; simp at h
          | some w =>
            rw [hc] at h
            simp only [Res.ok.injEq, and_true] at h
            rw [h]

theorem length_le_of_take {cs vals : List (Option α)} (h : cs.take vals.length = vals) : vals.length ≤ cs.length := by
  have := congrArg List.length h
  rw [List.length_take] at this
  omega

/-- `Holds` in terms of the members and the memory. -/
theorem holds_iff {asserts : Bool} {s : St α} {x : Nat} {vals : List (Option α)} :
    Holds asserts s x vals ↔ ∃ o, s.objs x = some o ∧ o.size = vals.length ∧
      (vals ≠ [] → ∃ b cs, o.ptr = some b ∧ LiveAt s b cs ∧ cs.take vals.length = vals) := by
  constructor
  · rintro ⟨h1, h2⟩
    unfold sizeOf? at h1
    cases hx : s.objs x with
    | none => rw [hx] at h1; cases h1
    | some o =>
      rw [hx] at h1
      injection h1 with h1
      refine ⟨o, rfl, h1, ?_⟩
      intro hne
      have hpos : 0 < vals.length := List.length_pos_iff.mpr hne
      obtain ⟨b, cs, hb, hl, -⟩ := readAt_inv hx (h2 0 vals[0] (List.getElem?_eq_getElem hpos))
      refine ⟨b, cs, hb, hl, ?_⟩
      apply List.ext_getElem?
      intro i
      rw [List.getElem?_take]
      by_cases hi : i < vals.length
      · rw [if_pos hi]
        obtain ⟨b', cs', hb', hl', hc⟩ := readAt_inv hx (h2 i vals[i] (List.getElem?_eq_getElem hi))
        rw [hb] at hb'
        injection hb' with hb'
        subst hb'
        unfold LiveAt at hl hl'
        rw [hl] at hl'
        injection hl' with hl'
        injection hl' with hl'
        subst hl'
        rw [hc, List.getElem?_eq_getElem hi]
      · rw [if_neg hi, List.getElem?_eq_none (by omega)]
  · rintro ⟨o, hx, hs, h⟩
    refine ⟨by simp [sizeOf?, hx, hs], ?_⟩
    intro i v hv
    have hi : i < vals.length := by
      by_cases hi : i < vals.length
      · exact hi
      rw [List.getElem?_eq_none (by omega)] at hv
      cases hv
    obtain ⟨b, cs, hb, hl, ht⟩ := h (by intro h0; rw [h0] at hi; simp at hi)
    refine readAt_eq hx hb hl (by omega) ?_
    rw [← ht, List.getElem?_take, if_pos hi] at hv
    exact hv

/-- The state after replacing block `b`. -/
def St.poke (s : St α) (b : Nat) (blk : Block α) : St α := { s with blocks := s.blocks.set b blk }

/-- The state after appending a block. -/
def St.grow (s : St α) (blk : Block α) : St α := { s with blocks := s.blocks ++ [blk] }

theorem alloc_pos {n : Nat} (h : n ≠ 0) (s : St α) :
    safeAllocate n s = .ok (some s.blocks.length) (s.grow (.live (List.replicate n none))) := by simp [safeAllocate, h, St.grow]

theorem alloc_zero (s : St α) : safeAllocate 0 s = .ok none s := rfl

theorem free_live {s : St α} {b : Nat} {cs : List (Option α)} (h : LiveAt s b cs) : safeDeallocate (some b) s = .ok () (s.poke b .freed) := by
  unfold LiveAt at h
  simp [safeDeallocate, h, St.poke]

theorem free_null (s : St α) : safeDeallocate none s = .ok () s := rfl

theorem copyInto_eq {s : St α} {d : Nat} {cd vals : List (Option α)} (hd : LiveAt s d cd) (hl : vals.length ≤ cd.length) :
    copyInto (some d) vals s = .ok () (s.poke d (.live (vals ++ cd.drop vals.length))) := by
  unfold LiveAt at hd
  simp [copyInto, bind_def, cellsAt, hd, boundsCheck, hl, setCells, St.poke]

theorem fastCopy_zero {asserts : Bool} (d p : Option Nat) (s : St α) : fastCopy asserts d p 0 s = .ok () s := rfl

theorem fastCopy_eq {asserts : Bool} {s : St α} {d b n : Nat} {cd cs : List (Option α)} (h0 : n ≠ 0) (hd : LiveAt s d cd)
    (hb : LiveAt s b cs) (h1 : n ≤ cd.length) (h2 : n ≤ cs.length) :
    fastCopy asserts (some d) (some b) n s = .ok () (s.poke d (.live (cs.take n ++ cd.drop n))) := by
  have hc : copyInto (some d) (cs.take n) s = .ok () (s.poke d (.live (cs.take n ++ cd.drop (cs.take n).length))) :=
    copyInto_eq hd (by rw [List.length_take]; omega)
  rw [List.length_take, Nat.min_eq_left h2] at hc
  unfold LiveAt at hb
  simp [fastCopy, h0, bind_def, assertThat, cellsAt, hb, boundsCheck, h2, hc]

theorem liveAt_poke_self {s : St α} {b : Nat} {cs cs' : List (Option α)} (h : LiveAt s b cs) : LiveAt (s.poke b (.live cs')) b cs' := by
  have := liveAt_lt h
  simp [LiveAt, St.poke, this]

theorem liveAt_poke {s : St α} {b c : Nat} {blk : Block α} {cs : List (Option α)} (h : LiveAt s b cs) (hn : c ≠ b) :
    LiveAt (s.poke c blk) b cs := by
  simpa [LiveAt, St.poke, List.getElem?_set, hn] using h

theorem liveAt_grow {s : St α} {b : Nat} {blk : Block α} {cs : List (Option α)} (h : LiveAt s b cs) : LiveAt (s.grow blk) b cs :=
  liveAt_append h _

theorem liveAt_grow_self {s : St α} {cs : List (Option α)} : LiveAt (s.grow (.live cs)) s.blocks.length cs := by
  simp [LiveAt, St.grow]

theorem liveAt_put {s : St α} {b x : Nat} {o : Obj} {cs : List (Option α)} : LiveAt (s.put x o) b cs ↔ LiveAt s b cs := Iff.rfl

/-- `resize` on a storage that holds `vals`. -/
theorem resize_holds {asserts : Bool} {s : St α} (hi : Inv s) {x n : Nat} {vals : List (Option α)} (h : Holds asserts s x vals)
    (hn : asserts = true → 0 < n) (ho : asserts = true → n ≠ vals.length → Owner s x) :
    ∃ s', resize asserts x n s = .ok () s' ∧ Holds asserts s' x (vals.take n ++ List.replicate (n - vals.length) none) := by
  obtain ⟨o, hx, hs, hv⟩ := holds_iff.mp h
  have hpos : (asserts && !decide (0 < n)) = false := by
    cases asserts with
    | false => rfl
    | true => simp [hn rfl]
  by_cases hsame : n = vals.length
  · refine ⟨s, ?_, ?_⟩
    · simp only [resize, bind_def, getObj, hx, assertThat, hpos, Bool.false_eq_true, if_false, if_pos (hsame.trans hs.symm), pure_def]
    · rw [hsame]
      simpa using h
  · have hown : (asserts && !o.owns) = false := by
      cases asserts with
      | false => rfl
      | true =>
        obtain ⟨o', h1, h2⟩ := ho rfl hsame
        rw [hx] at h1
        injection h1 with h1
        subst h1
        simp [h2]
    have hsame' : n ≠ o.size := by omega
    unfold resize
    simp only [bind_def, getObj, hx, assertThat, hpos, Bool.false_eq_true, if_false, hsame', hown]
    by_cases h0 : n = 0
    · subst h0
      simp only [alloc_zero, setObj_eq, Nat.min_zero, fastCopy_zero]
      cases hp : o.ptr with
      | none =>
        refine ⟨_, rfl, holds_iff.mpr ⟨_, put_self _ _ _, by simp, ?_⟩⟩
        simp
      | some b =>
        obtain ⟨cs, hl⟩ := hi.live x o b hx hp
        rw [free_live (liveAt_put.mpr hl)]
        refine ⟨_, rfl, holds_iff.mpr ⟨_, put_self _ _ _, by simp, ?_⟩⟩
        simp
    · simp only [alloc_pos h0, setObj_eq]
      have hnew : LiveAt ((s.grow (.live (List.replicate n none))).put x ⟨some s.blocks.length, n, o.owns⟩) s.blocks.length
          (List.replicate n none) := liveAt_grow_self
      by_cases hve : vals = []
      · subst hve
        rw [List.length_nil] at hs
        rw [hs, Nat.zero_min, fastCopy_zero]
        simp only
        have fin : ∀ s' : St α, s'.objs x = some ⟨some s.blocks.length, n, o.owns⟩ →
            LiveAt s' s.blocks.length (List.replicate n none) →
            Holds asserts s' x (List.take n [] ++ List.replicate (n - ([] : List (Option α)).length) none) := by
          intro s' h1 h2
          refine holds_iff.mpr ⟨_, h1, by simp, ?_⟩
          intro _
          exact ⟨_, _, rfl, h2, by simp⟩
        cases hp : o.ptr with
        | none => exact ⟨_, rfl, fin _ (put_self _ _ _) hnew⟩
        | some b =>
          obtain ⟨cs, hl⟩ := hi.live x o b hx hp
          have hbn : b ≠ s.blocks.length := by have := liveAt_lt hl; omega
          rw [free_live (liveAt_put.mpr (liveAt_grow hl))]
          exact ⟨_, rfl, fin _ (put_self _ _ _) (liveAt_poke hnew hbn)⟩
      · obtain ⟨b, cs, hp, hl, ht⟩ := hv hve
        have hbn : b ≠ s.blocks.length := by have := liveAt_lt hl; omega
        have hlen : vals.length ≤ cs.length := length_le_of_take ht
        have hvpos : 0 < vals.length := List.length_pos_iff.mpr hve
        have hl1 : LiveAt ((s.grow (.live (List.replicate n none))).put x ⟨some s.blocks.length, n, o.owns⟩) b cs :=
          liveAt_put.mpr (liveAt_grow hl)
        rw [hp, fastCopy_eq (by omega) hnew hl1 (by rw [List.length_replicate]; omega) (by omega)]
        simp only
        rw [free_live (liveAt_poke hl1 (Ne.symm hbn))]
        refine ⟨_, rfl, holds_iff.mpr ⟨_, put_self _ _ _, ?_, ?_⟩⟩
        · simp only [List.length_append, List.length_take, List.length_replicate]; omega
        · intro _
          refine ⟨_, _, rfl, liveAt_poke (liveAt_poke_self hnew) hbn, ?_⟩
          have e : cs.take (min o.size n) = vals.take n := by
            rw [Nat.min_comm, ← List.take_take, hs, ht]
          rw [e, List.drop_replicate, List.take_of_length_le]
          · congr 2; omega
          · simp only [List.length_append, List.length_take, List.length_replicate]; omega

/-- `resize` in the discard form. -/
theorem resizeDiscard_size {asserts : Bool} {s : St α} (hi : Inv s) {x n : Nat} {o : Obj} (hx : s.objs x = some o)
    (hn : asserts = true → 0 < n) (ho : asserts = true → n ≠ o.size → o.owns = true) :
    ∃ s', resizeDiscard asserts x n s = .ok () s' ∧ sizeOf? s' x = some n ∧
      (n ≠ o.size → Holds asserts s' x (List.replicate n none)) := by
  have hpos : (asserts && !decide (0 < n)) = false := by
    cases asserts with
    | false => rfl
    | true => simp [hn rfl]
  by_cases hsame : n = o.size
  · refine ⟨s, ?_, by simp [sizeOf?, hx, hsame], fun h => absurd hsame h⟩
    simp only [resizeDiscard, bind_def, getObj, hx, assertThat, hpos, Bool.false_eq_true, if_false, if_pos hsame.symm, pure_def]
  · have hown : (asserts && !o.owns) = false := by
      cases asserts with
      | false => rfl
      | true => simp [ho rfl hsame]
    have hsame' : ¬ o.size = n := fun h => hsame h.symm
    unfold resizeDiscard
    simp only [bind_def, getObj, hx, assertThat, hpos, Bool.false_eq_true, if_false, hsame', hown]
    have fin : ∀ s' : St α, ∀ p, s'.objs x = some ⟨p, n, o.owns⟩ → (n ≠ 0 → ∃ b, p = some b ∧ LiveAt s' b (List.replicate n none)) →
        sizeOf? s' x = some n ∧ (n ≠ o.size → Holds asserts s' x (List.replicate n none)) := by
      intro s' p h1 h2
      refine ⟨by simp [sizeOf?, h1], fun _ => holds_iff.mpr ⟨_, h1, by simp, ?_⟩⟩
      intro hne
      obtain ⟨b, hb, hl⟩ := h2 (by rintro rfl; simp at hne)
      exact ⟨b, _, hb, hl, by simp⟩
    by_cases h0 : n = 0
    · subst h0
      simp only [alloc_zero, setObj_eq]
      cases hp : o.ptr with
      | none => exact ⟨_, rfl, fin _ _ (put_self _ _ _) (fun h => absurd rfl h)⟩
      | some b =>
        obtain ⟨cs, hl⟩ := hi.live x o b hx hp
        rw [free_live (liveAt_put.mpr hl)]
        exact ⟨_, rfl, fin _ _ (put_self _ _ _) (fun h => absurd rfl h)⟩
    · simp only [alloc_pos h0, setObj_eq]
      have hnew : LiveAt ((s.grow (.live (List.replicate n none))).put x ⟨some s.blocks.length, n, o.owns⟩) s.blocks.length
          (List.replicate n none) := liveAt_grow_self
      cases hp : o.ptr with
      | none => exact ⟨_, rfl, fin _ _ (put_self _ _ _) (fun _ => ⟨_, rfl, hnew⟩)⟩
      | some b =>
        obtain ⟨cs, hl⟩ := hi.live x o b hx hp
        have hbn : b ≠ s.blocks.length := by have := liveAt_lt hl; omega
        rw [free_live (liveAt_put.mpr (liveAt_grow hl))]
        exact ⟨_, rfl, fin _ _ (put_self _ _ _) (fun _ => ⟨_, rfl, liveAt_poke hnew hbn⟩)⟩

/-- Copying from `y` into a fresh variable. -/
theorem initFrom_holds {asserts : Bool} {s : St α} {x y : Nat} (hxy : x ≠ y) {o : Obj} {vals : List (Option α)} (hy : s.objs y = some o)
    (hx : s.objs x = some ⟨none, o.size, true⟩ ∨ s.objs x = some fresh)
    (hs : o.size = vals.length) (hne : vals ≠ []) (h : ∃ b cs, o.ptr = some b ∧ LiveAt s b cs ∧ cs.take vals.length = vals) :
    ∃ s', initFrom asserts x o.ptr o.size s = .ok () s' ∧ Holds asserts s' x vals ∧ Holds asserts s' y vals := by
  obtain ⟨b, cs, hp, hl, ht⟩ := h
  have hvpos : 0 < vals.length := List.length_pos_iff.mpr hne
  have hlen : vals.length ≤ cs.length := length_le_of_take ht
  have hbn : b ≠ s.blocks.length := by have := liveAt_lt hl; omega
  have hnew : LiveAt ((s.grow (.live (List.replicate o.size none))).put x ⟨some s.blocks.length, o.size, true⟩) s.blocks.length
      (List.replicate o.size none) := liveAt_grow_self
  have hl1 : LiveAt ((s.grow (.live (List.replicate o.size none))).put x ⟨some s.blocks.length, o.size, true⟩) b cs :=
    liveAt_put.mpr (liveAt_grow hl)
  have hz : o.size ≠ 0 := by omega
  unfold initFrom
  rw [if_neg (by rw [hp]; simp [hz])]
  simp only [bind_def, alloc_pos hz, setObj_eq]
  rw [hp, fastCopy_eq hz hnew hl1 (by simp) (by omega)]
  refine ⟨_, rfl, holds_iff.mpr ⟨_, put_self _ _ _, hs, ?_⟩, holds_iff.mpr ⟨o, (put_other _ _ (Ne.symm hxy)).trans hy, hs, ?_⟩⟩
  · intro _
    refine ⟨_, _, rfl, liveAt_poke_self hnew, ?_⟩
    rw [hs, ht]
    simp
  · intro _
    exact ⟨b, cs, hp, liveAt_poke hl1 (Ne.symm hbn), ht⟩

/-- Copy construction. -/
theorem ctorCopy_holds {asserts : Bool} {s : St α} {x y : Nat} (hxy : x ≠ y) {vals : List (Option α)} (h : Holds asserts s y vals) :
    ∃ s', ctorCopy asserts x y s = .ok () s' ∧ Holds asserts s' x vals ∧ Holds asserts s' y vals := by
  obtain ⟨o, hy, hs, hv⟩ := holds_iff.mp h
  unfold ctorCopy
  simp only [bind_def, getObj, hy, setObj_eq]
  by_cases hne : vals = []
  · subst hne
    rw [if_pos (show o.size = 0 from hs)]
    refine ⟨_, rfl, holds_iff.mpr ⟨_, put_self _ _ _, hs, by simp⟩,
      holds_iff.mpr ⟨o, (put_other _ _ (Ne.symm hxy)).trans hy, hs, by simp⟩⟩
  · have hvpos : 0 < vals.length := List.length_pos_iff.mpr hne
    rw [if_neg (by omega)]
    exact initFrom_holds hxy ((put_other _ _ (Ne.symm hxy)).trans hy) (Or.inl (put_self _ _ _)) hs hne (hv hne)

/-- `copy()`. -/
theorem copyOf_holds {asserts : Bool} {s : St α} {x y : Nat} (hxy : x ≠ y) {vals : List (Option α)} (h : Holds asserts s y vals) :
    ∃ s', copyOf asserts x y s = .ok () s' ∧ Holds asserts s' x vals ∧ Holds asserts s' y vals := by
  obtain ⟨o, hy, hs, hv⟩ := holds_iff.mp h
  unfold copyOf
  simp only [bind_def, getObj, hy, setObj_eq]
  by_cases hne : vals = []
  · subst hne
    unfold initFrom
    rw [if_pos (Or.inr (show o.size = 0 from hs))]
    refine ⟨_, rfl, holds_iff.mpr ⟨_, put_self _ _ _, rfl, by simp⟩,
      holds_iff.mpr ⟨o, (put_other _ _ (Ne.symm hxy)).trans hy, hs, by simp⟩⟩
  · exact initFrom_holds hxy ((put_other _ _ (Ne.symm hxy)).trans hy) (Or.inr (put_self _ _ _)) hs hne (hv hne)

/-- Copy assignment from a storage that is not empty. -/
theorem assignCopy_holds {asserts : Bool} {s : St α} (hi : Inv s) {x y : Nat} {vx vy : List (Option α)} (hx : Holds asserts s x vx)
    (hy : Holds asserts s y vy) (hne : vy ≠ []) (ho : Owner s x ∨ vx.length = vy.length) :
    ∃ s', assignCopy asserts x y s = .ok () s' ∧ Holds asserts s' x vy ∧ Holds asserts s' y vy := by
  obtain ⟨o, hox, hsx, hvx⟩ := holds_iff.mp hx
  obtain ⟨p, hoy, hsy, hvy⟩ := holds_iff.mp hy
  obtain ⟨b, cs, hp, hl, ht⟩ := hvy hne
  have hvpos : 0 < vy.length := List.length_pos_iff.mpr hne
  have hlen : vy.length ≤ cs.length := length_le_of_take ht
  unfold assignCopy
  simp only [bind_def, getObj, hox, hoy]
  by_cases hxy : x = y
  · subst hxy
    rw [if_pos rfl]
    exact ⟨s, rfl, hy, hy⟩
  · rw [if_neg hxy, if_neg (by omega)]
    simp only [setObj_eq, bind_def]
    by_cases hsz : o.size = p.size
    · unfold reallocate
      simp only [hsz, ne_eq, not_true_eq_false, if_false, pure_def, getObj, put_self]
      obtain ⟨d, cd, hd, hld, hdt⟩ := hvx (by intro h0; subst h0; simp at hsx; omega)
      have hdb : d ≠ b := by
        rintro rfl
        exact hxy (hi.uniq x y o p d hox hoy hd hp)
      have hlend : vx.length ≤ cd.length := length_le_of_take hdt
      rw [hd, hp, fastCopy_eq (by omega) (liveAt_put.mpr hld) (liveAt_put.mpr hl) (by omega) (by omega)]
      refine ⟨_, rfl, holds_iff.mpr ⟨_, put_self _ _ _, hsy, ?_⟩, holds_iff.mpr ⟨p, (put_other _ _ (Ne.symm hxy)).trans hoy, hsy, ?_⟩⟩
      · intro _
        refine ⟨d, _, rfl, liveAt_poke_self (liveAt_put.mpr hld), ?_⟩
        rw [hsy, ht]
        simp
      · intro _
        exact ⟨b, cs, hp, liveAt_poke (liveAt_put.mpr hl) hdb, ht⟩
    · have hown : o.owns = true := by
        rcases ho with ⟨o', h1, h2⟩ | h1
        · rw [hox] at h1
          injection h1 with h1
          subst h1
          exact h2
        · omega
      have hz : p.size ≠ 0 := by omega
      unfold reallocate
      simp only [ne_eq, hsz, not_false_eq_true, if_true, hown, bind_def, getObj]
      -- after the old memory of `x` is gone, `y` is as before
      have key : ∀ s1 : St α, LiveAt s1 b cs → s1.objs y = some p →
          ∃ s', fastCopy asserts (some s1.blocks.length) p.ptr p.size
            ((s1.grow (.live (List.replicate p.size none))).put x ⟨some s1.blocks.length, p.size, true⟩) = Res.ok () s' ∧
            Holds asserts s' x vy ∧ Holds asserts s' y vy := by
        intro s1 hl1 hy1
        have hbn : b ≠ s1.blocks.length := by have := liveAt_lt hl1; omega
        have hnew : LiveAt ((s1.grow (.live (List.replicate p.size none))).put x ⟨some s1.blocks.length, p.size, true⟩) s1.blocks.length
            (List.replicate p.size none) := liveAt_grow_self
        have hl2 : LiveAt ((s1.grow (.live (List.replicate p.size none))).put x ⟨some s1.blocks.length, p.size, true⟩) b cs :=
          liveAt_put.mpr (liveAt_grow hl1)
        rw [hp, fastCopy_eq hz hnew hl2 (by simp) (by omega)]
        refine ⟨_, rfl, holds_iff.mpr ⟨_, put_self _ _ _, hsy, ?_⟩, holds_iff.mpr ⟨p, (put_other _ _ (Ne.symm hxy)).trans hy1, hsy, ?_⟩⟩
        · intro _
          refine ⟨_, _, rfl, liveAt_poke_self hnew, ?_⟩
          rw [hsy, ht]
          simp
        · intro _
          exact ⟨b, cs, hp, liveAt_poke hl2 (Ne.symm hbn), ht⟩
      cases hq : o.ptr with
      | none =>
        simp only [free_null, alloc_pos hz, setObj_eq, put_self]
        exact key _ (liveAt_put.mpr hl) ((put_other _ _ (Ne.symm hxy)).trans hoy)
      | some d =>
        obtain ⟨cd, hld⟩ := hi.live x o d hox hq
        have hdb : d ≠ b := by
          rintro rfl
          exact hxy (hi.uniq x y o p d hox hoy hq hp)
        simp only [free_live (liveAt_put.mpr hld), alloc_pos hz, setObj_eq, put_self]
        exact key _ (liveAt_poke (liveAt_put.mpr hl) hdb) ((put_other _ _ (Ne.symm hxy)).trans hoy)

/-- Values copied into a fresh block. -/
theorem fastCopyVals_holds {asserts : Bool} {s : St α} {x : Nat} {vals : List (Option α)} (hne : vals ≠ []) :
    ∃ s', fastCopyVals asserts (some s.blocks.length) vals
      ((s.grow (.live (List.replicate vals.length none))).put x ⟨some s.blocks.length, vals.length, true⟩) = .ok () s' ∧
      Holds asserts s' x vals := by
  have hnew : LiveAt ((s.grow (.live (List.replicate vals.length none))).put x ⟨some s.blocks.length, vals.length, true⟩)
      s.blocks.length (List.replicate vals.length none) := liveAt_grow_self
  unfold fastCopyVals
  rw [if_neg hne]
  have ha : ∀ s : St α, assertThat asserts true s = .ok () s := by intro s; simp [assertThat]
  simp only [bind_def, Option.isSome_some, ha]
  rw [copyInto_eq hnew (by simp)]
  refine ⟨_, rfl, holds_iff.mpr ⟨_, put_self _ _ _, rfl, ?_⟩⟩
  intro _
  exact ⟨_, _, rfl, liveAt_poke_self hnew, by simp⟩

theorem ctorList_holds {asserts : Bool} {s : St α} {x : Nat} {vals : List α} :
    ∃ s', ctorList asserts x vals s = .ok () s' ∧ Holds asserts s' x (vals.map some) := by
  unfold ctorList
  simp only [bind_def, setObj_eq, initVals]
  by_cases hne : vals = []
  · subst hne
    exact ⟨_, rfl, holds_iff.mpr ⟨_, put_self _ _ _, rfl, by simp⟩⟩
  · have hz : vals.length ≠ 0 := fun h => hne (List.length_eq_zero_iff.mp h)
    rw [if_neg hne]
    simp only [bind_def, alloc_pos hz, setObj_eq]
    have := fastCopyVals_holds (asserts := asserts) (s := s.put x fresh) (x := x) (vals := vals.map some) (by simpa using hne)
    rw [List.length_map] at this
    exact this

theorem ctorFill_holds {asserts : Bool} {s : St α} {x n : Nat} {v : α} :
    ∃ s', ctorFill asserts x n v s = .ok () s' ∧ Holds asserts s' x (List.replicate n (some v)) := by
  unfold ctorFill
  simp only [bind_def]
  by_cases hz : n = 0
  · subst hz
    exact ⟨_, rfl, holds_iff.mpr ⟨_, put_self _ _ _, rfl, by simp⟩⟩
  · simp only [alloc_pos hz, setObj_eq]
    have := fastCopyVals_holds (asserts := asserts) (s := s) (x := x) (vals := List.replicate n (some v))
      (by intro h; exact hz (by simpa using congrArg List.length h))
    rw [List.length_replicate] at this
    exact this

theorem ctorSize_holds {asserts : Bool} {s : St α} {x n : Nat} :
    ∃ s', ctorSize x n s = .ok () s' ∧ Holds asserts s' x (List.replicate n none) := by
  unfold ctorSize
  simp only [bind_def]
  by_cases hz : n = 0
  · subst hz
    exact ⟨_, rfl, holds_iff.mpr ⟨_, put_self _ _ _, rfl, by simp⟩⟩
  · simp only [alloc_pos hz, setObj_eq]
    refine ⟨_, rfl, holds_iff.mpr ⟨_, put_self _ _ _, by simp, ?_⟩⟩
    intro _
    exact ⟨_, _, rfl, liveAt_put.mpr liveAt_grow_self, by simp⟩

theorem writeAt_holds {asserts : Bool} {s : St α} {x i : Nat} {v : α} {vals : List (Option α)} (h : Holds asserts s x vals)
    (hi : i < vals.length) : ∃ s', writeAt asserts x i v s = .ok () s' ∧ Holds asserts s' x (vals.set i (some v)) := by
  obtain ⟨o, hx, hs, hv⟩ := holds_iff.mp h
  obtain ⟨b, cs, hp, hl, ht⟩ := hv (by rintro rfl; simp at hi)
  have hlen : vals.length ≤ cs.length := length_le_of_take ht
  have hl' := hl
  unfold LiveAt at hl'
  have e : writeAt asserts x i v s = .ok () (s.poke b (.live (cs.set i (some v)))) := by
    simp [writeAt, bind_def, getObj, hx, assertThat, show i < o.size by omega, cellsAt, hp, hl', boundsCheck,
      show i < cs.length by omega, setCells, St.poke]
  refine ⟨_, e, holds_iff.mpr ⟨o, hx, by simpa using hs, ?_⟩⟩
  intro _
  refine ⟨b, _, hp, liveAt_poke_self hl, ?_⟩
  rw [List.length_set, List.take_set, ht]

theorem ctorMove_holds {asserts : Bool} {s : St α} {x y : Nat} (hxy : x ≠ y) {vals : List (Option α)} (h : Holds asserts s y vals) :
    ∃ s', ctorMove x y s = .ok () s' ∧ Holds asserts s' x vals ∧ Holds asserts s' y [] := by
  obtain ⟨o, hy, hs, hv⟩ := holds_iff.mp h
  unfold ctorMove
  simp only [bind_def, getObj, hy, setObj_eq]
  exact ⟨_, rfl, holds_iff.mpr ⟨o, (put_other _ _ hxy).trans (put_self _ _ _), hs, hv⟩,
    holds_iff.mpr ⟨_, put_self _ _ _, rfl, by simp⟩⟩

theorem assignMove_holds {asserts : Bool} {s : St α} {x y : Nat} (hxy : x ≠ y) {vals : List (Option α)} {o : Obj}
    (hx : s.objs x = some o) (h : Holds asserts s y vals) :
    ∃ s', assignMove x y s = .ok () s' ∧ Holds asserts s' x vals ∧ Holds asserts s' y [] := by
  obtain ⟨o', hy, hs, hv⟩ := holds_iff.mp h
  unfold assignMove
  simp only [bind_def, getObj, hy, hx, if_neg hxy, setObj_eq]
  exact ⟨_, rfl, holds_iff.mpr ⟨o', (put_other _ _ hxy).trans (put_self _ _ _), hs, hv⟩,
    holds_iff.mpr ⟨_, put_self _ _ _, rfl, by simp⟩⟩

end Verif.StorageM
