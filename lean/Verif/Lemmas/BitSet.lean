import Verif.Model.BitSet

/-! Helper lemmas about the `BitSet` model. -/

namespace Verif

theorem forUp_preserve {σ : Type u} (P : σ → Prop) {lo hi : Nat} {body : Nat → σ → Out σ} {s s' : σ}
    (hb : ∀ i s s', P s → body i s = .ok s' → P s') (h0 : P s) (h : forUp lo hi body s = .ok s') : P s' := by
  induction hn : hi - lo generalizing lo s with
  | zero => rw [forUp_ge (by omega)] at h; cases h; exact h0
  | succ n ih =>
    rw [forUp, if_pos (by omega)] at h
    cases hc : body lo s with
    | ok t => rw [hc] at h; exact ih (hb lo s t h0 hc) h (by omega)
    | throw e => rw [hc] at h; cases h
    | ub => rw [hc] at h; cases h

theorem writeAt_length {d d' : List α} {i : Int} {v : α} (h : writeAt d i v = .ok d') : d'.length = d.length := by
  unfold writeAt at h
  split at h
  · cases h; simp
  · cases h

end Verif

namespace Verif.BitSetM

/-- Bit `i` of a word array; bits beyond the last word count as false. -/
def bitAt (ws : List W) (i : Nat) : Bool :=
  match ws[i / 64]? with
  | some w => w.getLsbD (i % 64)
  | .none => false

theorem bitAt_lt {ws : List W} {i : Nat} (h : i / 64 < ws.length) :
    bitAt ws i = (ws[i / 64]).getLsbD (i % 64) := by
  unfold bitAt; rw [List.getElem?_eq_getElem h]

theorem bitAt_ge {ws : List W} {i : Nat} (h : ws.length ≤ i / 64) : bitAt ws i = false := by
  unfold bitAt; rw [List.getElem?_eq_none h]

theorem bitAt_set (ws : List W) (k : Nat) (w : W) (i : Nat) (hk : k < ws.length) :
    bitAt (ws.set k w) i = if i / 64 = k then w.getLsbD (i % 64) else bitAt ws i := by
  unfold bitAt
  rw [List.getElem?_set]
  by_cases h : k = i / 64
  · subst h; simp [hk]
  · rw [if_neg h, if_neg (Ne.symm h)]

theorem bitAt_word (ws : List W) (k j : Nat) (hk : k < ws.length) (hj : j < 64) :
    bitAt ws (64 * k + j) = (ws[k]).getLsbD j := by
  have h1 : (64 * k + j) / 64 = k := by omega
  have h2 : (64 * k + j) % 64 = j := by omega
  unfold bitAt
  rw [h1, h2, List.getElem?_eq_getElem hk]

theorem mask_getLsbD (k j : Nat) (hk : k < 64) : (1#64 <<< k).getLsbD j = decide (j = k) := by
  rw [BitVec.getLsbD_shiftLeft, BitVec.getLsbD_one]
  by_cases h : j = k
  · subst h; simp [hk]
  · simp [h]; intros; omega

theorem and_mask_ne_zero (w : W) (k : Nat) (hk : k < 64) : ((w &&& (1#64 <<< k)) != 0) = w.getLsbD k := by
  cases hb : w.getLsbD k with
  | false =>
    have : w &&& (1#64 <<< k) = 0 := by
      apply BitVec.eq_of_getLsbD_eq
      intro i hi
      rw [BitVec.getLsbD_and, mask_getLsbD _ _ hk]
      by_cases h : i = k
      · subst h; simp [hb]
      · simp [h]
    simp [this]
  | true =>
    have : w &&& (1#64 <<< k) ≠ 0 := by
      intro h
      have := congrArg (fun v => BitVec.getLsbD v k) h
      simp only [BitVec.getLsbD_and, mask_getLsbD _ _ hk, hb] at this
      simp at this
    simpa using this

theorem get_ok {n : Nat} (s : BS n) (i : Nat) (h : i / 64 < s.words.length) :
    get s i = .ok (bitAt s.words i) := by
  unfold get
  rw [readAt_nat _ _ h, bitAt_lt h, Out.ok_bind, and_mask_ne_zero _ _ (Nat.mod_lt _ (by omega))]
  rfl

theorem get_ub {n : Nat} (s : BS n) (i : Nat) (h : s.words.length ≤ i / 64) : get s i = .ub := by
  unfold get readAt
  rw [if_pos (by omega), Int.toNat_natCast, List.getElem?_eq_none h]
  rfl

theorem setBit_ok (ws : List W) (i : Nat) (v : Bool) (h : i / 64 < ws.length) :
    ∃ ws', setBit ws i v = .ok ws' ∧ ws'.length = ws.length ∧
      ∀ j, bitAt ws' j = if j = i then v else bitAt ws j := by
  have hm : i % 64 < 64 := Nat.mod_lt _ (by omega)
  have key : ∀ j, j / 64 = i / 64 → bitAt ws j = (ws[i / 64]).getLsbD (j % 64) := by
    intro j hj
    rw [bitAt_lt (by omega)]; congr 1; simp [hj]
  have hij : ∀ j, j / 64 = i / 64 → (j % 64 = i % 64 ↔ j = i) := by intro j hj; omega
  unfold setBit
  rw [readAt_nat _ _ h, Out.ok_bind]
  cases v with
  | true =>
    refine ⟨_, writeAt_nat _ _ _ h, by simp, ?_⟩
    intro j
    rw [bitAt_set _ _ _ _ h]
    split
    · rename_i hj
      rw [BitVec.getLsbD_or, mask_getLsbD _ _ hm, key j hj]
      by_cases e : j = i
      · subst e; simp
      · have : ¬ j % 64 = i % 64 := fun h => e ((hij j hj).1 h)
        simp [e, this]
    · rename_i hj
      rw [if_neg (fun e => hj (by rw [e]))]
  | false =>
    refine ⟨_, writeAt_nat _ _ _ h, by simp, ?_⟩
    intro j
    rw [bitAt_set _ _ _ _ h]
    split
    · rename_i hj
      rw [BitVec.getLsbD_and, BitVec.getLsbD_not, mask_getLsbD _ _ hm, key j hj]
      have hj64 : j % 64 < 64 := Nat.mod_lt _ (by omega)
      by_cases e : j = i
      · subst e; simp
      · have : ¬ j % 64 = i % 64 := fun h => e ((hij j hj).1 h)
        simp [e, this, hj64]
    · rename_i hj
      rw [if_neg (fun e => hj (by rw [e]))]

theorem setBit_length {ws ws' : List W} {i : Nat} {v : Bool} (h : setBit ws i v = .ok ws') :
    ws'.length = ws.length := by
  unfold setBit at h
  obtain ⟨w, _, h⟩ := Out.bind_eq_ok.1 h
  split at h <;> exact writeAt_length h

/-- A loop of `setBit` over `[lo, hi)`. -/
theorem setLoop_ok (ws : List W) (lo hi : Nat) (v : Bool) (h : hi ≤ 64 * ws.length) :
    ∃ ws', forUp lo hi (fun i ws => setBit ws i v) ws = .ok ws' ∧ ws'.length = ws.length ∧
      ∀ j, bitAt ws' j = if lo ≤ j ∧ j < hi then v else bitAt ws j := by
  rcases Nat.lt_or_ge hi lo with hlt | hle
  · exact ⟨ws, forUp_ge (by omega), rfl, fun j => by rw [if_neg (by omega)]⟩
  · apply forUp_inv (P := fun k ws' => ws'.length = ws.length ∧
      ∀ j, bitAt ws' j = if lo ≤ j ∧ j < k then v else bitAt ws j) hle
    · exact ⟨rfl, fun j => by rw [if_neg (by omega)]⟩
    · rintro i s h1 h2 ⟨hl, hb⟩
      obtain ⟨s', e, hl', hb'⟩ := setBit_ok s i v (by omega)
      refine ⟨s', e, by omega, ?_⟩
      intro j
      rw [hb', hb]
      by_cases e : j = i
      · subst e; rw [if_pos rfl, if_pos (by omega)]
      · rw [if_neg e]
        by_cases c : lo ≤ j ∧ j < i
        · rw [if_pos c, if_pos (by omega)]
        · rw [if_neg c, if_neg (by omega)]

/-- A loop writing a constant word over `[lo, hi)`. -/
theorem fillLoop_ok (ws : List W) (lo hi : Nat) (w : W) (h : hi ≤ ws.length) :
    ∃ ws', forUp lo hi (fun i ws => writeAt ws (i : Nat) w) ws = .ok ws' ∧ ws'.length = ws.length ∧
      ∀ k, ws'[k]? = if lo ≤ k ∧ k < hi then some w else ws[k]? := by
  rcases Nat.lt_or_ge hi lo with hlt | hle
  · exact ⟨ws, forUp_ge (by omega), rfl, fun j => by rw [if_neg (by omega)]⟩
  · apply forUp_inv (P := fun m (ws' : List W) => ws'.length = ws.length ∧
      ∀ k, ws'[k]? = if lo ≤ k ∧ k < m then some w else ws[k]?) hle
    · exact ⟨rfl, fun j => by rw [if_neg (by omega)]⟩
    · rintro i s h1 h2 ⟨hl, hb⟩
      refine ⟨_, writeAt_nat _ _ _ (by omega), by simp [hl], ?_⟩
      intro k
      rw [List.getElem?_set, hb]
      by_cases e : i = k
      · subst e; rw [if_pos rfl, if_pos (by omega), if_pos (by omega)]
      · rw [if_neg e]
        by_cases c : lo ≤ k ∧ k < i
        · rw [if_pos c, if_pos (by omega)]
        · rw [if_neg c, if_neg (by omega)]

theorem fillLoop_bits (ws : List W) (lo hi : Nat) (w : W) (h : hi ≤ ws.length) :
    ∃ ws', forUp lo hi (fun i ws => writeAt ws (i : Nat) w) ws = .ok ws' ∧ ws'.length = ws.length ∧
      ∀ j, bitAt ws' j = if lo ≤ j / 64 ∧ j / 64 < hi then w.getLsbD (j % 64) else bitAt ws j := by
  obtain ⟨ws', e, hl, hk⟩ := fillLoop_ok ws lo hi w h
  refine ⟨ws', e, hl, ?_⟩
  intro j
  unfold bitAt
  rw [hk]
  by_cases c : lo ≤ j / 64 ∧ j / 64 < hi
  · rw [if_pos c, if_pos c]
  · rw [if_neg c, if_neg c]

theorem setRangeCore_ok (ws : List W) (a b : Nat) (v : Bool) (hab : a ≤ b) (h : b ≤ 64 * ws.length) :
    ∃ ws', setRangeCore ws a b v = .ok ws' ∧ ws'.length = ws.length ∧
      ∀ j, bitAt ws' j = if min a (64 * (b / 64)) ≤ j ∧ j < b then v else bitAt ws j := by
  obtain ⟨w1, e1, l1, b1⟩ := setLoop_ok ws a (min b ((a / 64 + 1) * 64)) v (by omega)
  obtain ⟨w2, e2, l2, b2⟩ := fillLoop_bits w1 (a / 64 + 1) (b / 64) (if v then BitVec.allOnes 64 else 0) (by omega)
  obtain ⟨w3, e3, l3, b3⟩ := setLoop_ok w2 (b / 64 * 64) b v (by omega)
  refine ⟨w3, ?_, by omega, ?_⟩
  · unfold setRangeCore
    simp only [e1, Out.ok_bind]
    rw [e2]
    simp only [Out.ok_bind]
    exact e3
  · intro j
    have hv : (if v then BitVec.allOnes 64 else 0 : W).getLsbD (j % 64) = v := by
      have : j % 64 < 64 := Nat.mod_lt _ (by omega)
      cases v
      · simp
      · rw [if_pos rfl, BitVec.getLsbD_allOnes]; simpa using this
    rw [b3, b2, b1, hv]
    by_cases c3 : b / 64 * 64 ≤ j ∧ j < b
    · rw [if_pos c3, if_pos (by omega)]
    · rw [if_neg c3]
      by_cases c2 : a / 64 + 1 ≤ j / 64 ∧ j / 64 < b / 64
      · rw [if_pos c2, if_pos (by omega)]
      · rw [if_neg c2]
        by_cases c1 : a ≤ j ∧ j < min b ((a / 64 + 1) * 64)
        · rw [if_pos c1, if_pos (by omega)]
        · rw [if_neg c1, if_neg (by omega)]

theorem setRangeCore_length {ws ws' : List W} {a b : Nat} {v : Bool} (h : setRangeCore ws a b v = .ok ws') :
    ws'.length = ws.length := by
  unfold setRangeCore at h
  obtain ⟨w1, e1, h⟩ := Out.bind_eq_ok.1 h
  obtain ⟨w2, e2, h⟩ := Out.bind_eq_ok.1 h
  have l1 := forUp_preserve (fun s => s.length = ws.length) (fun i s s' hs he => (setBit_length he).trans hs) rfl e1
  have l2 := forUp_preserve (fun s => s.length = ws.length) (fun i s s' hs he => (writeAt_length he).trans hs) l1 e2
  exact forUp_preserve (fun s => s.length = ws.length) (fun i s s' hs he => (setBit_length he).trans hs) l2 h

/-- Word-wise combination of two arrays. -/
theorem zipWords_ok (op : W → W → W) (n m : Nat) (a b : List W) (ha : a.length = numElements n)
    (hb : b.length = numElements m) :
    ∃ ws', zipWords op n m a b = .ok ws' ∧ ws'.length = a.length ∧
      ∀ k : Nat, ws'[k]? = match a[k]?, b[k]? with
        | some x, some y => some (op x y)
        | x, _ => x := by
  unfold zipWords
  obtain ⟨w, e, hl, hk⟩ := forUp_inv (P := fun j (ws' : List W) => ws'.length = a.length ∧
      ∀ k : Nat, ws'[k]? = match a[k]?, b[k]? with
        | some x, some y => if k < j then some (op x y) else some x
        | x, _ => x) (lo := 0) (hi := min (numElements n) (numElements m))
      (body := fun i ws => do
        let x ← readAt ws (i : Nat)
        let y ← readAt b (i : Nat)
        writeAt ws (i : Nat) (op x y)) (s := a) (by omega)
      ⟨rfl, by intro k; cases a[k]? <;> cases b[k]? <;> simp⟩
      (by
        rintro i s _ h2 ⟨hl, hk⟩
        have hia : i < a.length := by omega
        have hib : i < b.length := by omega
        have his : i < s.length := by omega
        have hsi : s[i] = a[i] := by
          have := hk i
          rw [List.getElem?_eq_getElem his, List.getElem?_eq_getElem hia, List.getElem?_eq_getElem hib] at this
          simpa using this
        refine ⟨s.set i (op a[i] b[i]), ?_, by simp [hl], ?_⟩
        · rw [readAt_nat _ _ his, readAt_nat _ _ hib]
          simp only [Out.ok_bind, hsi]
          exact writeAt_nat _ _ _ his
        · intro k
          rw [List.getElem?_set]
          by_cases e : i = k
          · subst e
            rw [if_pos rfl, if_pos his, List.getElem?_eq_getElem hia, List.getElem?_eq_getElem hib]
            simp
          · rw [if_neg e, hk]
            cases a[k]? <;> cases b[k]? <;> simp
            have : (k < i) = (k < i + 1) := by simp; omega
            simp [this])
  refine ⟨w, e, hl, ?_⟩
  intro k
  rw [hk]
  cases hak : a[k]? with
  | none => simp
  | some x =>
    cases hbk : b[k]? with
    | none => simp
    | some y =>
      have h1 := (List.getElem?_eq_some_iff.1 hak).1
      have h2 := (List.getElem?_eq_some_iff.1 hbk).1
      simp; intro; omega

/-- Bits of a word-wise combination, for `op` acting bit by bit. -/
theorem zipWords_bits (op : W → W → W) (f : Bool → Bool → Bool)
    (hop : ∀ x y : W, ∀ j, j < 64 → (op x y).getLsbD j = f (x.getLsbD j) (y.getLsbD j))
    (n m : Nat) (a b : List W) (ha : a.length = numElements n) (hb : b.length = numElements m) :
    ∃ ws', zipWords op n m a b = .ok ws' ∧ ws'.length = a.length ∧
      ∀ i, bitAt ws' i =
        if i / 64 < a.length ∧ i / 64 < b.length then f (bitAt a i) (bitAt b i) else bitAt a i := by
  obtain ⟨w, e, hl, hk⟩ := zipWords_ok op n m a b ha hb
  refine ⟨w, e, hl, ?_⟩
  intro i
  have hm : i % 64 < 64 := Nat.mod_lt _ (by omega)
  unfold bitAt
  rw [hk]
  by_cases c : i / 64 < a.length ∧ i / 64 < b.length
  · rw [if_pos c, List.getElem?_eq_getElem c.1, List.getElem?_eq_getElem c.2]
    simp [hop _ _ _ hm]
  · rw [if_neg c]
    by_cases c1 : i / 64 < a.length
    · have c2 : b.length ≤ i / 64 := by omega
      rw [List.getElem?_eq_getElem c1, List.getElem?_eq_none c2]
    · rw [List.getElem?_eq_none (by omega)]

theorem zipWords_length {op : W → W → W} {n m : Nat} {a b ws' : List W}
    (h : zipWords op n m a b = .ok ws') : ws'.length = a.length := by
  unfold zipWords at h
  refine forUp_preserve (fun s => s.length = a.length) ?_ rfl h
  intro i s s' hs he
  obtain ⟨x, _, he⟩ := Out.bind_eq_ok.1 he
  obtain ⟨y, _, he⟩ := Out.bind_eq_ok.1 he
  exact (writeAt_length he).trans hs

theorem shlBody_length {es ds i : Nat} {ws ws' : List W} (h : shlBody es ds i ws = .ok ws') :
    ws'.length = ws.length := by
  unfold shlBody at h
  obtain ⟨x, _, h⟩ := Out.bind_eq_ok.1 h
  obtain ⟨t, _, h⟩ := Out.bind_eq_ok.1 h
  split at h
  · obtain ⟨y, _, h⟩ := Out.bind_eq_ok.1 h
    obtain ⟨z, _, h⟩ := Out.bind_eq_ok.1 h
    exact writeAt_length h
  · exact writeAt_length h

theorem shrBody_length {ne es ds i : Nat} {ws ws' : List W} (h : shrBody ne es ds i ws = .ok ws') :
    ws'.length = ws.length := by
  unfold shrBody at h
  obtain ⟨x, _, h⟩ := Out.bind_eq_ok.1 h
  obtain ⟨t, _, h⟩ := Out.bind_eq_ok.1 h
  split at h
  · obtain ⟨y, _, h⟩ := Out.bind_eq_ok.1 h
    obtain ⟨z, _, h⟩ := Out.bind_eq_ok.1 h
    exact writeAt_length h
  · exact writeAt_length h

theorem shlPos_length {n k : Nat} {ws ws' : List W} (h : shlPos n ws k = .ok ws') : ws'.length = ws.length := by
  unfold shlPos at h
  obtain ⟨w1, e1, h⟩ := Out.bind_eq_ok.1 h
  obtain ⟨w2, e2, h⟩ := Out.bind_eq_ok.1 h
  have l1 := forUp_preserve (fun s => s.length = ws.length) (fun i s s' hs he => (writeAt_length he).trans hs) rfl e1
  have l2 := forUp_preserve (fun s => s.length = ws.length) (fun i s s' hs he => (shlBody_length he).trans hs) l1 e2
  exact forUp_preserve (fun s => s.length = ws.length) (fun i s s' hs he => (writeAt_length he).trans hs) l2 h

theorem shrPos_length {n k : Nat} {ws ws' : List W} (h : shrPos n ws k = .ok ws') : ws'.length = ws.length := by
  unfold shrPos at h
  obtain ⟨w1, e1, h⟩ := Out.bind_eq_ok.1 h
  obtain ⟨w2, e2, h⟩ := Out.bind_eq_ok.1 h
  have l1 := forUp_preserve (fun s => s.length = ws.length) (fun i s s' hs he => (writeAt_length he).trans hs) rfl e1
  have l2 := forUp_preserve (fun s => s.length = ws.length) (fun i s s' hs he => (shrBody_length he).trans hs) l1 e2
  exact forUp_preserve (fun s => s.length = ws.length) (fun i s s' hs he => (writeAt_length he).trans hs) l2 h

/-- Every reachable bit set has the right number of words. -/
theorem reachable_length {n : Nat} {s : BS n} (h : Reachable s) : s.words.length = numElements n := by
  induction h with
  | empty n => simp [empty]
  | ofValue v e =>
    unfold ofValue at e
    obtain ⟨w, e1, e⟩ := Out.bind_eq_ok.1 e
    cases e
    simpa [empty] using writeAt_length e1
  | ofString a t z o e =>
    unfold ofString at e
    obtain ⟨w, e1, e⟩ := Out.bind_eq_ok.1 e
    cases e
    refine (forUp_preserve (fun s : List W => s.length = (empty _).words.length) ?_ rfl e1).trans (by simp [empty])
    intro i s s' hs he
    unfold ofStringBody at he
    split at he
    · split at he
      · cases he; exact hs
      · split at he
        · exact (setBit_length he).trans hs
        · split at he
          · cases he
          · cases he; exact hs
    · cases he
  | set i v _ e ih =>
    unfold set at e
    obtain ⟨w, e1, e⟩ := Out.bind_eq_ok.1 e
    cases e
    exact (setBit_length e1).trans ih
  | setRange i j v _ e ih =>
    unfold setRange at e
    simp only at e
    split at e
    all_goals
      obtain ⟨w, e1, e⟩ := Out.bind_eq_ok.1 e
      cases e
      exact (setRangeCore_length e1).trans ih
  | orAssign _ _ e ih _ =>
    unfold orAssign at e
    obtain ⟨w, e1, e⟩ := Out.bind_eq_ok.1 e
    cases e
    exact (zipWords_length e1).trans ih
  | andAssign _ _ e ih _ =>
    unfold andAssign at e
    obtain ⟨w, e1, e⟩ := Out.bind_eq_ok.1 e
    obtain ⟨w2, e2, e⟩ := Out.bind_eq_ok.1 e
    cases e
    exact (forUp_preserve (fun s => s.length = w.length) (fun i s s' hs he => (writeAt_length he).trans hs) rfl
      e2).trans ((zipWords_length e1).trans ih)
  | xorAssign _ _ e ih _ =>
    unfold xorAssign at e
    obtain ⟨w, e1, e⟩ := Out.bind_eq_ok.1 e
    cases e
    exact (zipWords_length e1).trans ih
  | shl k _ e ih =>
    unfold shl at e
    split at e
    · cases e
    · split at e
      · obtain ⟨w, e1, e⟩ := Out.bind_eq_ok.1 e
        cases e
        exact (shrPos_length e1).trans ih
      · split at e
        · cases e; exact ih
        · obtain ⟨w, e1, e⟩ := Out.bind_eq_ok.1 e
          cases e
          exact (shlPos_length e1).trans ih
  | shr k _ e ih =>
    unfold shr at e
    split at e
    · cases e
    · split at e
      · obtain ⟨w, e1, e⟩ := Out.bind_eq_ok.1 e
        cases e
        exact (shlPos_length e1).trans ih
      · split at e
        · cases e; exact ih
        · obtain ⟨w, e1, e⟩ := Out.bind_eq_ok.1 e
          cases e
          exact (shrPos_length e1).trans ih
  | compl _ e ih =>
    unfold compl at e
    obtain ⟨w, e1, e⟩ := Out.bind_eq_ok.1 e
    obtain ⟨x, e2, e⟩ := Out.bind_eq_ok.1 e
    obtain ⟨w3, e3, e⟩ := Out.bind_eq_ok.1 e
    cases e
    have l1 : w.length = _ := forUp_preserve (fun s => s.length = numElements _) (by
      intro i s s' hs he
      obtain ⟨y, _, he⟩ := Out.bind_eq_ok.1 he
      exact (writeAt_length he).trans hs) ih e1
    exact (writeAt_length e3).trans l1

/-- Bits of a left shift of a 64-bit word pair. -/
theorem shlPos_ok (n : Nat) (ws : List W) (k : Nat) (hl : ws.length = numElements n)
    (hes : k / 64 ≤ numElements n) (hds : k % 64 ≠ 0 ∨ numElements n < k / 64 + 2) :
    ∃ ws', shlPos n ws k = .ok ws' ∧ ws'.length = ws.length ∧
      ∀ i, i / 64 < ws.length → bitAt ws' i = if k ≤ i then bitAt ws (i - k) else false := by
  generalize hne : numElements n = ne at *
  obtain ⟨w1, e1, l1, b1⟩ := fillLoop_bits ws (ne - k / 64) ne 0 (by omega)
  have step2 : ∃ w2, forUp 0 (ne - k / 64) (fun t ws => shlBody (k / 64) (k % 64) (ne - 1 - t) ws) w1 = .ok w2 ∧
      (w2.length = ws.length ∧ ∀ i, i / 64 < ws.length → bitAt w2 i =
        if ne ≤ i / 64 + (ne - k / 64) then (if k ≤ i then bitAt ws (i - k) else false) else bitAt w1 i) := by
    apply forUp_inv (P := fun t w2 => w2.length = ws.length ∧ ∀ i, i / 64 < ws.length → bitAt w2 i =
        if ne ≤ i / 64 + t then (if k ≤ i then bitAt ws (i - k) else false) else bitAt w1 i) (by omega)
    · refine ⟨by omega, fun i hi => by rw [if_neg (by omega)]⟩
    · rintro t s _ ht ⟨hls, hbs⟩
      have hidx : ne - 1 - t < s.length := by omega
      -- the word `i` being written
      generalize hi : ne - 1 - t = i at *
      have hie : k / 64 ≤ i := by omega
      have hr1 : readAt s ((i : Int) - (k / 64 : Nat)) = .ok (s[i - k / 64]'(by omega)) := by
        have : ((i : Int) - (k / 64 : Nat)) = ((i - k / 64 : Nat) : Int) := by omega
        rw [this]; exact readAt_nat _ _ _
      -- bits of the words read are those of the original array
      have hold : ∀ p j, p ≤ i - k / 64 → j < 64 → (hp : p < s.length) →
          s[p].getLsbD j = bitAt ws (64 * p + j) := by
        intro p j hp hj hps
        have h1 := hbs (64 * p + j) (by omega)
        rw [bitAt_word s p j hps hj, if_neg (by omega)] at h1
        rw [h1, b1, if_neg (by omega)]
      have hd : k % 64 < 64 := Nat.mod_lt _ (by omega)
      by_cases hc : (i : Int) - (k / 64 : Nat) - 1 ≥ 0
      · have hr2 : readAt s ((i : Int) - (k / 64 : Nat) - 1) = .ok (s[i - k / 64 - 1]'(by omega)) := by
          have : ((i : Int) - (k / 64 : Nat) - 1) = ((i - k / 64 - 1 : Nat) : Int) := by omega
          rw [this]; exact readAt_nat _ _ _
        refine ⟨s.set i ((s[i - k / 64]'(by omega)) <<< (k % 64) ||| (s[i - k / 64 - 1]'(by omega)) >>> (64 - k % 64)), ?_, by simp [hls], ?_⟩
        · unfold shlBody
          rw [hr1, Out.ok_bind, wShl, if_pos hd, Out.ok_bind, if_pos hc, hr2, Out.ok_bind, wShr, if_pos (by omega),
            Out.ok_bind]
          exact writeAt_nat _ _ _ hidx
        · intro b hb
          rw [bitAt_set _ _ _ _ hidx]
          by_cases e : b / 64 = i
          · rw [if_pos e, if_pos (by omega), BitVec.getLsbD_or, BitVec.getLsbD_shiftLeft, BitVec.getLsbD_ushiftRight]
            have hbm : b % 64 < 64 := Nat.mod_lt _ (by omega)
            have hkb : k ≤ b := by omega
            rw [if_pos hkb]
            by_cases hlo : k % 64 ≤ b % 64
            · have e1 := hold (i - k / 64) (b % 64 - k % 64) (by omega) (by omega) (by omega)
              have e2 : (s[i - k / 64 - 1]'(by omega)).getLsbD (64 - k % 64 + b % 64) = false :=
                BitVec.getLsbD_of_ge _ _ (by omega)
              rw [e1, e2]
              have : 64 * (i - k / 64) + (b % 64 - k % 64) = b - k := by omega
              rw [this]; simp [hbm, hlo]
            · have e2 := hold (i - k / 64 - 1) (64 - k % 64 + b % 64) (by omega) (by omega) (by omega)
              rw [e2]
              have : 64 * (i - k / 64 - 1) + (64 - k % 64 + b % 64) = b - k := by omega
              rw [this]; simp only [Bool.or_eq_right_iff_imp]; simp; omega
          · rw [if_neg e, hbs b hb]
            by_cases c : ne ≤ b / 64 + t
            · rw [if_pos c, if_pos (show ne ≤ b / 64 + (t + 1) by omega)]
            · rw [if_neg c, if_neg (by omega)]
      · refine ⟨s.set i ((s[i - k / 64]'(by omega)) <<< (k % 64)), ?_, by simp [hls], ?_⟩
        · unfold shlBody
          rw [hr1, Out.ok_bind, wShl, if_pos hd, Out.ok_bind, if_neg hc]
          exact writeAt_nat _ _ _ hidx
        · intro b hb
          rw [bitAt_set _ _ _ _ hidx]
          by_cases e : b / 64 = i
          · rw [if_pos e, if_pos (by omega), BitVec.getLsbD_shiftLeft]
            have hbm : b % 64 < 64 := Nat.mod_lt _ (by omega)
            by_cases hkb : k ≤ b
            · rw [if_pos hkb]
              have e1 := hold (i - k / 64) (b % 64 - k % 64) (by omega) (by omega) (by omega)
              rw [e1]
              have : 64 * (i - k / 64) + (b % 64 - k % 64) = b - k := by omega
              rw [this]
              have : ¬ b % 64 < k % 64 := by omega
              simp [hbm, this]
            · rw [if_neg hkb]
              have : b % 64 < k % 64 := by omega
              simp [this]
          · rw [if_neg e, hbs b hb]
            by_cases c : ne ≤ b / 64 + t
            · rw [if_pos c, if_pos (show ne ≤ b / 64 + (t + 1) by omega)]
            · rw [if_neg c, if_neg (by omega)]
  obtain ⟨w2, e2, l2, b2⟩ := step2
  obtain ⟨w3, e3, l3, b3⟩ := fillLoop_bits w2 0 (k / 64) 0 (by omega)
  refine ⟨w3, ?_, by omega, ?_⟩
  · unfold shlPos
    simp only [hne, if_pos hes, e1, Out.ok_bind]
    rw [e2]
    simp only [Out.ok_bind]
    exact e3
  · intro i hi
    rw [b3]
    by_cases c : 0 ≤ i / 64 ∧ i / 64 < k / 64
    · rw [if_pos c, if_neg (by omega)]; simp
    · rw [if_neg c, b2 i hi, if_pos (by omega)]

theorem shrPos_ok (n : Nat) (ws : List W) (k : Nat) (hl : ws.length = numElements n)
    (hes : k / 64 ≤ numElements n) (hds : k % 64 ≠ 0 ∨ numElements n < k / 64 + 2) :
    ∃ ws', shrPos n ws k = .ok ws' ∧ ws'.length = ws.length ∧
      ∀ i, i / 64 < ws.length → bitAt ws' i = bitAt ws (i + k) := by
  generalize hne : numElements n = ne at *
  obtain ⟨w1, e1, l1, b1⟩ := fillLoop_bits ws 0 (k / 64) 0 (by omega)
  have step2 : ∃ w2, forUp 0 (ne - k / 64) (fun i ws => shrBody ne (k / 64) (k % 64) i ws) w1 = .ok w2 ∧
      (w2.length = ws.length ∧ ∀ i, i / 64 < ws.length → bitAt w2 i =
        if i / 64 < ne - k / 64 then bitAt ws (i + k) else bitAt w1 i) := by
    apply forUp_inv (P := fun t w2 => w2.length = ws.length ∧ ∀ i, i / 64 < ws.length → bitAt w2 i =
        if i / 64 < t then bitAt ws (i + k) else bitAt w1 i) (by omega)
    · refine ⟨by omega, fun i hi => by rw [if_neg (by omega)]⟩
    · rintro i s _ ht ⟨hls, hbs⟩
      have hidx : i < s.length := by omega
      have hr1 : readAt s ((i : Int) + (k / 64 : Nat)) = .ok (s[i + k / 64]'(by omega)) := by
        have : ((i : Int) + (k / 64 : Nat)) = ((i + k / 64 : Nat) : Int) := by omega
        rw [this]; exact readAt_nat _ _ _
      have hold : ∀ p j, i + k / 64 ≤ p → j < 64 → (hp : p < s.length) →
          s[p].getLsbD j = bitAt ws (64 * p + j) := by
        intro p j hp hj hps
        have h1 := hbs (64 * p + j) (by omega)
        rw [bitAt_word s p j hps hj, if_neg (by omega)] at h1
        rw [h1, b1, if_neg (by omega)]
      have hd : k % 64 < 64 := Nat.mod_lt _ (by omega)
      by_cases hc : i + k / 64 + 1 < ne
      · have hr2 : readAt s ((i : Int) + (k / 64 : Nat) + 1) = .ok (s[i + k / 64 + 1]'(by omega)) := by
          have : ((i : Int) + (k / 64 : Nat) + 1) = ((i + k / 64 + 1 : Nat) : Int) := by omega
          rw [this]; exact readAt_nat _ _ _
        refine ⟨s.set i ((s[i + k / 64]'(by omega)) >>> (k % 64) ||| (s[i + k / 64 + 1]'(by omega)) <<< (64 - k % 64)), ?_, by simp [hls], ?_⟩
        · unfold shrBody
          rw [hr1, Out.ok_bind, wShr, if_pos hd, Out.ok_bind, if_pos hc, hr2, Out.ok_bind, wShl, if_pos (by omega),
            Out.ok_bind]
          exact writeAt_nat _ _ _ hidx
        · intro b hb
          rw [bitAt_set _ _ _ _ hidx]
          by_cases e : b / 64 = i
          · rw [if_pos e, if_pos (by omega), BitVec.getLsbD_or, BitVec.getLsbD_shiftLeft, BitVec.getLsbD_ushiftRight]
            have hbm : b % 64 < 64 := Nat.mod_lt _ (by omega)
            by_cases hlo : k % 64 + b % 64 < 64
            · have e1 := hold (i + k / 64) (k % 64 + b % 64) (by omega) (by omega) (by omega)
              rw [e1]
              have : 64 * (i + k / 64) + (k % 64 + b % 64) = b + k := by omega
              rw [this]
              have : b % 64 < 64 - k % 64 := by omega
              simp [this]
            · have e2 := hold (i + k / 64 + 1) (b % 64 - (64 - k % 64)) (by omega) (by omega) (by omega)
              have e1 : (s[i + k / 64]'(by omega)).getLsbD (k % 64 + b % 64) = false :=
                BitVec.getLsbD_of_ge _ _ (by omega)
              rw [e2, e1]
              have : 64 * (i + k / 64 + 1) + (b % 64 - (64 - k % 64)) = b + k := by omega
              rw [this]
              have : ¬ b % 64 < 64 - k % 64 := by omega
              simp [hbm, this]
          · rw [if_neg e, hbs b hb]
            by_cases c : b / 64 < i
            · rw [if_pos c, if_pos (by omega)]
            · rw [if_neg c, if_neg (by omega)]
      · refine ⟨s.set i ((s[i + k / 64]'(by omega)) >>> (k % 64)), ?_, by simp [hls], ?_⟩
        · unfold shrBody
          rw [hr1, Out.ok_bind, wShr, if_pos hd, Out.ok_bind, if_neg hc]
          exact writeAt_nat _ _ _ hidx
        · intro b hb
          rw [bitAt_set _ _ _ _ hidx]
          by_cases e : b / 64 = i
          · rw [if_pos e, if_pos (by omega), BitVec.getLsbD_ushiftRight]
            by_cases hlo : k % 64 + b % 64 < 64
            · have e1 := hold (i + k / 64) (k % 64 + b % 64) (by omega) (by omega) (by omega)
              rw [e1]
              have : 64 * (i + k / 64) + (k % 64 + b % 64) = b + k := by omega
              rw [this]
            · rw [BitVec.getLsbD_of_ge _ _ (by omega), bitAt_ge (by omega)]
          · rw [if_neg e, hbs b hb]
            by_cases c : b / 64 < i
            · rw [if_pos c, if_pos (by omega)]
            · rw [if_neg c, if_neg (by omega)]
  obtain ⟨w2, e2, l2, b2⟩ := step2
  obtain ⟨w3, e3, l3, b3⟩ := fillLoop_bits w2 (ne - k / 64) ne 0 (by omega)
  refine ⟨w3, ?_, by omega, ?_⟩
  · unfold shrPos
    simp only [hne, e1, Out.ok_bind]
    rw [e2]
    simp only [Out.ok_bind]
    exact e3
  · intro i hi
    rw [b3]
    by_cases c : ne - k / 64 ≤ i / 64 ∧ i / 64 < ne
    · rw [if_pos c, bitAt_ge (by omega)]; simp
    · rw [if_neg c, b2 i hi, if_pos (by omega)]

theorem highMask_getLsbD (n j : Nat) : (highMask n).getLsbD j = decide (j < n % 64) := by
  unfold highMask
  have hm : n % 64 < 64 := Nat.mod_lt _ (by omega)
  generalize n % 64 = m at *
  induction m with
  | zero => simp
  | succ m ih =>
    rw [List.range_succ, List.foldl_append]
    simp only [List.foldl_cons, List.foldl_nil]
    rw [BitVec.getLsbD_or, ih (by omega), mask_getLsbD _ _ (by omega)]
    by_cases h1 : j < m
    · simp [h1]; omega
    · by_cases h2 : j = m
      · simp [h2]
      · have : ¬ j < m + 1 := by omega
        simp [h1, h2, this]

theorem compl_ok {n : Nat} (s : BS n) (hl : s.words.length = numElements n) (hn : 0 < n) :
    ∃ s', compl s = .ok s' ∧ s'.words.length = numElements n ∧
      ∀ i, bitAt s'.words i =
        if i / 64 < numElements n then
          (if i / 64 = numElements n - 1 then !bitAt s.words i && decide (i % 64 < n % 64) else !bitAt s.words i)
        else false := by
  have hne : 0 < numElements n := by unfold numElements; omega
  have loop : ∃ w, forUp 0 (numElements n) (fun i ws => do
      let w ← readAt ws (i : Nat)
      writeAt ws (i : Nat) (~~~w)) s.words = .ok w ∧ (w.length = numElements n ∧
        ∀ i, i / 64 < numElements n → bitAt w i = if i / 64 < numElements n then !bitAt s.words i else bitAt s.words i) := by
    apply forUp_inv (P := fun t w => w.length = numElements n ∧
        ∀ i, i / 64 < numElements n → bitAt w i = if i / 64 < t then !bitAt s.words i else bitAt s.words i) (by omega)
    · exact ⟨hl, fun i hi => by rw [if_neg (by omega)]⟩
    · rintro t w _ ht ⟨hlw, hb⟩
      refine ⟨w.set t (~~~(w[t]'(by omega))), ?_, ?_, ?_⟩
      · rw [readAt_nat _ _ (by omega), Out.ok_bind]; exact writeAt_nat _ _ _ (by omega)
      · simp [hlw]
      · intro i hi
        rw [bitAt_set _ _ _ _ (by omega)]
        by_cases e : i / 64 = t
        · have hm : i % 64 < 64 := Nat.mod_lt _ (by omega)
          have h1 := hb i hi
          rw [if_neg (by omega), bitAt_lt (by omega)] at h1
          rw [if_pos e, if_pos (by omega), BitVec.getLsbD_not, ← h1]
          subst e
          simp [hm]
        · rw [if_neg e, hb i hi]
          by_cases c : i / 64 < t
          · rw [if_pos c, if_pos (by omega)]
          · rw [if_neg c, if_neg (by omega)]
  obtain ⟨w, e, hlw, hb⟩ := loop
  have hcast : ((numElements n : Int) - 1) = ((numElements n - 1 : Nat) : Int) := by omega
  refine ⟨⟨w.set (numElements n - 1) ((w[numElements n - 1]'(by omega)) &&& highMask n)⟩, ?_, by simp [hlw], ?_⟩
  · unfold compl
    rw [e, Out.ok_bind, hcast, readAt_nat _ _ (by omega), Out.ok_bind, writeAt_nat _ _ _ (by omega)]
    rfl
  · intro i
    by_cases hi : i / 64 < numElements n
    · rw [if_pos hi]
      have h1 := hb i hi
      rw [if_pos hi] at h1
      simp only
      rw [bitAt_set _ _ _ _ (by omega)]
      by_cases c : i / 64 = numElements n - 1
      · rw [if_pos c, if_pos c, BitVec.getLsbD_and, highMask_getLsbD, ← h1, bitAt_lt (by omega)]
        congr 2; simp [c]
      · rw [if_neg c, if_neg c, h1]
    · rw [if_neg hi]; exact bitAt_ge (by simp [hlw]; omega)

theorem word_ne_zero_iff (w : W) : w ≠ 0 ↔ ∃ j, j < 64 ∧ w.getLsbD j = true := by
  constructor
  · intro h
    by_cases c : ∃ j, j < 64 ∧ w.getLsbD j = true
    · exact c
    · exfalso; apply h
      apply BitVec.eq_of_getLsbD_eq
      intro i hi
      cases hb : w.getLsbD i with
      | false => simp
      | true => exact absurd ⟨i, hi, hb⟩ c
  · rintro ⟨j, hj, h⟩ e
    subst e; simp at h

theorem word_ne_ones_iff (w : W) : w ≠ BitVec.allOnes 64 ↔ ∃ j, j < 64 ∧ w.getLsbD j = false := by
  constructor
  · intro h
    by_cases c : ∃ j, j < 64 ∧ w.getLsbD j = false
    · exact c
    · exfalso; apply h
      apply BitVec.eq_of_getLsbD_eq
      intro i hi
      cases hb : w.getLsbD i with
      | true => rw [BitVec.getLsbD_allOnes]; simpa using hi
      | false => exact absurd ⟨i, hi, hb⟩ c
  · rintro ⟨j, hj, h⟩ e
    subst e; rw [BitVec.getLsbD_allOnes] at h; simp [hj] at h

/-- Early-exit search over words: outcome in terms of a predicate on words. -/
theorem searchWords {β : Type} (ws : List W) (ne : Nat) (hl : ws.length = ne) (p : W → Bool) (f : Nat → W → β) :
    (∃ k, ∃ hk : k < ws.length, p ws[k] = true ∧ (∀ i (hi : i < k), p (ws[i]'(by omega)) = false) ∧
      searchUp 0 ne (fun i => do
        let w ← readAt ws (i : Nat)
        return if p w then some (f i w) else .none) = .ok (some (f k ws[k]))) ∨
    ((∀ k (hk : k < ws.length), p ws[k] = false) ∧
      searchUp 0 ne (fun i => do
        let w ← readAt ws (i : Nat)
        return if p w then some (f i w) else .none) = .ok .none) := by
  by_cases c : ∃ k, ∃ hk : k < ws.length, p ws[k] = true
  · left
    have : ∃ k, (∃ hk : k < ws.length, p ws[k] = true) ∧ ∀ i, i < k → ¬ ∃ hi : i < ws.length, p ws[i] = true := by
      obtain ⟨k, hk⟩ := c
      induction k using Nat.strongRecOn with
      | _ k ih =>
        by_cases c' : ∃ i, i < k ∧ ∃ hi : i < ws.length, p ws[i] = true
        · obtain ⟨i, hi, h⟩ := c'
          exact ih i hi h
        · exact ⟨k, hk, fun i hi h => c' ⟨i, hi, h⟩⟩
    obtain ⟨k, ⟨hk, hp⟩, hmin⟩ := this
    have hmin' : ∀ i (hi : i < k), p (ws[i]'(by omega)) = false := by
      intro i hi
      cases hpi : p (ws[i]'(by omega)) with
      | false => rfl
      | true => exact absurd ⟨by omega, hpi⟩ (hmin i hi)
    refine ⟨k, hk, hp, hmin', ?_⟩
    apply searchUp_some (k := k) (by omega) (by omega)
    · rw [readAt_nat _ _ hk]; simp [hp]
    · intro i _ hi
      rw [readAt_nat _ _ (by omega)]; simp [hmin' i hi]
  · right
    have hall : ∀ k (hk : k < ws.length), p ws[k] = false := by
      intro k hk
      cases hp : p ws[k] with
      | false => rfl
      | true => exact absurd ⟨k, hk, hp⟩ c
    refine ⟨hall, ?_⟩
    apply searchUp_none
    intro i _ hi
    rw [readAt_nat _ _ (by omega)]; simp [hall i (by omega)]

theorem ctz_spec (w : W) (h : w ≠ 0) :
    ctz w < 64 ∧ w.getLsbD (ctz w) = true ∧ ∀ j, j < ctz w → w.getLsbD j = false := by
  unfold ctz
  cases hf : (List.range 64).find? (fun j => w.getLsbD j) with
  | none =>
    rw [List.find?_eq_none] at hf
    obtain ⟨j, hj, hb⟩ := (word_ne_zero_iff w).1 h
    exact absurd hb (hf j (by simpa using hj))
  | some k =>
    rw [List.find?_eq_some_iff_append] at hf
    obtain ⟨hk, as, bs, e, hmin⟩ := hf
    have hlen : as.length < 64 := by
      have := congrArg List.length e
      simp at this; omega
    have hget : ∀ i (hi : i < as.length), as[i] = i := by
      intro i hi
      have h1 : (List.range 64)[i]? = some as[i] := by rw [e, List.getElem?_append_left hi]; exact List.getElem?_eq_getElem hi
      rw [List.getElem?_range (by omega)] at h1
      exact (Option.some.inj h1).symm
    have hk' : k = as.length := by
      have h1 : (List.range 64)[as.length]? = some k := by rw [e]; simp
      rw [List.getElem?_range hlen] at h1
      exact (Option.some.inj h1).symm
    refine ⟨by simp; omega, by simpa using hk, ?_⟩
    intro j hj
    simp only [Option.getD_some] at hj
    have hj' : j < as.length := by omega
    have := hmin as[j] (List.getElem_mem _)
    rw [hget j hj'] at this
    simpa using this

theorem topBit_spec (w : W) (h : w ≠ 0) :
    topBit w < 64 ∧ w.getLsbD (topBit w) = true ∧ ∀ j, topBit w < j → w.getLsbD j = false := by
  unfold topBit
  cases hf : (List.range 64).reverse.find? (fun j => w.getLsbD j) with
  | none =>
    rw [List.find?_eq_none] at hf
    obtain ⟨j, hj, hb⟩ := (word_ne_zero_iff w).1 h
    exact absurd hb (hf j (by simpa using hj))
  | some k =>
    rw [List.find?_eq_some_iff_append] at hf
    obtain ⟨hk, as, bs, e, hmin⟩ := hf
    have hlen : as.length < 64 := by
      have := congrArg List.length e
      simp at this; omega
    have hget : ∀ i (hi : i < as.length), as[i] = 63 - i := by
      intro i hi
      have h1 : (List.range 64).reverse[i]? = some as[i] := by rw [e, List.getElem?_append_left hi]; exact List.getElem?_eq_getElem hi
      rw [List.getElem?_reverse (by simp; omega), List.length_range, List.getElem?_range (by omega)] at h1
      rw [← Option.some.inj h1]
    have hk' : k = 63 - as.length := by
      have h1 : (List.range 64).reverse[as.length]? = some k := by rw [e]; simp
      rw [List.getElem?_reverse (by simp; omega), List.length_range, List.getElem?_range (by omega)] at h1
      rw [← Option.some.inj h1]
    refine ⟨by simp; omega, by simpa using hk, ?_⟩
    intro j hj
    simp only [Option.getD_some] at hj
    by_cases hj64 : j < 64
    · have hj' : 63 - j < as.length := by omega
      have := hmin as[63 - j] (List.getElem_mem _)
      rw [hget _ hj'] at this
      have e63 : 63 - (63 - j) = j := by omega
      rw [e63] at this
      simpa using this
    · exact BitVec.getLsbD_of_ge _ _ (by omega)

theorem popLoop (ws : List W) (m : Nat) (hm : m ≤ ws.length) :
    forUp 0 m (fun i res => do
      let w ← readAt ws (i : Nat)
      return res + popWord w) 0 = .ok ((List.range (64 * m)).countP (fun i => bitAt ws i)) := by
  obtain ⟨r, e, hr⟩ := forUp_inv (P := fun k res => res = (List.range (64 * k)).countP (fun i => bitAt ws i))
    (lo := 0) (hi := m) (s := 0) (body := fun i res => do
      let w ← readAt ws (i : Nat)
      return res + popWord w) (by omega) (by simp) (by
    intro i s _ hi hs
    refine ⟨_, by rw [readAt_nat _ _ (by omega)]; rfl, ?_⟩
    have : 64 * (i + 1) = 64 * i + 64 := by omega
    rw [this, List.range_add, List.countP_append, ← hs, List.countP_map]
    congr 1
    unfold popWord
    apply List.countP_congr
    intro j hj
    have hj' : j < 64 := by simpa using hj
    simp [bitAt_word ws i j (by omega) hj'])
  rw [e, hr]

end Verif.BitSetM
