import Verif.Model.View
import Verif.Props.Shape

/-! Helper lemmas about element access and views. -/

namespace Verif.ViewM

open ShapeM Grid

/-- Suffix products: the row-major strides. -/
def sufs : List Nat → List Nat
  | [] => []
  | _ :: ds => count ds :: sufs ds

theorem ndim_eq (s : AnyShape) : ndim s = (ext s).length := by cases s <;> rfl

theorem count_tail_le {d : Nat} {ds : List Nat} (h : 0 < count (d :: ds)) : count ds ≤ count (d :: ds) := by
  simp only [count] at h ⊢
  exact Nat.le_mul_of_pos_left _ (Nat.pos_of_mul_pos_right h)

theorem count_tail_pos {d : Nat} {ds : List Nat} (h : 0 < count (d :: ds)) : 0 < count ds := by
  simp only [count] at h
  exact Nat.pos_of_mul_pos_left h

theorem head_le_count {d : Nat} {ds : List Nat} (h : 0 < count (d :: ds)) : d ≤ count (d :: ds) := by
  have := count_tail_pos h
  simp only [count]
  exact Nat.le_mul_of_pos_right _ this

theorem strideLoop_eq {e : List Nat} (hp : 0 < count e) (hc : count e < two32) : strideLoop e = sufs e := by
  induction e using strideLoop.induct with
  | case1 => rfl
  | case2 x => rfl
  | case3 d e es h1 ih =>
    rw [ih (count_tail_pos hp) (Nat.lt_of_le_of_lt (count_tail_le hp) hc)] at h1
    cases h1
  | case4 d e es t ts h1 ih =>
    have hp' := count_tail_pos hp
    have hc' := Nat.lt_of_le_of_lt (count_tail_le hp) hc
    have e2 := ih hp' hc'
    rw [strideLoop, h1]
    rw [e2] at h1
    simp only [sufs, List.cons.injEq] at h1 ⊢
    obtain ⟨rfl, rfl⟩ := h1
    simp only [and_true]
    rw [Nat.mod_eq_of_lt]
    · simp only [count]; ring
    · simp only [count] at hc'; rw [Nat.mul_comm]; exact hc'

theorem size_small {s : AnyShape} (hc : count (ext s) < two32) : size s = count (ext s) := by
  cases s with
  | shape e =>
    have h := foldl_mod e 1
    have h1 : (1 : Nat) % two64 = 1 := by decide
    rw [h1, Nat.one_mul] at h
    simp only [ext] at hc ⊢
    have h2 : two32 < two64 := by decide
    rw [Nat.mod_eq_of_lt (by omega)] at h
    exact h
  | matrix r c =>
    simp only [ext, count, Nat.mul_one] at hc
    simp [size, ext, count, Nat.mod_eq_of_lt hc]
  | vector n => simp [size, ext, count]

theorem mkStride_ok {s : AnyShape} (hp : 0 < count (ext s)) (hc : count (ext s) < two32) (hn : ext s ≠ []) :
    mkStride s = .ok (sufs (ext s)) := by
  unfold mkStride
  rw [size_small hc, if_neg (by omega), ndim_eq, if_neg (by simpa using hn), strideLoop_eq hp hc]

theorem strideLoop_length (e : List Nat) : (strideLoop e).length = e.length := by
  induction e using strideLoop.induct with
  | case1 => rfl
  | case2 x => rfl
  | case3 d e es h1 ih => rw [h1] at ih; simp at ih
  | case4 d e es t ts h1 ih => rw [strideLoop, h1]; rw [h1] at ih; simp at ih ⊢; omega

theorem mkStride_length {s : AnyShape} (hn : ext s ≠ []) : ∃ st, mkStride s = .ok st ∧ st.length = (ext s).length := by
  unfold mkStride
  by_cases c : size s = 0
  · exact ⟨_, by rw [if_pos c], by simp⟩
  · exact ⟨_, by rw [if_neg c, ndim_eq, if_neg (by simpa using hn)], strideLoop_length _⟩

/-! ### `operator()` -/

theorem at_ok (asserts : Bool) (s : AnyShape) (i : Nat) (h : i < (ext s).length) :
    at' asserts s i = .ok (ext s)[i] := by
  cases s with
  | shape e =>
    simp only [ext] at h
    have h1 : (i : Int) < e.length := by omega
    simp [at', ext, h1, h]
  | matrix r c =>
    simp only [ext, List.length_cons, List.length_nil] at h
    have h1 : (i : Int) < 2 := by omega
    have h2 : i = 0 ∨ i = 1 := by omega
    rcases h2 with rfl | rfl <;> simp [at', ext]
  | vector n =>
    simp only [ext, List.length_cons, List.length_nil] at h
    have h2 : i = 0 := by omega
    subst h2
    simp [at', ext]

theorem callLoop_ok (asserts : Bool) (s : AnyShape) (c : List Nat) (dim : Nat) (acc : Int)
    (h : Inside ((ext s).drop dim) c) :
    callLoop asserts s dim acc (c.map (↑)) = .ok (acc * (count ((ext s).drop dim) : Nat) + (ravel ((ext s).drop dim) c : Nat)) := by
  induction c generalizing dim acc with
  | nil =>
    have : (ext s).drop dim = [] := by simpa [Inside] using h
    rw [this]; simp [callLoop, count, ravel]
  | cons i is ih =>
    have hd : dim < (ext s).length := by
      by_contra hd
      rw [List.drop_eq_nil_of_le (by omega)] at h
      cases h
    rw [List.drop_eq_getElem_cons hd] at h ⊢
    cases h with
    | cons h1 h2 =>
      simp only [List.map_cons, callLoop, at_ok asserts s dim hd, Out.ok_bind]
      have c1 : ((0 : Int) ≤ (i : Int)) := by omega
      have c2 : ((i : Int) < (((ext s)[dim] : Nat) : Int)) := by omega
      simp only [decide_eq_true c1, decide_eq_true c2, Bool.and_self, Bool.not_true, Bool.and_false, Bool.false_eq_true,
        if_false]
      rw [ih (dim + 1) _ h2]
      congr 1
      simp only [count, ravel]
      push_cast
      ring

theorem callLoop_reject (s : AnyShape) (c : List Int) (dim : Nat) (acc : Int)
    (hl : c.length = ((ext s).drop dim).length)
    (h : ¬ ∃ c' : List Nat, c = c'.map (↑) ∧ Inside ((ext s).drop dim) c') :
    callLoop true s dim acc c = .throw .outOfRange := by
  induction c generalizing dim acc with
  | nil =>
    exfalso; apply h
    refine ⟨[], rfl, ?_⟩
    have : (ext s).drop dim = [] := List.length_eq_zero_iff.1 (by simpa using hl.symm)
    rw [this]; exact List.Forall₂.nil
  | cons i is ih =>
    have hd : dim < (ext s).length := by
      simp only [List.length_cons, List.length_drop] at hl
      omega
    rw [List.drop_eq_getElem_cons hd] at h hl
    simp only [callLoop, at_ok true s dim hd, Out.ok_bind]
    by_cases c1 : 0 ≤ i ∧ i < ((ext s)[dim] : Nat)
    · simp only [decide_eq_true c1.1, decide_eq_true c1.2, Bool.and_self, Bool.not_true, Bool.false_eq_true, if_false]
      apply ih
      · simp only [List.length_cons] at hl; omega
      · rintro ⟨c', hc, hin⟩
        apply h
        refine ⟨i.toNat :: c', ?_, List.Forall₂.cons (by omega) hin⟩
        simp [hc, c1.1]
    · rw [if_pos]
      simp only [Bool.true_and, Bool.not_eq_true', Bool.and_eq_false_iff, decide_eq_false_iff_not]
      omega

/-! ### Views -/

/-- The view shows the elements of extents `e` stored contiguously from position `off`. -/
structure IsView (v : View) (e : List Nat) (off : Nat) : Prop where
  ext_eq : ext v.shape = e
  stride_eq : e ≠ [] → v.stride = sufs e
  off_eq : v.offset = off
  notVec : ∀ n, v.shape ≠ .vector n
  pos : 0 < count e
  small : count e < two32

theorem isView_ofArray {s : AnyShape} (hv : ∀ n, s ≠ .vector n) (hp : 0 < count (ext s)) (hc : count (ext s) < two32)
    (hn : ext s ≠ []) : ∃ v, ofArray s = .ok v ∧ IsView v (ext s) 0 := by
  refine ⟨⟨s, sufs (ext s), 0⟩, ?_, ⟨rfl, fun _ => rfl, rfl, hv, hp, hc⟩⟩
  simp [ofArray, mkStride_ok hp hc hn]

theorem substride_ok {asserts : Bool} {s : AnyShape} {d d' : Nat} {ds st : List Nat} (hv : ∀ n, s ≠ .vector n)
    (he : ext s = d :: d' :: ds) (hst : st.length = (ext s).length) :
    substride asserts s st 1 (ndim s) = .ok (st.drop 1) := by
  unfold substride
  have h1 : 1 < ndim s := by rw [ndim_eq, he]; simp
  rw [decide_eq_true h1, decide_eq_true (Nat.le_refl (ndim s))]
  simp only [Bool.not_true, Bool.and_false, Bool.false_eq_true, if_false]
  have hst' : st.length = ndim s := by rw [hst, ndim_eq]
  cases s with
  | shape e =>
    have hl : st.length = e.length := hst
    have h := C14_subshape_partial asserts (.shape st) (by simp) 1 st.length (by simp only [ndim] at h1; omega) (Nat.le_refl _)
    have e1 : ndim (AnyShape.shape e) = st.length := by rw [ndim]; omega
    rw [e1]
    simp only [ext] at h
    rw [List.take_of_length_le (by simp)] at h
    simpa using h
  | matrix r c =>
    match st, hst with
    | [a, b], _ =>
      have h := C14_subshape_partial asserts (.matrix a b) (by simp) 1 2 (by decide) (by simp [ext])
      simpa [ndim, ext] using h
  | vector n => exact absurd rfl (hv n)

theorem subshape_tail {asserts : Bool} {s : AnyShape} (hv : ∀ n, s ≠ .vector n) (hn : ext s ≠ []) :
    subshape asserts s 1 (ndim s) = .ok ((ext s).drop 1) := by
  have hl : 1 ≤ (ext s).length := by
    cases h : ext s with
    | nil => exact absurd h hn
    | cons => simp
  have h := C14_subshape_partial asserts s hv 1 (ext s).length hl (Nat.le_refl _)
  rw [List.take_of_length_le (by simp)] at h
  rw [ndim_eq]
  simpa using h

theorem index_ok {asserts : Bool} {v : View} {d : Nat} {ds : List Nat} {off i : Nat}
    (h : IsView v (d :: ds) off) (hi : i < d) :
    ∃ v', index asserts v i = .ok v' ∧ IsView v' ds (off + i * count ds) := by
  have hne : ext v.shape ≠ [] := by rw [h.ext_eq]; simp
  have hat := at_ok asserts v.shape 0 (by rw [h.ext_eq]; simp)
  have hat' : at' asserts v.shape 0 = .ok d := by
    have : (ext v.shape)[0]'(by rw [h.ext_eq]; simp) = d := by simp [h.ext_eq]
    rw [← this]; exact hat
  have hst := mkStride_ok (s := v.shape) (by rw [h.ext_eq]; exact h.pos) (by rw [h.ext_eq]; exact h.small) hne
  rw [h.ext_eq] at hst
  have hsub := subshape_tail (asserts := asserts) h.notVec hne
  rw [h.ext_eq] at hsub
  have hcheck : (decide ((0 : Int) ≤ (i : Int)) && decide ((i : Int) < (d : Int))) = true := by
    simp; exact hi
  have hpos := count_tail_pos h.pos
  have hsmall := Nat.lt_of_le_of_lt (count_tail_le h.pos) h.small
  have key : ∃ st', subStride asserts v.shape (sufs (d :: ds)) = .ok st' ∧ (ds ≠ [] → st' = sufs ds) := by
    cases ds with
    | nil =>
      refine ⟨[1], ?_, by simp⟩
      rw [subStride, if_pos (by rw [ndim_eq, h.ext_eq]; rfl)]
      decide
    | cons d' ds' =>
      refine ⟨sufs (d' :: ds'), ?_, fun _ => rfl⟩
      rw [subStride, if_neg (by rw [ndim_eq, h.ext_eq]; simp)]
      have hlen : ∀ l : List Nat, (sufs l).length = l.length := by
        intro l; induction l with
        | nil => rfl
        | cons a l ih => simp [sufs, ih]
      rw [substride_ok h.notVec h.ext_eq (by rw [h.ext_eq, hlen])]
      rfl
  obtain ⟨st', e1, e2⟩ := key
  refine ⟨⟨.shape ds, st', v.offset + (i : Int) * (count ds : Nat)⟩, ?_, ⟨rfl, e2, ?_, by simp, hpos, hsmall⟩⟩
  · have h0 : readAt (sufs (d :: ds)) 0 = .ok (count ds) := by rfl
    have hb : boundCheck asserts v.shape (i : Int) = .ok () := by
      unfold boundCheck
      cases asserts with
      | true => rw [if_pos rfl, hat', Out.ok_bind, hcheck]; rfl
      | false => rfl
    simp only [index, hb, Out.ok_bind, hst, hsub, e1, h0]
    rfl
  · simp [h.off_eq]

/-- Views seen only through their extents (used for rejection, also for empty arrays). -/
structure HasExt (v : View) (e : List Nat) : Prop where
  ext_eq : ext v.shape = e
  notVec : ∀ n, v.shape ≠ .vector n

theorem index_reject {v : View} {e : List Nat} {i : Int} (h : HasExt v e)
    (hb : ∀ d ds, e = d :: ds → ¬ (0 ≤ i ∧ i < d)) : index true v i = .throw .outOfRange := by
  unfold index
  cases e with
  | nil =>
    have hat : at' true v.shape 0 = .throw .outOfRange := by
      cases hs : v.shape with
      | shape e => have := h.ext_eq; rw [hs] at this; simp [ext] at this; subst this; rfl
      | matrix r c => have := h.ext_eq; rw [hs] at this; simp [ext] at this
      | vector n => exact absurd hs (h.notVec n)
    simp [boundCheck, hat]
  | cons d ds =>
    have hat := at_ok true v.shape 0 (by rw [h.ext_eq]; simp)
    have hat' : at' true v.shape 0 = .ok d := by
      have : (ext v.shape)[0]'(by rw [h.ext_eq]; simp) = d := by simp [h.ext_eq]
      rw [← this]; exact hat
    have := hb d ds rfl
    have hc : (decide (0 ≤ i) && decide (i < (d : Int))) = false := by
      simp only [Bool.and_eq_false_iff, decide_eq_false_iff_not]; omega
    simp only [boundCheck, if_true, hat', Out.ok_bind, hc, Out.guard_false, Out.throw_bind]

theorem index_hasExt {v : View} {d : Nat} {ds : List Nat} {i : Int} (h : HasExt v (d :: ds)) (h0 : 0 ≤ i) (hi : i < d) :
    ∃ v', index true v i = .ok v' ∧ HasExt v' ds := by
  have hne : ext v.shape ≠ [] := by rw [h.ext_eq]; simp
  have hat := at_ok true v.shape 0 (by rw [h.ext_eq]; simp)
  have hat' : at' true v.shape 0 = .ok d := by
    have : (ext v.shape)[0]'(by rw [h.ext_eq]; simp) = d := by simp [h.ext_eq]
    rw [← this]; exact hat
  obtain ⟨st, hst, hl⟩ := mkStride_length (s := v.shape) hne
  have hsub := subshape_tail (asserts := true) h.notVec hne
  rw [h.ext_eq] at hsub
  have hcheck : (decide (0 ≤ i) && decide (i < (d : Int))) = true := by simp [h0, hi]
  have key : ∃ st', subStride true v.shape st = .ok st' := by
    cases ds with
    | nil =>
      refine ⟨[1], ?_⟩
      rw [subStride, if_pos (by rw [ndim_eq, h.ext_eq]; rfl)]
      decide
    | cons d' ds' =>
      refine ⟨st.drop 1, ?_⟩
      rw [subStride, if_neg (by rw [ndim_eq, h.ext_eq]; simp)]
      rw [substride_ok h.notVec h.ext_eq hl]
  obtain ⟨st', e1⟩ := key
  have hlen : 0 < st.length := by rw [hl, h.ext_eq]; simp
  have h0' : readAt st 0 = .ok st[0] := readAt_nat st 0 hlen
  refine ⟨⟨.shape ds, st', v.offset + i * (st[0] : Nat)⟩, ?_, ⟨rfl, by simp⟩⟩
  have hb : boundCheck true v.shape i = .ok () := by
    rw [boundCheck, if_pos rfl, hat', Out.ok_bind, hcheck]; rfl
  simp only [index, hb, Out.ok_bind, hst, hsub, e1, h0']
  rfl

theorem chainFrom_ok {asserts : Bool} {v : View} {e : List Nat} {off : Nat} (c : List Nat) (h : IsView v e off)
    (hl : c.length ≤ e.length) (hin : Inside (e.take c.length) c) :
    ∃ v', chainFrom asserts v (c.map (↑)) = .ok v' ∧
      IsView v' (e.drop c.length) (off + ravel (e.take c.length) c * count (e.drop c.length)) := by
  induction c generalizing v e off with
  | nil => exact ⟨v, rfl, by simpa [ravel] using h⟩
  | cons i is ih =>
    cases e with
    | nil => simp at hl
    | cons d ds =>
      simp only [List.length_cons, List.take_succ_cons] at hin
      cases hin with
      | cons h1 h2 =>
        obtain ⟨v1, e1, p1⟩ := index_ok (asserts := asserts) h h1
        obtain ⟨v2, e2, p2⟩ := ih p1 (by simpa using hl) h2
        refine ⟨v2, by simp [chainFrom, e1, e2], ?_⟩
        simp only [List.length_cons, List.drop_succ_cons, List.take_succ_cons, ravel]
        have hc : count ds = count (ds.take is.length) * count (ds.drop is.length) := by
          rw [← count_append, List.take_append_drop]
        have : off + (i * count (ds.take is.length) + ravel (ds.take is.length) is) * count (ds.drop is.length)
            = off + i * count ds + ravel (ds.take is.length) is * count (ds.drop is.length) := by
          rw [hc]; ring
        rw [this]; exact p2

theorem chainFrom_reject {v : View} {e : List Nat} (c : List Int) (h : HasExt v e)
    (hbad : ¬ ∃ c' : List Nat, c = c'.map (↑) ∧ c'.length ≤ e.length ∧ Inside (e.take c'.length) c') :
    chainFrom true v c = .throw .outOfRange := by
  induction c generalizing v e with
  | nil => exact absurd ⟨[], rfl, by simp, by simp [Inside]⟩ hbad
  | cons i is ih =>
    by_cases hg : ∃ d ds, e = d :: ds ∧ 0 ≤ i ∧ i < d
    · obtain ⟨d, ds, rfl, h0, h1⟩ := hg
      obtain ⟨v', e1, p1⟩ := index_hasExt h h0 h1
      have := ih p1 (by
        rintro ⟨c', rfl, hl, hin⟩
        apply hbad
        refine ⟨i.toNat :: c', ?_, by simpa using hl, ?_⟩
        · simp [h0]
        · simp only [List.length_cons, List.take_succ_cons]
          exact List.Forall₂.cons (by omega) hin)
      simp [chainFrom, e1, this]
    · have := index_reject (i := i) h (fun d ds he hr => hg ⟨d, ds, he, hr.1, hr.2⟩)
      simp [chainFrom, this]

/-! ### Flat access -/

theorem decodeRev_append (l1 l2 : List Nat) (k : Nat) (hp : ∀ d ∈ l1, 0 < d) :
    decodeRev (l1 ++ l2) k = (do
      let r1 ← decodeRev l1 k
      let r2 ← decodeRev l2 (k / count l1)
      return r1 ++ r2) := by
  induction l1 generalizing k with
  | nil => simp [decodeRev, count]; cases decodeRev l2 k <;> rfl
  | cons d ds ih =>
    have hd := hp d (by simp)
    simp only [List.cons_append, decodeRev, if_neg (show d ≠ 0 by omega), count]
    rw [ih (k / d) (fun x hx => hp x (by simp [hx])), Nat.div_div_eq_div_mul]
    cases decodeRev ds (k / d) with
    | ok r => simp; cases decodeRev l2 (k / (d * count ds)) <;> rfl
    | throw e => rfl
    | ub => rfl

theorem count_reverse (e : List Nat) : count e.reverse = count e := by
  induction e with
  | nil => rfl
  | cons d ds ih => rw [List.reverse_cons, count_append, ih]; simp [count]; ring

theorem decodeRev_ok (e : List Nat) (k : Nat) (hp : 0 < count e) :
    decodeRev e.reverse k = .ok (unravel e (k % count e)).reverse := by
  induction e generalizing k with
  | nil => rfl
  | cons d ds ih =>
    have hp' := count_tail_pos hp
    have hd : 0 < d := pos_of_count hp d (by simp)
    rw [List.reverse_cons, decodeRev_append _ _ _ (fun x hx => pos_of_count hp' x (by simpa using hx)), ih k hp', count_reverse]
    simp only [Out.ok_bind, decodeRev, if_neg (show d ≠ 0 by omega), Out.pure_eq, unravel, List.reverse_cons, count]
    congr 1
    rw [Nat.mod_mul_left_div_self, Nat.mod_mul_left_mod]

theorem dotStride_ravel {e c : List Nat} (h : Inside e c) (hs : count e < two32) : dotStride c (sufs e) = ravel e c := by
  induction h with
  | nil => rfl
  | cons h1 h2 ih =>
    rename_i i d is ds
    have hp : 0 < count (d :: ds) := count_pos_of_inside (List.Forall₂.cons h1 h2)
    simp only [sufs, dotStride, ravel]
    rw [ih (Nat.lt_of_le_of_lt (count_tail_le hp) hs), Nat.mod_eq_of_lt]
    have : i * count ds ≤ d * count ds := Nat.mul_le_mul_right _ (by omega)
    simp only [count] at hs
    omega

theorem scalarPos_ok {v : View} {e : List Nat} {off k : Nat} (h : IsView v e off) (hk : k < count e) :
    scalarPos v k = .ok ((off + k : Nat) : Int) := by
  unfold scalarPos
  cases e with
  | nil =>
    rw [if_pos (by rw [ndim_eq, h.ext_eq]; rfl), h.off_eq]
    simp only [count] at hk
    have : k = 0 := by omega
    subst this; simp
  | cons d ds =>
    rw [if_neg (by rw [ndim_eq, h.ext_eq]; simp), h.ext_eq, decodeRev_ok _ _ h.pos, Nat.mod_eq_of_lt hk]
    simp only [Out.ok_bind, List.reverse_reverse, Out.pure_eq]
    rw [h.stride_eq (by simp), dotStride_ravel (inside_unravel hk) h.small, ravel_unravel hk, h.off_eq]
    simp

/-! ### The odometer -/

theorem ravel_replicate (e : List Nat) (n : Nat) : ravel e (List.replicate n 0) = 0 := by
  induction e generalizing n with
  | nil => simp [ravel]
  | cons d ds ih => cases n <;> simp [List.replicate_succ, ravel, ih]

theorem inside_zero {e : List Nat} (h : 0 < count e) : Inside e (List.replicate e.length 0) := by
  induction e with
  | nil => exact List.Forall₂.nil
  | cons d ds ih => exact List.Forall₂.cons (pos_of_count h d (by simp)) (ih (count_tail_pos h))

theorem carry_ok {e c : List Nat} (h : Inside e c) (st : List Nat) (hst : e ≠ [] → st = sufs e) (hs : count e < two32) (p : Int) :
    ∃ c' p' all, carry e st c p = .ok (c', p', all) ∧
      (ravel e c + 1 < count e → all = false ∧ Inside e c' ∧ ravel e c' = ravel e c + 1 ∧ p' = p + 1) ∧
      (ravel e c + 1 = count e → all = true ∧ c' = List.replicate e.length 0 ∧ p' = p - ((count e : Int) - 1)) := by
  induction h generalizing st p with
  | nil => exact ⟨[], p, true, rfl, by simp [ravel, count], by simp [count]⟩
  | cons h1 h2 ih =>
    rename_i i d is ds
    have hp : 0 < count (d :: ds) := count_pos_of_inside (List.Forall₂.cons h1 h2)
    have hp' := count_tail_pos hp
    have hs' := Nat.lt_of_le_of_lt (count_tail_le hp) hs
    have hd := Nat.lt_of_le_of_lt (head_le_count hp) hs
    have hr := ravel_lt h2
    rw [hst (by simp)]
    obtain ⟨c', p', all, e1, a1, a2⟩ := ih (sufs ds) (fun _ => rfl) hs' p
    simp only [sufs, carry, e1, Out.ok_bind]
    have hmul : (i + 1) * count ds ≤ d * count ds := Nat.mul_le_mul_right _ h1
    have hexp : (i + 1) * count ds = i * count ds + count ds := by ring
    by_cases c : ravel ds is + 1 < count ds
    · obtain ⟨rfl, q2, q3, q4⟩ := a1 c
      refine ⟨i :: c', p', false, by simp, ?_, ?_⟩
      · intro _
        refine ⟨rfl, List.Forall₂.cons h1 q2, ?_, q4⟩
        simp only [ravel, q3]; omega
      · intro hc
        simp only [ravel, count] at hc
        omega
    · have c2 : ravel ds is + 1 = count ds := by omega
      obtain ⟨rfl, rfl, q4⟩ := a2 c2
      have hi : (i + 1) % two32 = i + 1 := Nat.mod_eq_of_lt (by omega)
      simp only [if_true, hi]
      by_cases cd : i + 1 = d
      · rw [if_pos cd]
        refine ⟨0 :: List.replicate ds.length 0, _, true, rfl, ?_, ?_⟩
        · intro hc
          exfalso
          simp only [ravel, count] at hc
          rw [cd] at hexp
          omega
        · intro _
          refine ⟨rfl, by simp [List.replicate_succ], ?_⟩
          have t1 : (d + (two32 - 1)) % two32 = d - 1 := by
            have : d + (two32 - 1) = (d - 1) + two32 := by
              have : 0 < two32 := by decide
              omega
            rw [this, Nat.add_mod_right, Nat.mod_eq_of_lt (by omega)]
          have t2 : (d - 1) * count ds % two32 = (d - 1) * count ds := by
            apply Nat.mod_eq_of_lt
            have : (d - 1) * count ds ≤ d * count ds := Nat.mul_le_mul_right _ (by omega)
            simp only [count] at hs
            omega
          rw [t1, t2, q4]
          have t3 : ((d - 1 : Nat) : Int) = (d : Int) - 1 := by omega
          simp only [count]
          push_cast
          rw [t3]
          ring
      · rw [if_neg cd]
        refine ⟨(i + 1) :: List.replicate ds.length 0, p' + (count ds : Nat), false, rfl, ?_, ?_⟩
        · intro _
          refine ⟨rfl, List.Forall₂.cons (by omega) (inside_zero hp'), ?_, ?_⟩
          · simp only [ravel, ravel_replicate]; omega
          · rw [q4]; ring
        · intro hc
          exfalso
          simp only [ravel, count] at hc
          have : (i + 2) * count ds ≤ d * count ds := Nat.mul_le_mul_right _ (by omega)
          have e2 : (i + 2) * count ds = i * count ds + count ds + count ds := by ring
          omega

/-- Frame condition used for sources that may read the array being written. -/
def AgreeOutside {α : Type} (data data' : List α) (lo hi : Nat) : Prop :=
  data'.length = data.length ∧ ∀ q, ¬ (lo ≤ q ∧ q < hi) → data'[q]? = data[q]?

theorem assign_ok_val {α : Type} {asserts : Bool} {v : View} {e : List Nat} {off : Nat} (h : IsView v e off)
    {srcShape : AnyShape} (hsh : ext srcShape = e) {src : Nat → List α → Out α} {data : List α} (val : Nat → α)
    (hfit : off + count e ≤ data.length)
    (hsrc : ∀ k, k < count e → ∀ data' : List α, data'.length = data.length →
      (∀ q : Nat, data'[q]? = if off ≤ q ∧ q < off + k then some (val (q - off)) else data[q]?) → src k data' = .ok (val k)) :
    ∃ data', assign asserts v srcShape src data = .ok data' ∧ data'.length = data.length ∧
      ∀ q, data'[q]? = if off ≤ q ∧ q < off + count e then some (val (q - off)) else data[q]? := by
  have hpos := h.pos
  have loop := doWhile_inv (n := count e - 1) (body := assignBody v src)
    (s := (List.replicate (ndim v.shape) 0, 0, 0, data))
    (P := fun k (s : List Nat × Nat × Int × List α) => s.2.1 = k ∧
      (k < count e → Inside e s.1 ∧ ravel e s.1 = k ∧ s.2.2.1 = k) ∧ s.2.2.2.length = data.length ∧
      ∀ q : Nat, s.2.2.2[q]? = if off ≤ q ∧ q < off + k then some (val (q - off)) else data[q]?)
    (by
      refine ⟨rfl, fun _ => ⟨?_, ?_, rfl⟩, rfl, ?_⟩
      · rw [ndim_eq, h.ext_eq]; exact inside_zero hpos
      · exact ravel_replicate _ _
      · intro q; rw [if_neg (by omega)])
    (by
      rintro k ⟨coord, d, p, dt⟩ hk ⟨h1, h2, h3, h4⟩
      simp only at h1 h2 h3 h4
      subst h1
      obtain ⟨i1, i2, i3⟩ := h2 (by omega)
      obtain ⟨c', p', all, e1, a1, a2⟩ := carry_ok i1 v.stride h.stride_eq h.small p
      have hw : writeAt dt (p + v.offset) (val d) = .ok (dt.set (off + d) (val d)) := by
        rw [i3, h.off_eq]
        have : ((d : Int) + (off : Int)) = ((off + d : Nat) : Int) := by omega
        rw [this, writeAt_nat _ _ _ (by omega)]
      refine ⟨(c', d + 1, p', dt.set (off + d) (val d)), ?_, rfl, ?_, ?_, ?_⟩
      · simp only [assignBody, hsrc d (by omega) dt h3 h4, hw, h.ext_eq, e1, Out.ok_bind, Out.pure_eq]
        congr 2
        by_cases c : d + 1 < count e
        · rw [(a1 (by omega)).1]; simp; omega
        · rw [(a2 (by omega)).1]; simp; omega
      · intro hlt
        obtain ⟨_, b2, b3, b4⟩ := a1 (by omega)
        exact ⟨b2, by simp only; omega, by simp only; rw [b4, i3]; omega⟩
      · simp only [List.length_set]; exact h3
      · intro q
        simp only [List.getElem?_set]
        by_cases c : off + d = q
        · rw [if_pos c, if_pos (by omega), if_pos (by omega)]
          congr 2; omega
        · rw [if_neg c, h4]
          by_cases c2 : off ≤ q ∧ q < off + d
          · rw [if_pos c2, if_pos (by omega)]
          · rw [if_neg c2, if_neg (by omega)])
  obtain ⟨⟨c', d, p, dt⟩, e1, h1, h2, h3, h4⟩ := loop
  refine ⟨dt, ?_, h3, ?_⟩
  · unfold assign
    have : shapeEq (ext v.shape) (ext srcShape) = true := by rw [h.ext_eq, hsh]; exact shapeEq_iff.2 rfl
    simp [this, e1]
  · intro q
    have e3 : count e - 1 + 1 = count e := by omega
    simp only [e3] at h4
    exact h4 q

theorem assign_ok {α : Type} {asserts : Bool} {v : View} {e : List Nat} {off : Nat} (h : IsView v e off)
    {srcShape : AnyShape} (hsh : ext srcShape = e) {src : Nat → List α → Out α} {data : List α} (val : Nat → α)
    (hfit : off + count e ≤ data.length)
    (hsrc : ∀ k, k < count e → ∀ data', AgreeOutside data data' off (off + k) → src k data' = .ok (val k)) :
    ∃ data', assign asserts v srcShape src data = .ok data' ∧ data'.length = data.length ∧
      ∀ q, data'[q]? = if off ≤ q ∧ q < off + count e then some (val (q - off)) else data[q]? :=
  assign_ok_val h hsh val hfit fun k hk data' h1 h2 => hsrc k hk data' ⟨h1, fun q hq => by rw [h2, if_neg hq]⟩

theorem eval_ok {α : Type} {v : View} {e : List Nat} {off : Nat} (h : IsView v e off) {data init : List α}
    (hfit : off + count e ≤ data.length) (hinit : init.length = count e) :
    ∃ res, eval v data init = .ok res ∧ res.length = count e ∧ ∀ k, k < count e → res[k]? = data[off + k]? := by
  have hpos := h.pos
  have loop := doWhile_inv (n := count e - 1) (body := evalBody v data)
    (s := (List.replicate (ndim v.shape) 0, 0, 0, init))
    (P := fun k (s : List Nat × Nat × Int × List α) => s.2.1 = k ∧
      (k < count e → Inside e s.1 ∧ ravel e s.1 = k ∧ s.2.2.1 = k) ∧ s.2.2.2.length = count e ∧
      ∀ q : Nat, q < k → s.2.2.2[q]? = data[off + q]?)
    (by
      refine ⟨rfl, fun _ => ⟨?_, ?_, rfl⟩, hinit, ?_⟩
      · rw [ndim_eq, h.ext_eq]; exact inside_zero hpos
      · exact ravel_replicate _ _
      · intro q hq; omega)
    (by
      rintro k ⟨coord, d, p, dt⟩ hk ⟨h1, h2, h3, h4⟩
      simp only at h1 h2 h3 h4
      subst h1
      obtain ⟨i1, i2, i3⟩ := h2 (by omega)
      obtain ⟨c', p', all, e1, a1, a2⟩ := carry_ok i1 v.stride h.stride_eq h.small p
      have hlt : off + d < data.length := by omega
      have hr : readAt data (p + v.offset) = .ok data[off + d] := by
        rw [i3, h.off_eq]
        have : ((d : Int) + (off : Int)) = ((off + d : Nat) : Int) := by omega
        rw [this, readAt_nat _ _ hlt]
      refine ⟨(c', d + 1, p', dt.set d data[off + d]), ?_, rfl, ?_, ?_, ?_⟩
      · simp only [evalBody, hr, writeAt_nat dt d _ (by omega), h.ext_eq, e1, Out.ok_bind, Out.pure_eq]
        congr 2
        by_cases c : d + 1 < count e
        · rw [(a1 (by omega)).1]; simp; omega
        · rw [(a2 (by omega)).1]; simp; omega
      · intro hlt
        obtain ⟨_, b2, b3, b4⟩ := a1 (by omega)
        exact ⟨b2, by simp only; omega, by simp only; rw [b4, i3]; omega⟩
      · simp only [List.length_set]; exact h3
      · intro q hq
        simp only [List.getElem?_set]
        by_cases c : d = q
        · subst c
          rw [if_pos rfl, if_pos (by omega), List.getElem?_eq_getElem hlt]
        · rw [if_neg c, h4 q (by omega)])
  obtain ⟨⟨c', d, p, dt⟩, e1, h1, h2, h3, h4⟩ := loop
  refine ⟨dt, ?_, h3, ?_⟩
  · simp [eval, e1]
  · intro q hq
    exact h4 q (by omega)

end Verif.ViewM
