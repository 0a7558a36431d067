import Verif.Model.Print
import Verif.Lemmas.View
import Mathlib.Data.List.Basic

/-! What the formatting code writes, as a function of the extents. -/

namespace Verif.Print

open ShapeM ViewM Grid

/-- `forUp` over a body that appends. -/
theorem forUp_append {β : Type} {d : Nat} {body : Nat → List β → Out (List β)} (f : Nat → List β)
    (h : ∀ i ctx, i < d → body i ctx = .ok (ctx ++ f i)) (ctx : List β) :
    forUp 0 d body ctx = .ok (ctx ++ (List.range d).flatMap f) := by
  obtain ⟨r, e1, e2⟩ := forUp_inv (fun i (r : List β) => r = ctx ++ (List.range i).flatMap f) (lo := 0) (hi := d) (body := body) (s := ctx)
    (Nat.zero_le _) (by simp) (by
      rintro i s - hi rfl
      refine ⟨_, h i _ hi, ?_⟩
      rw [List.range_succ, List.flatMap_append]
      simp)
  rw [e1, e2]

/-- `forUp` over a body that folds. -/
theorem forUp_foldl {σ : Type} {d : Nat} {body : Nat → σ → Out σ} (f : σ → Nat → σ) (P : Nat → σ → Prop) (hP : ∀ i s, P i s → P (i + 1) (f s i))
    (h : ∀ i s, i < d → P i s → body i s = .ok (f s i)) (s : σ) (h0 : P 0 s) :
    forUp 0 d body s = .ok ((List.range d).foldl f s) := by
  obtain ⟨r, e1, e2⟩ := forUp_inv (fun i r => r = (List.range i).foldl f s ∧ P i r) (lo := 0) (hi := d) (body := body) (s := s)
    (Nat.zero_le _) ⟨rfl, h0⟩ (by
      rintro i r - hi ⟨rfl, hp⟩
      refine ⟨_, h i _ hi hp, ?_, hP _ _ hp⟩
      rw [List.range_succ, List.foldl_append]
      rfl)
  rw [e1, e2.1]

/-- The view shows extents `e`, its elements being those of the storage from position `off` on. -/
def Rows (asserts : Bool) : View → List Nat → Nat → Prop
  | v, [], off => ext v.shape = [] ∧ scalarPos v 0 = .ok ((off : Nat) : Int)
  | v, [d], off => ext v.shape = [d] ∧ ∀ k, k < d → scalarPos v k = .ok ((off + k : Nat) : Int)
  | v, d :: d' :: ds, off => ext v.shape = d :: d' :: ds ∧
    ∀ i, i < d → ∃ v', index asserts v i = .ok v' ∧ Rows asserts v' (d' :: ds) (off + i * count (d' :: ds))

theorem Rows.ext_eq {asserts : Bool} : ∀ {e : List Nat} {v : View} {off : Nat}, Rows asserts v e off → ext v.shape = e
  | [], _, _, h => h.1
  | [_], _, _, h => h.1
  | _ :: _ :: _, _, _, h => h.1

theorem rows_isView {asserts : Bool} : ∀ {e : List Nat} {v : View} {off : Nat}, IsView v e off → Rows asserts v e off
  | [], v, off, h => ⟨h.ext_eq, by simpa using scalarPos_ok h (k := 0) (by simp [count])⟩
  | [d], v, off, h => ⟨h.ext_eq, fun k hk => scalarPos_ok h (by simpa [count] using hk)⟩
  | d :: d' :: ds, v, off, h => ⟨h.ext_eq, fun i hi => by
      obtain ⟨v', h1, h2⟩ := index_ok (asserts := asserts) h hi
      exact ⟨v', h1, rows_isView h2⟩⟩

/-- Subscripting inside the first extent succeeds on every array, also one without elements. -/
theorem index_hasExt' {asserts : Bool} {v : View} {d : Nat} {ds : List Nat} {i : Nat} (h : HasExt v (d :: ds)) (hi : i < d) :
    ∃ v', index asserts v i = .ok v' ∧ HasExt v' ds := by
  have hne : ext v.shape ≠ [] := by rw [h.ext_eq]; simp
  have hat := at_ok asserts v.shape 0 (by rw [h.ext_eq]; simp)
  have hat' : at' asserts v.shape 0 = .ok d := by
    have : (ext v.shape)[0]'(by rw [h.ext_eq]; simp) = d := by simp [h.ext_eq]
    rw [← this]; exact hat
  obtain ⟨st, hst, hl⟩ := mkStride_length (s := v.shape) hne
  have hsub := subshape_tail (asserts := asserts) h.notVec hne
  rw [h.ext_eq] at hsub
  have hcheck : (decide ((0 : Int) ≤ (i : Int)) && decide ((i : Int) < (d : Int))) = true := by simp; exact hi
  have key : ∃ st', subStride asserts v.shape st = .ok st' := by
    cases ds with
    | nil =>
      refine ⟨[1], ?_⟩
      rw [subStride, if_pos (by rw [ndim_eq, h.ext_eq]; rfl)]
      decide
    | cons d' ds' =>
      refine ⟨st.drop 1, ?_⟩
      rw [subStride, if_neg (by rw [ndim_eq, h.ext_eq]; simp)]
      rw [substride_ok h.notVec h.ext_eq hl]
  obtain ⟨st', e1⟩ := key
  have hlen : 0 < st.length := by rw [hl, h.ext_eq]; simp
  have h0' : readAt st 0 = .ok st[0] := readAt_nat st 0 hlen
  refine ⟨⟨.shape ds, st', v.offset + i * (st[0] : Nat)⟩, ?_, ⟨rfl, by simp⟩⟩
  have hb : boundCheck asserts v.shape (i : Int) = .ok () := by
    unfold boundCheck
    cases asserts with
    | true => rw [if_pos rfl, hat', Out.ok_bind, hcheck]; rfl
    | false => rfl
  simp only [index, hb, Out.ok_bind, hst, hsub, e1, h0']
  rfl

theorem rows_empty {asserts : Bool} : ∀ {e : List Nat} {v : View} {off : Nat}, HasExt v e → count e = 0 → Rows asserts v e off
  | [], _, _, _, h0 => by simp [count] at h0
  | [d], v, off, h, h0 => ⟨h.ext_eq, fun k hk => by simp [count] at h0; omega⟩
  | d :: d' :: ds, v, off, h, h0 => ⟨h.ext_eq, fun i hi => by
      obtain ⟨v', h1, h2⟩ := index_hasExt' (asserts := asserts) h hi
      refine ⟨v', h1, rows_empty h2 ?_⟩
      rw [count] at h0
      rcases Nat.mul_eq_zero.1 h0 with h3 | h3
      · omega
      · exact h3⟩

/-- Every array with at least one dimension and fewer than 2^32 elements. -/
theorem rows_ofArray {asserts : Bool} {s : AnyShape} (hn : ext s ≠ []) (hc : count (ext s) < two32) :
    ∃ v, ofArray s = .ok v ∧ v.shape = s ∧ Rows asserts v (ext s) 0 := by
  by_cases hv : ∀ n, s ≠ .vector n
  · by_cases hp : 0 < count (ext s)
    · obtain ⟨v, h1, h2⟩ := isView_ofArray hv hp hc hn
      refine ⟨v, h1, ?_, rows_isView h2⟩
      unfold ofArray at h1
      obtain ⟨st, -, h4⟩ := Out.bind_eq_ok.1 h1
      cases h4; rfl
    · obtain ⟨st, hst, -⟩ := mkStride_length (s := s) hn
      refine ⟨⟨s, st, 0⟩, by simp [ofArray, hst], rfl, rows_empty ⟨rfl, hv⟩ (by omega)⟩
  · have : ∃ n, s = .vector n := by
      by_contra h
      exact hv fun n hn => h ⟨n, hn⟩
    obtain ⟨n, rfl⟩ := this
    obtain ⟨st, hst, hl⟩ := mkStride_length (s := .vector n) hn
    refine ⟨⟨.vector n, st, 0⟩, by simp [ofArray, hst], rfl, rfl, fun k hk => ?_⟩
    have hk' : k < count [n] := by simpa [count] using hk
    have hst1 : st = [1] := by
      have hnz : n ≠ 0 := by omega
      have h2 : mkStride (.vector n) = .ok [1] := by
        unfold mkStride
        rw [if_neg (by simpa [size] using hnz), if_neg (by simp [ndim])]
        rfl
      rw [h2] at hst
      exact (Out.ok.inj hst).symm
    subst hst1
    unfold scalarPos
    rw [if_neg (by simp [ndim])]
    simp only [ext, List.reverse_singleton, decodeRev]
    rw [if_neg (by omega)]
    simp only [Out.ok_bind, Out.pure_eq, List.reverse_singleton, dotStride, Nat.mul_one, Nat.add_zero]
    have hsmall : n < two32 := by simpa [ext, count] using hc
    rw [Nat.mod_eq_of_lt hk, Nat.mod_eq_of_lt (by omega)]
    simp

/-! ### The columns -/

theorem at_zero {asserts : Bool} {v : View} {d : Nat} {ds : List Nat} (h : ext v.shape = d :: ds) : at' asserts v.shape 0 = .ok d := by
  have hat := at_ok asserts v.shape 0 (by rw [h]; simp)
  have : (ext v.shape)[0]'(by rw [h]; simp) = d := by simp [h]
  rw [← this]; exact hat

theorem scalar_ok {α : Type} {v : View} {data : List α} {k p : Nat} (h : scalarPos v k = .ok ((p : Nat) : Int)) (hp : p < data.length) :
    scalar v data k = .ok data[p] := by
  unfold scalar
  rw [h, Out.ok_bind, readAt_nat _ _ hp]

/-- The pure part of `record`. -/
def upd (acc : List (Int × Int)) (i : Nat) (p : Int × Int) : List (Int × Int) :=
  match acc[i]? with
  | none => acc ++ [p]
  | some q => acc.set i (max q.1 p.1, max q.2 p.2)

theorem record_eq (acc : List (Int × Int)) (i : Nat) (p : Int × Int) : record acc i p = .ok (upd acc i p) := by
  unfold record upd
  by_cases h : i < acc.length
  · rw [if_neg (by omega), readAt_nat _ _ h, Out.ok_bind, writeAt_nat _ _ _ h, List.getElem?_eq_getElem h]
  · rw [if_pos (by omega), List.getElem?_eq_none (by omega)]

/-- The columns after recording the elements in `data` from position `off` on, `n` of them, in rows of `w`. -/
def foldCols (al : α → Int × Int) (data : List α) (w off n : Nat) (acc : List (Int × Int)) : List (Int × Int) :=
  (List.range n).foldl (fun acc k => match data[off + k]? with | some x => upd acc (k % w) (al x) | none => acc) acc

theorem foldCols_add (al : α → Int × Int) (data : List α) (w off m n : Nat) (hw : w ∣ m) (acc : List (Int × Int)) :
    foldCols al data w off (m + n) acc = foldCols al data w (off + m) n (foldCols al data w off m acc) := by
  unfold foldCols
  rw [List.range_add, List.foldl_append, List.foldl_map]
  congr 1
  funext acc k
  rw [Nat.add_assoc]
  obtain ⟨c, rfl⟩ := hw
  rw [Nat.mul_add_mod]

theorem last_dvd : ∀ {e : List Nat} (h : e ≠ []), e.getLast h ∣ count e
  | [d], _ => by simp [count]
  | d :: d' :: ds, _ => by
    rw [List.getLast_cons (by simp), count]
    exact (last_dvd (by simp)).mul_left _

theorem colWidths_ok {α : Type} {asserts : Bool} {al : α → Int × Int} {data : List α} : ∀ {e : List Nat} (he : e ≠ []) {fuel : Nat} (_ : e.length ≤ fuel + 1)
    {v : View} {off : Nat} (_ : Rows asserts v e off) (_ : off + count e ≤ data.length) (acc : List (Int × Int)),
    colWidths asserts al data fuel v acc = .ok (foldCols al data (e.getLast he) off (count e) acc)
  | [d], _, fuel, _, v, off, hr, hlen, acc => by
    have h1 : ndim v.shape = 1 := by rw [ndim_eq, hr.ext_eq]; rfl
    rw [colWidths.eq_def]; dsimp only; rw [if_pos h1, at_zero hr.ext_eq, Out.ok_bind]
    have hc : count [d] = d := by simp [count]
    rw [hc] at hlen ⊢
    simp only [List.getLast_singleton]
    unfold foldCols
    refine forUp_foldl _ (fun _ _ => True) (fun _ _ _ => trivial) (fun i s hi _ => ?_) acc trivial
    rw [scalar_ok (hr.2 i hi) (by omega), Out.ok_bind, record_eq, List.getElem?_eq_getElem (by omega), Nat.mod_eq_of_lt hi]
  | d :: d' :: ds, _, 0, hf, _, _, _, _, _ => by simp at hf
  | d :: d' :: ds, _, fuel + 1, hf, v, off, hr, hlen, acc => by
    have h1 : ndim v.shape = ds.length + 2 := by rw [ndim_eq, hr.ext_eq]; simp
    rw [colWidths, if_neg (by omega), if_pos (by omega)]
    rw [at_zero hr.ext_eq, Out.ok_bind]
    have hcnt : count (d :: d' :: ds) = d * count (d' :: ds) := rfl
    rw [hcnt] at hlen ⊢
    rw [List.getLast_cons (by simp)]
    have hdv := last_dvd (e := d' :: ds) (by simp)
    obtain ⟨r, e1, e2⟩ := forUp_inv (fun i r => r = foldCols al data ((d' :: ds).getLast (by simp)) off (i * count (d' :: ds)) acc)
      (lo := 0) (hi := d) (body := fun i acc => do
          let v' ← index asserts v (i : Nat)
          colWidths asserts al data fuel v' acc) (s := acc) (Nat.zero_le _) (by simp [foldCols]) (by
        rintro i r - hi rfl
        obtain ⟨v', h2, h3⟩ := hr.2 i hi
        have hb : (i + 1) * count (d' :: ds) ≤ d * count (d' :: ds) := Nat.mul_le_mul_right _ hi
        have hs : (i + 1) * count (d' :: ds) = i * count (d' :: ds) + count (d' :: ds) := by rw [Nat.add_mul, Nat.one_mul]
        refine ⟨_, ?_, rfl⟩
        rw [h2, Out.ok_bind, colWidths_ok (e := d' :: ds) (by simp) (by simp at hf ⊢; omega) h3 (by omega), hs,
          foldCols_add _ _ _ _ _ _ (hdv.mul_left _)])
    rw [e1, e2]

/-- After recording, column `k % w` is at least as wide as element `k` needs. -/
theorem foldCols_spec {α : Type} (al : α → Int × Int) (data : List α) {w : Nat} (hw : 0 < w) : ∀ n, n ≤ data.length →
    (foldCols al data w 0 n []).length = min n w ∧
    ∀ k, k < n → ∀ x, data[k]? = some x → ∃ q, (foldCols al data w 0 n [])[k % w]? = some q ∧ (al x).1 ≤ q.1 ∧ (al x).2 ≤ q.2
  | 0, _ => ⟨by simp [foldCols], fun k hk => by omega⟩
  | n + 1, hn => by
    obtain ⟨h1, h2⟩ := foldCols_spec al data hw n (by omega)
    have hstep : foldCols al data w 0 (n + 1) [] = upd (foldCols al data w 0 n []) (n % w) (al data[n]) := by
      unfold foldCols
      rw [List.range_succ, List.foldl_append]
      simp only [List.foldl_cons, List.foldl_nil, Nat.zero_add]
      rw [List.getElem?_eq_getElem (by omega)]
    rw [hstep]
    generalize hacc : foldCols al data w 0 n [] = acc at h1 h2
    have hmod := Nat.mod_lt n hw
    by_cases hlt : n < w
    · have hnw : n % w = n := Nat.mod_eq_of_lt hlt
      have hu : upd acc (n % w) (al data[n]) = acc ++ [al data[n]] := by
        unfold upd
        rw [List.getElem?_eq_none (by omega)]
      rw [hu]
      refine ⟨by simp; omega, fun k hk x hx => ?_⟩
      by_cases hkn : k = n
      · subst hkn
        rw [List.getElem?_eq_getElem (by omega)] at hx
        have hx := Option.some.inj hx
        subst hx
        refine ⟨al data[k], ?_, Int.le_refl _, Int.le_refl _⟩
        rw [List.getElem?_append_right (by omega), show k % w - acc.length = 0 by omega]
        rfl
      · obtain ⟨q, hq, hq1⟩ := h2 k (by omega) x hx
        refine ⟨q, ?_, hq1⟩
        have := List.getElem?_eq_some_iff.1 hq
        obtain ⟨hl, -⟩ := this
        rw [List.getElem?_append_left hl]; exact hq
    · have hal : acc.length = w := by omega
      have hu : upd acc (n % w) (al data[n]) =
          acc.set (n % w) (max (acc[n % w]'(by omega)).1 (al data[n]).1, max (acc[n % w]'(by omega)).2 (al data[n]).2) := by
        unfold upd
        rw [List.getElem?_eq_getElem (by omega)]
      rw [hu]
      refine ⟨by simp; omega, fun k hk x hx => ?_⟩
      by_cases hkn : k % w = n % w
      · rw [hkn, List.getElem?_set_self (by omega)]
        refine ⟨_, rfl, ?_⟩
        by_cases hk2 : k = n
        · subst hk2
          rw [List.getElem?_eq_getElem (by omega)] at hx
          have hx := Option.some.inj hx
          subst hx
          exact ⟨Int.le_max_right _ _, Int.le_max_right _ _⟩
        · obtain ⟨q, hq, hq1, hq2⟩ := h2 k (by omega) x hx
          rw [hkn, List.getElem?_eq_getElem (by omega)] at hq
          rw [← Option.some.inj hq] at hq1 hq2
          exact ⟨Int.le_trans hq1 (Int.le_max_left _ _), Int.le_trans hq2 (Int.le_max_left _ _)⟩
      · have hk2 : k ≠ n := fun h => hkn (by rw [h])
        obtain ⟨q, hq, hq1⟩ := h2 k (by omega) x hx
        refine ⟨q, ?_, hq1⟩
        rw [List.getElem?_set_ne (Ne.symm hkn)]; exact hq

/-! ### What is written -/

/-- The cell of the element at position `p` in column `i` of a row of `d`. -/
def cellAt (al : α → Int × Int) (separator : Char) (data : List α) (cols : List (Int × Int)) (d p i : Nat) : List (Tok α) :=
  match cols[i]?, data[p]? with
  | some c, some x => cell al separator c x (decide (i + 1 = d))
  | _, _ => []

/-- What is written for extents `e` and the elements from position `off` on. -/
def block (al : α → Int × Int) (separator : Char) (data : List α) (cols : List (Int × Int)) : List Nat → Nat → Nat → List (Tok α)
  | [], off, _ => match data[off]? with | some x => [.elem x] | none => []
  | [d], off, _ => .opn :: (List.range d).flatMap (fun i => cellAt al separator data cols d (off + i) i) ++ [.cls]
  | d :: d' :: ds, off, indent =>
    .opn :: (List.range d).flatMap (fun i => (if i > 0 then spaces (indent + 1) else []) ++
      block al separator data cols (d' :: ds) (off + i * count (d' :: ds)) (indent + 1) ++
      if i + 1 = d then [] else lineAfter separator (ds.length + 2)) ++ [.cls]

theorem write_ok {α : Type} {asserts : Bool} {al : α → Int × Int} {separator : Char} {data : List α} {cols : List (Int × Int)} :
    ∀ {e : List Nat} {fuel : Nat} (_ : e.length ≤ fuel + 1) {v : View} {off : Nat} (_ : Rows asserts v e off)
    (_ : off + count e ≤ data.length) (_ : ∀ h : e ≠ [], 0 < count e → e.getLast h ≤ cols.length) (indent : Nat) (ctx : List (Tok α)),
    write asserts al separator data cols fuel v indent ctx = .ok (ctx ++ block al separator data cols e off indent)
  | [], fuel, _, v, off, hr, hlen, _, indent, ctx => by
    have h1 : ndim v.shape = 0 := by rw [ndim_eq, hr.ext_eq]; rfl
    have hc : count [] = 1 := rfl
    rw [hc] at hlen
    rw [write.eq_def]; dsimp only; rw [if_pos h1, scalar_ok hr.2 (by omega), Out.ok_bind, block, List.getElem?_eq_getElem (by omega)]
  | [d], fuel, _, v, off, hr, hlen, hcols, indent, ctx => by
    have h1 : ndim v.shape = 1 := by rw [ndim_eq, hr.ext_eq]; rfl
    have hc : count [d] = d := by simp [count]
    rw [hc] at hlen hcols
    rw [write.eq_def]; dsimp only; rw [if_neg (by omega), if_pos h1, at_zero hr.ext_eq, Out.ok_bind]
    rw [forUp_append (fun i => cellAt al separator data cols d (off + i) i) (fun i ctx hi => ?_)]
    · simp [block]
    · have hl : i < cols.length := by
        have := hcols (by simp) (by omega)
        simp at this; omega
      rw [readAt_nat _ _ hl, Out.ok_bind, scalar_ok (hr.2 i hi) (by omega), Out.ok_bind]
      unfold cellAt
      rw [List.getElem?_eq_getElem hl, List.getElem?_eq_getElem (by omega)]
      simp only
      congr 4
      apply propext
      omega
  | d :: d' :: ds, 0, hf, _, _, _, _, _, _, _ => by simp at hf
  | d :: d' :: ds, fuel + 1, hf, v, off, hr, hlen, hcols, indent, ctx => by
    have h1 : ndim v.shape = ds.length + 2 := by rw [ndim_eq, hr.ext_eq]; simp
    have hcnt : count (d :: d' :: ds) = d * count (d' :: ds) := rfl
    rw [hcnt] at hlen hcols
    rw [write, if_neg (by omega), if_neg (by omega)]
    rw [at_zero hr.ext_eq, Out.ok_bind]
    rw [forUp_append (fun i => (if i > 0 then spaces (indent + 1) else []) ++
      block al separator data cols (d' :: ds) (off + i * count (d' :: ds)) (indent + 1) ++
      if i + 1 = d then [] else lineAfter separator (ds.length + 2)) (fun i ctx hi => ?_)]
    · simp [block]
    · obtain ⟨v', h2, h3⟩ := hr.2 i hi
      have hb : (i + 1) * count (d' :: ds) ≤ d * count (d' :: ds) := Nat.mul_le_mul_right _ hi
      have hs : (i + 1) * count (d' :: ds) = i * count (d' :: ds) + count (d' :: ds) := by rw [Nat.add_mul, Nat.one_mul]
      rw [h2, Out.ok_bind, write_ok (e := d' :: ds) (by simp at hf ⊢; omega) h3 (by omega) (fun hne hp => by
        have := hcols (by simp) (Nat.mul_pos (by omega) hp)
        rw [List.getLast_cons (by simp)] at this
        exact this), Out.ok_bind, h1]
      have hcond : ((i : Int) = (d : Int) - 1) ↔ i + 1 = d := by omega
      simp only [hcond, List.append_assoc]

end Verif.Print
