import Verif.Spec.Expr
import Verif.Lemmas.Conc
import Verif.Lemmas.View

/-! Lemmas about the evaluation of expressions. -/

namespace Verif.ExprM

open ShapeM Conc

variable {α : Type}

/-- What iteration `i` may read: other arrays, and the elements of `d` it writes. -/
def rd (d w : Nat) (i : Nat) (a : Addr) : Prop := a.1 ≠ d ∨ (a.1 = d ∧ i ≤ a.2 ∧ a.2 < i + w)
/-- What iteration `i` writes. -/
def wr (d w : Nat) (i : Nat) (a : Addr) : Prop := a.1 = d ∧ i ≤ a.2 ∧ a.2 < i + w

theorem rd_self {d w i id j : Nat} (h1 : i ≤ j) (h2 : j < i + w) : rd d w i (id, j) ∨ wr d w i (id, j) := by
  by_cases h : id = d
  · exact Or.inr ⟨h, h1, h2⟩
  · exact Or.inl (Or.inl h)

theorem scalarP_fits {m : Mem α} {d n i : Nat} {e : Expr α} (h : Operands m d n e) (hi : i < n) :
    Fits (rd d 1 i) (wr d 1 i) (scalarP i e) := by
  induction e with
  | arr id => exact ⟨rd_self (Nat.le_refl _) (by omega), fun v => trivial⟩
  | view id v =>
    obtain ⟨hne, h⟩ := h
    obtain ⟨x, hx⟩ := h i hi
    unfold ViewM.scalar at hx
    obtain ⟨p, hp, hr⟩ := Out.bind_eq_ok.1 hx
    simp only [scalarP, hp]
    unfold readAt at hr
    split at hr
    · rename_i h0
      rw [if_pos h0]
      exact ⟨Or.inl (Or.inl hne), fun v => trivial⟩
    · cases hr
  | scalar c => trivial
  | un f e ih => exact Fits.bind (ih h) (fun _ => trivial)
  | bin f l r ihl ihr => exact Fits.bind (ihl h.1) (fun _ => Fits.bind (ihr h.2) (fun _ => trivial))

theorem scalarP_run {m : Mem α} {d n i : Nat} {e : Expr α} (h : Operands m d n e) (hi : i < n) :
    ∃ x, valueAt m i e = some x ∧ run (scalarP i e) m = .ok (x, m) := by
  induction e with
  | arr id =>
    have hl : (m id).length = n := h
    refine ⟨(m id)[i], by simp [valueAt, hl, hi], ?_⟩
    have hg : m.get? (id, i) = some (m id)[i] := by simp [Mem.get?, hl, hi]
    simp [scalarP, run, hg]
  | view id v =>
    obtain ⟨hne, h⟩ := h
    obtain ⟨x, hx⟩ := h i hi
    refine ⟨x, by simp [valueAt, hx], ?_⟩
    unfold ViewM.scalar at hx
    obtain ⟨p, hp, hr⟩ := Out.bind_eq_ok.1 hx
    simp only [scalarP, hp]
    unfold readAt at hr
    split at hr
    · rename_i h0
      rw [if_pos h0]
      split at hr
      · rename_i a ha
        injection hr with hr
        subst hr
        have hg : m.get? (id, p.toNat) = some a := ha
        simp [run, hg]
      · cases hr
    · cases hr
  | scalar c => exact ⟨c, rfl, rfl⟩
  | un f e ih =>
    obtain ⟨x, h1, h2⟩ := ih h
    exact ⟨f x, by simp [valueAt, h1], by simp [scalarP, run_bind, h2, run]⟩
  | bin f l r ihl ihr =>
    obtain ⟨x, h1, h2⟩ := ihl h.1
    obtain ⟨y, h3, h4⟩ := ihr h.2
    exact ⟨f x y, by simp [valueAt, h1, h3], by simp [scalarP, run_bind, h2, h4, run]⟩

theorem loadP_fits {d w i0 : Nat} {id : Nat} (k i : Nat) (h1 : i0 ≤ i) (h2 : i + k ≤ i0 + w) :
    Fits (rd d w i0) (wr d w i0) (loadP id i k : Prog α (List α)) := by
  induction k generalizing i with
  | zero => trivial
  | succ k ih =>
    exact ⟨rd_self h1 (by omega), fun v => Fits.bind (ih (i + 1) (by omega) (by omega)) (fun _ => trivial)⟩

theorem loadP_run {m : Mem α} {id : Nat} (k i : Nat) (h : i + k ≤ (m id).length) :
    run (loadP id i k) m = .ok (((m id).drop i).take k, m) := by
  induction k generalizing i with
  | zero => simp [loadP, run]
  | succ k ih =>
    have hi : i < (m id).length := by omega
    have hg : m.get? (id, i) = some (m id)[i] := by simp [Mem.get?, hi]
    simp only [loadP, run, hg, run_bind, ih (i + 1) (by omega), Out.ok_bind]
    rw [List.drop_eq_getElem_cons hi, List.take_succ_cons]

theorem storeP_fits {d w i0 : Nat} (xs : List α) (i : Nat) (h1 : i0 ≤ i) (h2 : i + xs.length ≤ i0 + w) :
    Fits (rd d w i0) (wr d w i0) (storeP d i xs) := by
  induction xs generalizing i with
  | nil => trivial
  | cons x xs ih =>
    simp only [List.length_cons] at h2
    exact ⟨⟨rfl, h1, by simp; omega⟩, ih (i + 1) (by omega) (by omega)⟩

theorem storeP_run {m : Mem α} {d : Nat} (xs : List α) (i : Nat) (h : i + xs.length ≤ (m d).length) :
    ∃ m', run (storeP d i xs) m = .ok ((), m') ∧
      (∀ k, k < xs.length → m'.get? (d, i + k) = xs[k]?) ∧
      (∀ a, ¬ (a.1 = d ∧ i ≤ a.2 ∧ a.2 < i + xs.length) → m'.get? a = m.get? a) := by
  induction xs generalizing i m with
  | nil => exact ⟨m, rfl, by simp, fun _ _ => rfl⟩
  | cons x xs ih =>
    simp only [List.length_cons] at h
    have hi : i < (m d).length := by omega
    have hg : m.get? (d, i) = some (m d)[i] := by simp [Mem.get?, hi]
    obtain ⟨m', r, h1, h2⟩ := ih (m := m.set (d, i) x) (i + 1) (by rw [length_set]; omega)
    refine ⟨m', by simp only [storeP, run, hg]; exact r, ?_, ?_⟩
    · intro k hk
      cases k with
      | zero =>
        rw [Nat.add_zero, h2 (d, i) (by simp), get?_set_self hg]; rfl
      | succ k =>
        have := h1 k (by simpa using hk)
        rw [show i + (k + 1) = i + 1 + k by omega, this]; rfl
    · intro a ha
      simp only [List.length_cons] at ha
      rw [h2 a (by rintro ⟨g1, g2, g3⟩; exact ha ⟨g1, by omega, by omega⟩), get?_set_ne]
      rintro rfl
      exact ha ⟨rfl, Nat.le_refl _, by simp⟩

theorem packetP_fits {d w i : Nat} {e : Expr α} (h : vectorisable e = true) :
    Fits (rd d w i) (wr d w i) (packetP i w e) := by
  induction e with
  | arr id => exact loadP_fits w i (Nat.le_refl _) (Nat.le_refl _)
  | view id v => simp [vectorisable] at h
  | scalar c => trivial
  | un f e ih => exact Fits.bind (ih h) (fun _ => trivial)
  | bin f l r ihl ihr =>
    simp only [vectorisable, Bool.and_eq_true] at h
    exact Fits.bind (ihl h.1) (fun _ => Fits.bind (ihr h.2) (fun _ => trivial))

theorem packetP_run {m : Mem α} {d n w i : Nat} {e : Expr α} (hv : vectorisable e = true) (h : Operands m d n e)
    (hi : i + w ≤ n) :
    ∃ xs, run (packetP i w e) m = .ok (xs, m) ∧ xs.length = w ∧ ∀ k, k < w → xs[k]? = valueAt m (i + k) e := by
  induction e with
  | arr id =>
    have hl : (m id).length = n := h
    refine ⟨_, loadP_run w i (by omega), by simp; omega, ?_⟩
    intro k hk
    simp [valueAt, hk, List.getElem?_take, List.getElem?_drop]
  | view id v => simp [vectorisable] at hv
  | scalar c =>
    refine ⟨List.replicate w c, rfl, by simp, ?_⟩
    intro k hk
    simp [valueAt, hk]
  | un f e ih =>
    obtain ⟨xs, h1, h2, h3⟩ := ih hv h
    refine ⟨xs.map f, by simp [packetP, run_bind, h1, run], by simp [h2], ?_⟩
    intro k hk
    simp [valueAt, h3 k hk]
  | bin f l r ihl ihr =>
    simp only [vectorisable, Bool.and_eq_true] at hv
    obtain ⟨xs, h1, h2, h3⟩ := ihl hv.1 h.1
    obtain ⟨ys, h4, h5, h6⟩ := ihr hv.2 h.2
    refine ⟨List.zipWith f xs ys, by simp [packetP, run_bind, h1, h4, run], by simp [h2, h5], ?_⟩
    intro k hk
    rw [List.getElem?_zipWith, h3 k hk, h6 k hk]
    simp only [valueAt]
    split <;> simp_all

theorem loadP_rets {id : Nat} (k i : Nat) : Rets (fun xs : List α => xs.length = k) (loadP id i k) := by
  induction k generalizing i with
  | zero => rfl
  | succ k ih =>
    exact fun v => Rets.bind (ih (i + 1)) (fun xs hxs => by simp only [Rets, List.length_cons, hxs])

theorem packetP_rets {w i : Nat} {e : Expr α} (h : vectorisable e = true) :
    Rets (fun xs => xs.length = w) (packetP i w e) := by
  induction e with
  | arr id => exact loadP_rets w i
  | view id v => simp [vectorisable] at h
  | scalar c => simp [packetP, Rets]
  | un f e ih => exact Rets.bind (ih h) (fun xs hxs => by simpa only [Rets, List.length_map] using hxs)
  | bin f l r ihl ihr =>
    simp only [vectorisable, Bool.and_eq_true] at h
    refine Rets.bind (ihl h.1) (fun xs hxs => Rets.bind (ihr h.2) (fun ys hys => ?_))
    simp only [Rets, List.length_zipWith, hxs, hys, Nat.min_self]

theorem exists_vals {m : Mem α} {d n : Nat} {e : Expr α} (h : Operands m d n e) :
    ∃ vals : List α, vals.length = n ∧ ∀ i, i < n → vals[i]? = valueAt m i e := by
  have : ∀ k, k ≤ n → ∃ vals : List α, vals.length = k ∧ ∀ i, i < k → vals[i]? = valueAt m i e := by
    intro k
    induction k with
    | zero => intro _; exact ⟨[], rfl, by simp⟩
    | succ k ih =>
      intro hk
      obtain ⟨vals, h1, h2⟩ := ih (by omega)
      obtain ⟨x, hx, _⟩ := scalarP_run h (i := k) (by omega)
      refine ⟨vals ++ [x], by simp [h1], ?_⟩
      intro i hi
      by_cases hik : i < k
      · rw [List.getElem?_append_left (by omega)]; exact h2 i hik
      · have : i = k := by omega
        subst this
        rw [List.getElem?_append_right (by omega), hx]
        simp [h1]
  exact this n (Nat.le_refl _)

/-- Memory after the first `lo` elements of `d` are assigned. -/
def mix (m : Mem α) (d : Nat) (vals : List α) (lo : Nat) : Mem α :=
  fun id => if id = d then vals.take lo ++ (m d).drop lo else m id

theorem mix_get? {m : Mem α} {d n lo : Nat} {vals : List α} (h1 : vals.length = n) (hd : (m d).length = n) (hlo : lo ≤ n)
    (a : Addr) :
    (mix m d vals lo).get? a = if a.1 = d then (if a.2 < lo then vals[a.2]? else (m d)[a.2]?) else m.get? a := by
  simp only [Mem.get?, mix]
  by_cases ha : a.1 = d
  · simp only [if_pos ha]
    split
    · rename_i hlt
      rw [List.getElem?_append_left (by simp; omega), List.getElem?_take, if_pos hlt]
    · rename_i hlt
      rw [List.getElem?_append_right (by simp; omega), List.getElem?_drop]
      congr 1
      simp; omega
  · simp [ha]

theorem mix_zero {m : Mem α} {d : Nat} {vals : List α} : mix m d vals 0 = m := by
  funext id
  simp only [mix, List.take_zero, List.nil_append, List.drop_zero]
  split
  · rename_i h; rw [h]
  · rfl

theorem mix_operands {m : Mem α} {d n lo : Nat} {vals : List α} {e : Expr α} (h1 : vals.length = n) (hd : (m d).length = n)
    (hlo : lo ≤ n) (h : Operands m d n e) : Operands (mix m d vals lo) d n e := by
  induction e with
  | arr id =>
    have hl : (m id).length = n := h
    show (mix m d vals lo id).length = n
    simp only [mix]
    split
    · simp; omega
    · exact hl
  | view id v =>
    obtain ⟨hne, h⟩ := h
    refine ⟨hne, ?_⟩
    have : mix m d vals lo id = m id := by simp [mix, hne]
    rw [this]; exact h
  | scalar c => trivial
  | un f e ih => exact ih h
  | bin f l r ihl ihr => exact ⟨ihl h.1, ihr h.2⟩

theorem mix_valueAt {m : Mem α} {d n lo i : Nat} {vals : List α} {e : Expr α} (h1 : vals.length = n) (hd : (m d).length = n)
    (hlo : lo ≤ n) (hi : lo ≤ i) (h : Operands m d n e) : valueAt (mix m d vals lo) i e = valueAt m i e := by
  induction e with
  | arr id =>
    have := mix_get? h1 hd hlo (id, i)
    simp only [Mem.get?] at this
    simp only [valueAt, this]
    split
    · rename_i hid
      rw [if_neg (by omega), hid]
    · rfl
  | view id v =>
    have : mix m d vals lo id = m id := by simp [mix, h.1]
    simp only [valueAt, this]
  | scalar c => rfl
  | un f e ih => simp only [valueAt, ih h]
  | bin f l r ihl ihr => simp only [valueAt, ihl h.1, ihr h.2]

/-- The loop over single elements from `lo` on completes the assignment. -/
theorem scalar_loop {m : Mem α} {d n lo : Nat} {e : Expr α} {vals : List α} (h1 : vals.length = n) (hd : (m d).length = n)
    (hlo : lo ≤ n) (h : Operands m d n e) (hv : ∀ i, i < n → vals[i]? = valueAt m i e) :
    LoopOK (scalarBody d e) (indices lo n 1) (rd d 1) (wr d 1) (mix m d vals lo) (mix m d vals n) := by
  refine ⟨nodup_indices, ?_, ?_, ?_, ?_⟩
  · intro i hi
    rw [mem_indices (by omega)] at hi
    exact Fits.bind (scalarP_fits h hi.2.1) (fun x => ⟨⟨rfl, Nat.le_refl _, by simp⟩, trivial⟩)
  · rintro i hi j hj hne a ⟨g1, g2, g3⟩
    refine ⟨?_, ?_⟩
    · rintro ⟨g4, g5, g6⟩; omega
    · rintro (g4 | ⟨g4, g5, g6⟩)
      · exact g4 g1
      · omega
  · intro i hi
    rw [mem_indices (by omega)] at hi
    have ho := mix_operands h1 hd hlo h
    obtain ⟨x, hx, hr⟩ := scalarP_run ho hi.2.1
    rw [mix_valueAt h1 hd hlo hi.1 h, ← hv i hi.2.1] at hx
    have hlen : (mix m d vals lo d).length = n := by simp [mix]; omega
    have hg : (mix m d vals lo).get? (d, i) = some ((mix m d vals lo d)[i]'(by omega)) := by
      simp only [Mem.get?]; exact List.getElem?_eq_getElem _
    refine ⟨(mix m d vals lo).set (d, i) x, by simp only [scalarBody, run_bind, hr, Out.ok_bind, run, hg], ?_⟩
    rintro ⟨a1, a2⟩ ⟨g1, g2, g3⟩
    simp only at g1 g2 g3
    have : a2 = i := by omega
    subst this; subst g1
    rw [get?_set_self hg, mix_get? h1 hd (Nat.le_refl _)]
    simp [hi.2.1, hx]
  · intro a ha
    rw [mix_get? h1 hd (Nat.le_refl _), mix_get? h1 hd hlo]
    split
    · rename_i had
      by_cases h2 : a.2 < lo
      · rw [if_pos h2, if_pos (by omega)]
      · rw [if_neg h2]
        by_cases h3 : a.2 < n
        · exact absurd ⟨had, Nat.le_refl _, by omega⟩ (ha a.2 ((mem_indices (by omega)).2 ⟨by omega, h3, Nat.mod_one _⟩))
        · rw [if_neg h3]
    · rfl

theorem lanes_disjoint {w i j k : Nat} (hw : 0 < w) (hi : i % w = 0) (hj : j % w = 0) (h1 : i ≤ k) (h2 : k < i + w)
    (h3 : j ≤ k) (h4 : k < j + w) : i = j := by
  obtain ⟨a, rfl⟩ := Nat.dvd_of_mod_eq_zero hi
  obtain ⟨b, rfl⟩ := Nat.dvd_of_mod_eq_zero hj
  have : k / w = a := by
    apply Nat.div_eq_of_lt_le
    · rw [Nat.mul_comm]; exact h1
    · rw [Nat.mul_comm, Nat.mul_add, Nat.mul_one]; exact h2
  have h' : k / w = b := by
    apply Nat.div_eq_of_lt_le
    · rw [Nat.mul_comm]; exact h3
    · rw [Nat.mul_comm, Nat.mul_add, Nat.mul_one]; exact h4
  rw [← this, ← h']

theorem vectorSize_le {n w : Nat} : vectorSize n w ≤ n := by unfold vectorSize; omega

theorem vectorSize_mod {n w : Nat} : vectorSize n w % w = 0 := by
  unfold vectorSize
  exact Nat.sub_mod_eq_zero_of_mod_eq (by simp)

theorem packet_fit {n w i : Nat} (hw : 0 < w) (hi : i < vectorSize n w) (hm : i % w = 0) : i + w ≤ vectorSize n w := by
  obtain ⟨a, rfl⟩ := Nat.dvd_of_mod_eq_zero hm
  obtain ⟨b, hb⟩ := Nat.dvd_of_mod_eq_zero (vectorSize_mod (n := n) (w := w))
  rw [hb] at hi ⊢
  have : a < b := Nat.lt_of_mul_lt_mul_left hi
  have := Nat.mul_le_mul_left w (Nat.succ_le_of_lt this)
  rw [Nat.mul_succ] at this
  exact this

/-- The loop over packets assigns the first `vectorSize` elements. -/
theorem packet_loop {m : Mem α} {d n w : Nat} {e : Expr α} {vals : List α} (hw : 0 < w) (h1 : vals.length = n)
    (hd : (m d).length = n) (hvec : vectorisable e = true) (h : Operands m d n e)
    (hv : ∀ i, i < n → vals[i]? = valueAt m i e) :
    LoopOK (packetBody d e w) (indices 0 (vectorSize n w) w) (rd d w) (wr d w) m (mix m d vals (vectorSize n w)) := by
  have hvs : vectorSize n w ≤ n := vectorSize_le
  have hidx : ∀ i, i ∈ indices 0 (vectorSize n w) w → i % w = 0 ∧ i + w ≤ vectorSize n w := by
    intro i hi
    rw [mem_indices hw] at hi
    have : i % w = 0 := by simpa using hi.2.2
    exact ⟨this, packet_fit hw hi.2.1 this⟩
  refine ⟨nodup_indices, ?_, ?_, ?_, ?_⟩
  · intro i hi
    exact Fits.bind' (packetP_fits hvec) (packetP_rets hvec) (fun xs hxs => storeP_fits xs i (Nat.le_refl _) (by omega))
  · rintro i hi j hj hne a ⟨g1, g2, g3⟩
    have e1 := hidx i hi
    have e2 := hidx j hj
    refine ⟨?_, ?_⟩
    · rintro ⟨g4, g5, g6⟩; exact hne (lanes_disjoint hw e1.1 e2.1 g2 g3 g5 g6)
    · rintro (g4 | ⟨g4, g5, g6⟩)
      · exact g4 g1
      · exact hne (lanes_disjoint hw e1.1 e2.1 g2 g3 g5 g6)
  · intro i hi
    have e1 := hidx i hi
    obtain ⟨xs, r1, l1, x1⟩ := packetP_run (w := w) (i := i) hvec h (by omega)
    obtain ⟨m', r2, h3, h4⟩ := storeP_run (m := m) (d := d) xs i (by omega)
    refine ⟨m', by rw [packetBody, run_bind, r1, Out.ok_bind]; exact r2, ?_⟩
    rintro ⟨a1, a2⟩ ⟨g1, g2, g3⟩
    simp only at g1 g2 g3
    subst g1
    have h5 := h3 (a2 - i) (by omega)
    rw [show i + (a2 - i) = a2 by omega] at h5
    rw [h5, x1 _ (by omega), mix_get? h1 hd hvs]
    rw [if_pos rfl, if_pos (by simp; omega), show i + (a2 - i) = a2 by omega]
    exact (hv a2 (by omega)).symm
  · intro a ha
    rw [mix_get? h1 hd hvs]
    split
    · rename_i had
      by_cases h3 : a.2 < vectorSize n w
      · have hlt := Nat.mod_lt a.2 hw
        have hle := Nat.mod_le a.2 w
        have hmod : (a.2 - a.2 % w - 0) % w = 0 := by
          rw [Nat.sub_zero]; exact Nat.sub_mod_eq_zero_of_mod_eq (by simp)
        exact absurd ⟨had, by omega, by omega⟩ (ha (a.2 - a.2 % w) ((mem_indices hw).2 ⟨by omega, by omega, hmod⟩))
      · rw [if_neg h3]
        simp [Mem.get?, had]
    · rfl

theorem packetWidth_pos {cfg : Cfg} (hw : 0 < cfg.width) (e : Expr α) : 0 < cfg.packetWidth e := by
  unfold Cfg.packetWidth; split <;> omega

theorem seqLoops_run {cfg : Cfg} {m : Mem α} {d n : Nat} {e : Expr α} {vals : List α} (hw : 0 < cfg.width)
    (h1 : vals.length = n) (hd : (m d).length = n) (h : Operands m d n e)
    (hv : ∀ i, i < n → vals[i]? = valueAt m i e) : run (seqLoops cfg d e n) m = .ok ((), mix m d vals n) := by
  unfold seqLoops
  split
  · rename_i hvec
    have hvec' : vectorisable e = true := by simp only [Cfg.vec, Bool.and_eq_true] at hvec; exact hvec.2
    rw [run_bind, seq_result (packet_loop (packetWidth_pos hw e) h1 hd hvec' h hv), Out.ok_bind]
    exact seq_result (scalar_loop h1 hd vectorSize_le h hv)
  · have := seq_result (scalar_loop (lo := 0) h1 hd (Nat.zero_le _) h hv)
    rwa [mix_zero] at this

theorem parLoops_ok {cfg : Cfg} {m : Mem α} {d n : Nat} {e : Expr α} {vals : List α} (hw : 0 < cfg.width)
    (hfix : cfg.fixed = true → cfg.vec e = true)
    (h1 : vals.length = n) (hd : (m d).length = n) (h : Operands m d n e)
    (hv : ∀ i, i < n → vals[i]? = valueAt m i e) :
    ∃ mid, ParOK (parBody cfg d e) (parIterations cfg e n) m mid ∧
      run (parTail cfg d e n) mid = .ok ((), mix m d vals n) := by
  by_cases hvec : cfg.vec e = true
  · have hvec' : vectorisable e = true := by
      have := hvec
      simp only [Cfg.vec, Bool.and_eq_true] at this; exact this.2
    refine ⟨mix m d vals (vectorSize n (cfg.packetWidth e)), ?_, ?_⟩
    · simp only [parBody, parIterations, if_pos hvec]
      exact par_result (packet_loop (packetWidth_pos hw e) h1 hd hvec' h hv)
    · simp only [parTail, if_pos hvec]
      exact seq_result (scalar_loop h1 hd vectorSize_le h hv)
  · have hnf : ¬ cfg.fixed = true := fun hf => hvec (hfix hf)
    refine ⟨mix m d vals n, ?_, ?_⟩
    · simp only [parBody, parIterations, if_neg hvec, if_neg hnf]
      have := par_result (scalar_loop (lo := 0) h1 hd (Nat.zero_le _) h hv)
      rwa [mix_zero] at this
    · simp only [parTail, if_neg hvec]
      rfl

/-- The storage after the resize: as long as the expression, all operands as before. -/
theorem resizeDiscard_ok {cfg : Cfg} {junk : List α} {d n : Nat} {m : Mem α} {e : Expr α}
    (hj : junk.length = n) (hfix : cfg.fixed = true → (m d).length = n)
    (hne : cfg.asserts = true → cfg.fixed = false → n ≠ 0) (h : Operands m d n e) :
    ∃ m', resizeDiscard cfg junk d n m = .ok m' ∧ (m' d).length = n ∧ (∀ id, id ≠ d → m' id = m id) ∧
      Operands m' d n e ∧ ∀ i, valueAt m' i e = valueAt m i e := by
  unfold resizeDiscard
  by_cases hf : cfg.fixed = true
  · refine ⟨m, ?_, hfix hf, fun _ _ => rfl, h, fun _ => rfl⟩
    rw [if_pos hf, if_neg]
    simp [hfix hf]
  · rw [if_neg hf]
    have : ¬ (cfg.asserts && decide (n = 0)) = true := by
      intro hh
      simp only [Bool.and_eq_true, decide_eq_true_eq] at hh
      exact hne hh.1 (by simpa using hf) hh.2
    rw [if_neg this]
    by_cases hl : (m d).length = n
    · rw [if_pos hl]
      exact ⟨m, rfl, hl, fun _ _ => rfl, h, fun _ => rfl⟩
    · rw [if_neg hl]
      have hag : ∀ e : Expr α, Operands m d n e →
          Operands (fun id => if id = d then junk else m id) d n e ∧
            ∀ i, valueAt (fun id => if id = d then junk else m id) i e = valueAt m i e := by
        intro e
        induction e with
        | arr id =>
          intro ho
          have ho' : (m id).length = n := ho
          have hid : id ≠ d := by rintro rfl; exact hl ho'
          exact ⟨by simp [Operands, hid, ho'], fun i => by simp [valueAt, hid]⟩
        | view id v =>
          intro ho
          exact ⟨⟨ho.1, by simp only [if_neg ho.1]; exact ho.2⟩, fun i => by simp only [valueAt, if_neg ho.1]⟩
        | scalar c => intro _; exact ⟨trivial, fun _ => rfl⟩
        | un f e ih => intro ho; exact ⟨(ih ho).1, fun i => by simp only [valueAt, (ih ho).2 i]⟩
        | bin f l r ihl ihr =>
          intro ho
          exact ⟨⟨(ihl ho.1).1, (ihr ho.2).1⟩, fun i => by simp only [valueAt, (ihl ho.1).2 i, (ihr ho.2).2 i]⟩
      exact ⟨_, rfl, by simp [hj], fun id hid => by simp [hid], (hag e h).1, (hag e h).2⟩

end Verif.ExprM
