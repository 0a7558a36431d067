import Verif.Props.BlasTbTFl

/-! Property theorems for the products with packed and banded triangular matrices in floating point (C176). -/

namespace Verif.Blas

open Finset Verif.Ieee

variable {f : Fmt}

theorem fl_zero_add (a : Fl f) : 0 + a = a := by
  obtain ⟨v, hv⟩ := a
  change Fl.round f (0 + v) = _
  unfold Fl.round
  simp only [zero_add, rnd_of_repr hv]

/-! ### Inner products -/

section
variable {R : Rows} {u : UpLo} {d : Diag} {c : Bool} {n : Nat} {x incX : Int} {m : Mem (Fl f)} {Q : Nat → Nat → Fl f} {xv : Nat → Fl f}

/-- Pass of the product that takes inner products. -/
def pMvF (R : Rows) (u : UpLo) (c : Bool) (d : Diag) (n : Nat) (Q : Nat → Nat → Fl f) (i : Nat) (w : Nat → Fl f) (j : Nat) : Fl f :=
  if j = i then prodRow u false c d n (rowM R Q) w i else w j

theorem prodRow_congr {P : Nat → Nat → Fl f} {w w' : Nat → Fl f} {i : Nat}
    (h : ∀ j, (if u = .upper then i ≤ j ∧ (i = j ∨ j < n) else j ≤ i) → w j = w' j) :
    prodRow u false c d n P w i = prodRow u false c d n P w' i := by
  unfold prodRow
  cases u
  · simp only [if_true] at h
    rw [if_pos (show triUp .upper false = true from rfl), if_pos (show triUp .upper false = true from rfl),
      if_pos (show triUp .upper false = true from rfl), if_pos (show triUp .upper false = true from rfl),
      h i ⟨Nat.le_refl _, Or.inl rfl⟩, dotL_congr (n := n - i - 1) fun k hk => h (i + 1 + k) ⟨by omega, by omega⟩,
      dotL_congr (n := n - i) (b := fun k => w (i + k)) fun k hk => h (i + k) ⟨by omega, by omega⟩]
  · simp only [reduceCtorEq, if_false] at h
    have e : triUp .lower false ≠ true := by decide
    rw [if_neg e, if_neg e, if_neg e, if_neg e, h i (Nat.le_refl _), dotL_congr (n := i) fun k hk => h k (by omega),
      dotL_congr (n := i + 1) (b := w) fun k hk => h k (by omega)]

theorem trace_mvF {σ : Nat → Nat} (h : Ord n σ) (hσ : ∀ i j, i < n → j < n → (if u = .upper then i < j else j < i) → σ i < σ j) :
    Trace (pMvF R u c d n Q) σ n xv (prodRow u false c d n (rowM R Q) xv) := by
  refine ⟨fun k j => if σ j < k then prodRow u false c d n (rowM R Q) xv j else xv j, fun i _ => by simp, fun k hk i hi => ?_,
    fun i hi => if_pos (h.lt i hi)⟩
  have hs := h.lt k hk
  unfold pMvF
  beta_reduce
  by_cases e : i = σ k
  · subst e
    rw [if_pos rfl, h.inv k hk, if_pos (Nat.lt_succ_self k)]
    refine prodRow_congr fun j hj => ?_
    by_cases e : j = σ k
    · subst e
      rw [h.inv k hk, if_neg (Nat.lt_irrefl k)]
    · have hjn : j < n := by cases u <;> simp only [if_true, reduceCtorEq, if_false] at hj <;> omega
      have := hσ (σ k) j hs hjn (by cases u <;> simp only [if_true, reduceCtorEq, if_false] at hj ⊢ <;> omega)
      rw [h.inv k hk] at this
      rw [if_neg (by omega)]
  · have h1 : σ i ≠ k := fun e' => e ((h.eq_iff hi hk).1 e')
    rw [if_neg e]
    by_cases h2 : σ i < k
    · rw [if_pos h2, if_pos (by omega)]
    · rw [if_neg h2, if_neg (by omega)]

theorem snap_upd (hi : incX ≠ 0) {i : Nat} (h : i < n) (w : Nat → Fl f) {v : Fl f} (hv : prodRow u false c d n (rowM R Q) w i = v) :
    set (snap m x incX n w) (elem x incX n i) v = snap m x incX n (pMvF R u c d n Q i w) := by
  rw [snap_set hi h]
  refine snap_congr hi fun j _ => ?_
  unfold pMvF
  by_cases e : j = i
  · subst e; simp [hv]
  · simp [e]

theorem pass_incF (hR : TriRows R u n) (hA : RowsAtD m R .unit n Q) (hi : incX ≠ 0) (hdA : RowsDisjD R .unit n x incX) {i : Nat}
    (h : i < n) (w : Nat → Fl f) :
    incDot (dotC c (R.len i - 1) (sA R u i) 1 (start n x incX + (sS R u i : Int) * incX) incX)
      (start n x incX + (i : Int) * incX) (snap m x incX n w) = .ok ((), snap m x incX n (pMvF R u c .unit n Q i w)) := by
  have he : start n x incX + (i : Int) * incX = elem x incX n i := start_elem ..
  have hd : dotC c (R.len i - 1) (sA R u i) 1 (start n x incX + (sS R u i : Int) * incX) incX (snap m x incX n w) =
      .ok (solveSum u false c n (rowM R Q) w i, snap m x incX n w) := by
    rw [← strict_solveSum hR h]
    refine dotC_fold (xv := fun k => Q i (sS R u i + k)) (yv := fun k => w (sS R u i + k)) (fun k hk' => ?_) fun k hk' => ?_
    · rw [mul_one, snap_out fun j hj => strict_disj hR hdA h k j hk' hj]
      exact strict_at hR hA h k hk'
    · rw [elem_shift]
      have := hR.sS_le h
      exact snap_in hi (by omega)
  unfold incDot
  rw [bind_ok hd, he, bind_ok (load_ok (snap_in hi h)), store_ok (by rw [snap_in hi h]; simp), snap_upd hi h]
  unfold prodRow solveSum
  rw [if_pos rfl]
  split <;> rfl

/-- The sum over the stored part of a row is that over the whole row. -/
theorem full_prodRow (hR : TriRows R u n) {i : Nat} (h : i < n) (w : Nat → Fl f) :
    prodRow u false c .nonUnit n (rowM R Q) w i =
      dotL (R.len i) (fun k => cj c (Q i (R.first i + k))) fun k => w (R.first i + k) := by
  have h1 := hR.pos i h
  have h2 := hR.le i h
  simp only [cj_val, prodRow, triE_fl, reduceCtorEq, if_false]
  cases u
  · have h3 := hR.up rfl i h
    rw [if_pos (show triUp .upper false = true from rfl), h3]
    have := dotL_seg (s := 0) (len := R.len i) (n := n - i) (by omega) (fun k => Q i (i + k)) fun k => w (i + k)
    simp only [Nat.zero_add] at this
    rw [← this, dotL_comm, dotL_comm (b := fun k => w (i + k))]
    refine dotL_congr fun k hk => ?_
    unfold rowM seg
    by_cases hc : k < R.len i
    · rw [if_pos (by omega), if_pos (by omega)]
    · rw [if_neg (by omega), if_neg (by omega)]
  · have h3 := hR.lo rfl i h
    rw [if_neg (show ¬ triUp .lower false = true by decide)]
    exact dotL_seg (by omega) (Q i) w

theorem pass_setF (hR : TriRows R u n) (hA : RowsAtD m R .nonUnit n Q) (hi : incX ≠ 0) (hdA : RowsDisjD R .nonUnit n x incX) {i : Nat}
    (h : i < n) (w : Nat → Fl f) :
    setDot (dotC c (R.len i) (R.row i) 1 (start n x incX + (R.first i : Int) * incX) incX)
      (start n x incX + (i : Int) * incX) (snap m x incX n w) = .ok ((), snap m x incX n (pMvF R u c .nonUnit n Q i w)) := by
  have he : start n x incX + (i : Int) * incX = elem x incX n i := start_elem ..
  have hd : dotC c (R.len i) (R.row i) 1 (start n x incX + (R.first i : Int) * incX) incX (snap m x incX n w) =
      .ok (prodRow u false c .nonUnit n (rowM R Q) w i, snap m x incX n w) := by
    rw [full_prodRow hR h]
    refine dotC_fold (xv := fun k => Q i (R.first i + k)) (yv := fun k => w (R.first i + k)) (fun k hk' => ?_) fun k hk' => ?_
    · rw [mul_one, snap_out fun j hj => hdA i k j h hk' (by simp) hj]
      exact hA i k h hk' (by simp)
    · rw [elem_shift]
      have := hR.le i h
      exact snap_in hi (by omega)
  unfold setDot
  rw [bind_ok hd, he, store_ok (by rw [snap_in hi h]; simp), snap_upd hi h _ rfl]

theorem pMvF_skip {i : Nat} (hl : i = if u = .upper then n - 1 else 0)
    (w : Nat → Fl f) (j : Nat) : pMvF R u c .unit n Q i w j = w j := by
  unfold pMvF prodRow
  by_cases e : j = i
  · subst e
    rw [if_pos rfl, if_pos rfl]
    cases u
    · simp only [if_true] at hl
      rw [if_pos (show triUp .upper false = true from rfl), show n - j - 1 = 0 by omega]
      exact fl_add_zero _
    · simp only [reduceCtorEq, if_false] at hl
      rw [if_neg (show ¬ triUp .lower false = true by decide), hl]
      exact fl_add_zero _
  · rw [if_neg e]

theorem trowsMvN_fl {packed : Bool} (hR : TriRows R u n) (hA : RowsAtD m R d n Q) (hx : VecAt m x incX n xv) (hi : incX ≠ 0)
    (hdA : RowsDisjD R d n x incX) :
    trowsMv packed R u false c d n x incX m = .ok ((), snap m x incX n (prodRow u false c d n (rowM R Q) xv)) := by
  conv_lhs => rw [snap_eq hi hx]
  unfold trowsMv
  cases u
  · have tr := trace_mvF (R := R) (u := .upper) (c := c) (d := d) (Q := Q) (xv := xv) (ord_id n) (fun i j _ _ h => by simpa using h)
    cases d
    · have pass : ∀ k, k < n → ∀ w, incDot (dotC c (R.len k - 1) (R.row k + 1) 1
          (start n x incX + (k : Int) * incX + incX) incX) (start n x incX + (k : Int) * incX) (snap m x incX n w) =
          .ok ((), snap m x incX n (pMvF R .upper c .unit n Q k w)) := by
        intro k hk w
        rw [shift1]
        exact pass_incF hR hA hi hdA hk w
      cases packed
      · exact tr.run hi _ pass
      · exact tr.run_last hi _ pass fun w i hin => pMvF_skip (i := n - 1) rfl w i
    · refine tr.run hi _ fun k hk w => ?_
      have := pass_setF (c := c) hR hA hi hdA hk w
      rw [upper_row hR hk] at this
      exact this
  · have tr := trace_mvF (R := R) (u := .lower) (c := c) (d := d) (Q := Q) (xv := xv) (ord_rev n) (fun i j _ _ h => by
      simp only [reduceCtorEq, if_false] at h; omega)
    cases d
    · have pass : ∀ k, k < n → ∀ w, incDot (dotC c (R.len (n - 1 - k) - 1) (R.row (n - 1 - k)) 1
          (start n x incX + (R.first (n - 1 - k) : Int) * incX) incX) (start n x incX + ((n - 1 - k : Nat) : Int) * incX)
            (snap m x incX n w) =
          .ok ((), snap m x incX n (pMvF R .lower c .unit n Q (n - 1 - k) w)) :=
        fun k hk w => pass_incF hR hA hi hdA (by omega) w
      cases packed
      · exact tr.run hi _ pass
      · exact tr.run_last hi _ pass fun w i hin => by
          rw [show n - 1 - (n - 1) = 0 by omega]
          exact pMvF_skip (i := 0) rfl w i
    · exact tr.run hi _ fun k hk w => pass_setF (c := c) hR hA hi hdA (by omega) w

/-! ### Adding multiples of the rows -/

/-- Product with the diagonal. -/
def mulD (c : Bool) (d : Diag) (Q : Nat → Nat → Fl f) (i : Nat) (v : Fl f) : Fl f := if d = .unit then v else v * cj c (Q i i)

/-- Pass of the transposed product on rounded numbers. -/
def pMvTF (c : Bool) (d : Diag) (Q Z : Nat → Nat → Fl f) (i : Nat) (w : Nat → Fl f) (j : Nat) : Fl f :=
  if j = i then mulD c d Q i (w i) else w j + w i * Z i j

/-- Element `i` of the product: its terms in the order `σ` of the passes, from its own on. -/
def updRow (σ : Nat → Nat) (n : Nat) (T : Nat → Nat → Fl f) (xv : Nat → Fl f) (i : Nat) : Fl f :=
  dotL (n - σ i) (fun l => xv (σ (σ i + l))) fun l => T i (σ (σ i + l))

theorem mulD_eq (he : f.emin ≤ 0) (i : Nat) (v : Fl f) : mulD c d Q i v = v * dg c d Q i := by
  unfold mulD dg
  split
  · exact (MulM.fl_mul_one he v).symm
  · rfl

theorem trace_mvTF (he : f.emin ≤ 0) {σ : Nat → Nat} {Z : Nat → Nat → Fl f} (h : Ord n σ)
    (hZ : ∀ i j, i < n → j < n → Z i j ≠ 0 → σ j < σ i) :
    Trace (pMvTF c d Q Z) σ n xv (updRow σ n (fun i j => if j = i then dg c d Q i else Z j i) xv) := by
  refine ⟨fun k j => if σ j < k then updRow σ k (fun i j => if j = i then dg c d Q i else Z j i) xv j else xv j, fun i _ => by simp,
    fun k hk i hi => ?_, fun i hi => if_pos (h.lt i hi)⟩
  have hs := h.lt k hk
  unfold pMvTF
  beta_reduce
  by_cases e : i = σ k
  · subst e
    rw [if_pos rfl, h.inv k hk, if_neg (Nat.lt_irrefl k), if_pos (Nat.lt_succ_self k)]
    unfold updRow
    rw [h.inv k hk, show k + 1 - k = 0 + 1 by omega, dotL_succ]
    simp only [Nat.add_zero, if_true]
    rw [mulD_eq he]
    exact (fl_zero_add _).symm
  · have h1 : σ i ≠ k := fun e' => e ((h.eq_iff hi hk).1 e')
    rw [if_neg e, h.inv k hk, if_neg (Nat.lt_irrefl k)]
    by_cases h2 : σ i < k
    · rw [if_pos h2, if_pos (by omega)]
      unfold updRow
      rw [show k + 1 - σ i = (k - σ i) + 1 by omega, dotL_succ]
      simp only [show σ i + (k - σ i) = k by omega]
      rw [if_neg (Ne.symm e)]
    · rw [if_neg h2, if_neg (by omega)]
      have : Z (σ k) i = 0 := by
        by_contra hz
        have := hZ _ _ hs hi hz
        rw [h.inv k hk] at this
        exact h2 this
      rw [this, fl_mul_zero, fl_add_zero]

theorem pass_axpyF (hR : TriRows R u n) (hA : RowsAtD m R d n Q) (hi : incX ≠ 0) (hdA : RowsDisjD R d n x incX) {i : Nat}
    (h : i < n) (w : Nat → Fl f) :
    axpyX c (R.len i - 1) (start n x incX + (i : Int) * incX) (sA R u i) (start n x incX + (sS R u i : Int) * incX) incX
      (snap m x incX n w) = .ok ((), snap m x incX n (pMvTF c .unit Q (sZ R u c Q) i w)) := by
  unfold axpyX
  have he : start n x incX + (i : Int) * incX = elem x incX n i := start_elem ..
  rw [he, bind_ok (load_ok (snap_in hi h)), segAxpy_fl (q := Q i) hi (hR.sS_le h) (strict_at hR hA h) (strict_disj hR hdA h)]
  refine congrArg (fun z => Out.ok ((), z)) (snap_congr hi fun j _ => ?_)
  have e1 : seg (sS R u i) (R.len i - 1) (Q i) j = sZ R u c Q i j := by simp only [sZ, cj_val]
  rw [e1]
  unfold pMvTF mulD
  by_cases e : j = i
  · subst e
    rw [sZ_self hR h, fl_mul_zero, fl_add_zero, if_pos rfl, if_pos rfl]
  · rw [if_neg e]

theorem pass_mulF (hR : TriRows R u n) (hA : RowsAtD m R d n Q) (hi : incX ≠ 0) (hdA : RowsDisjD R d n x incX) {i : Nat}
    (h : i < n) (w : Nat → Fl f) :
    (do
      axpyX c (R.len i - 1) (start n x incX + (i : Int) * incX) (sA R u i) (start n x incX + (sS R u i : Int) * incX) incX
      mulDiag c d (start n x incX + (i : Int) * incX) (sD R u i) : M (Fl f) Unit)
      (snap m x incX n w) = .ok ((), snap m x incX n (pMvTF c d Q (sZ R u c Q) i w)) := by
  rw [bind_ok (pass_axpyF hR hA hi hdA h w)]
  cases d
  · rfl
  · unfold mulDiag
    simp only
    rw [start_elem, bind_ok (load_ok (snap_in hi h)),
      bind_ok (load_ok ((snap_out (diag_disj hR hdA h)).trans (diag_at hR hA h))),
      store_ok (by rw [snap_in hi h]; simp), snap_set hi h]
    refine congrArg (fun z => Out.ok ((), z)) (snap_congr hi fun j _ => ?_)
    by_cases e : j = i
    · subst e; simp [pMvTF, mulD, cj]
    · simp [pMvTF, e]

theorem pMvTF_skip (hR : TriRows R u n) {i : Nat} (h : i < n) (hl : i = if u = .upper then n - 1 else 0)
    (w : Nat → Fl f) (j : Nat) : pMvTF c .unit Q (sZ R u c Q) i w j = w j := by
  unfold pMvTF mulD
  by_cases e : j = i
  · subst e; simp
  · rw [if_neg e, sZ_last hR h hl, fl_mul_zero, fl_add_zero]

theorem trowsMvT_fl {packed : Bool} (he : f.emin ≤ 0) (hR : TriRows R u n) (hA : RowsAtD m R d n Q) (hx : VecAt m x incX n xv) (hi : incX ≠ 0)
    (hdA : RowsDisjD R d n x incX) :
    ∃ σ, Ord n σ ∧ (∀ i j, i < n → j < n → sZ R u c Q i j ≠ 0 → σ j < σ i) ∧ trowsMv packed R u true c d n x incX m =
      .ok ((), snap m x incX n (updRow σ n (fun i j => if j = i then dg c d Q i else sZ R u c Q j i) xv)) := by
  have hm := snap_eq hi hx
  cases u
  · have hZ : ∀ i j, i < n → j < n → sZ R .upper c Q i j ≠ 0 → n - 1 - j < n - 1 - i := fun i j h h' hz => by
      have : i < j := by simpa using sZ_ne hR h hz
      omega
    refine ⟨_, ord_rev n, hZ, ?_⟩
    conv_lhs => rw [hm]
    have tr := trace_mvTF (c := c) (d := d) (Q := Q) (xv := xv) he (ord_rev n) hZ
    refine tr.run hi _ fun k hk w => ?_
    beta_reduce
    rw [shift1]
    exact pass_mulF hR hA hi hdA (by omega) w
  · have hZ : ∀ i j, i < n → j < n → sZ R .lower c Q i j ≠ 0 → j < i := fun i j h h' hz => by simpa using sZ_ne hR h hz
    refine ⟨_, ord_id n, hZ, ?_⟩
    conv_lhs => rw [hm]
    have tr := trace_mvTF (c := c) (d := d) (Q := Q) (xv := xv) he (ord_id n) hZ
    cases d
    · have pass : ∀ k, k < n → ∀ w, axpyX c (R.len k - 1) (start n x incX + (k : Int) * incX) (R.row k)
          (start n x incX + (R.first k : Int) * incX) incX (snap m x incX n w) =
          .ok ((), snap m x incX n (pMvTF c .unit Q (sZ R .lower c Q) k w)) :=
        fun k hk w => pass_axpyF hR hA hi hdA hk w
      unfold trowsMv
      cases packed
      · simp only [Bool.false_eq_true, if_false, loopFrom_zero]
        exact tr.run hi _ pass
      · rcases Nat.eq_zero_or_pos n with rfl | hpos
        · exact tr.run hi _ fun k hk => absurd hk (Nat.not_lt_zero k)
        · exact tr.run_first hi _ pass fun w i hin => pMvTF_skip hR hpos rfl w i
    · exact tr.run hi _ fun k hk w => pass_mulF (c := c) hR hA hi hdA hk w

theorem updRow_error (hR : TriRows R u n) {σ : Nat → Nat} (ho : Ord n σ)
    (hZ : ∀ i j, i < n → j < n → sZ R u c Q i j ≠ 0 → σ j < σ i) {i : Nat} (hi : i < n) :
    |(updRow σ n (fun i j => if j = i then dg c d Q i else sZ R u c Q j i) xv i).val -
        ∑ j ∈ range n, (triOp u true c d (rowM R Q) i j).val * (xv j).val| ≤
      sumBound f n (∑ j ∈ range n, |(triOp u true c d (rowM R Q) i j).val * (xv j).val|) := by
  have hs := ho.lt i hi
  have conv : ∀ g : ℚ → ℚ, g 0 = 0 → ∑ l ∈ range (n - σ i), g ((xv (σ (σ i + l))).val *
        ((if σ (σ i + l) = i then dg c d Q i else sZ R u c Q (σ (σ i + l)) i : Fl f)).val) =
      ∑ j ∈ range n, g ((triOp u true c d (rowM R Q) i j).val * (xv j).val) := by
    intro g h0
    have e1 : ∑ j ∈ range n, g ((triOp u true c d (rowM R Q) i j).val * (xv j).val) =
        ∑ l ∈ range n, g ((xv (σ l)).val * ((if σ l = i then dg c d Q i else sZ R u c Q (σ l) i : Fl f)).val) :=
      sum_nbij' σ σ (fun j hj => mem_range.2 (ho.lt j (mem_range.1 hj))) (fun j hj => mem_range.2 (ho.lt j (mem_range.1 hj)))
        (fun j hj => ho.inv j (mem_range.1 hj)) (fun j hj => ho.inv j (mem_range.1 hj))
        fun j hj => by rw [ho.inv j (mem_range.1 hj), triOp_T hR hi (mem_range.1 hj), mul_comm]
    rw [e1]
    conv_rhs => rw [show n = σ i + (n - σ i) by omega, sum_range_add]
    rw [sum_eq_zero (s := range (σ i)), zero_add]
    intro l hl
    rw [mem_range] at hl
    have h1 : σ l ≠ i := fun e => by
      have := (ho.eq_iff (by omega) hi).1 e
      omega
    have h2 : sZ R u c Q (σ l) i = 0 := by
      by_contra hz
      have := hZ _ _ (ho.lt l (by omega)) hi hz
      rw [ho.inv l (by omega)] at this
      omega
    rw [if_neg h1, h2, val_zero, mul_zero, h0]
  have h1 := conv id rfl
  have h2 := conv (fun q => |q|) abs_zero
  simp only [id] at h1
  rw [← h1, ← h2]
  exact (dotL_error _ _ _).trans (sumBound_mono (sum_nonneg fun _ _ => abs_nonneg _) (by omega))

end

section
variable {o : Order} {u : UpLo} {t : Trans} {d : Diag} {n k : Nat} {A ld x incX : Int} {m : Mem (Fl f)} {Q : Nat → Nat → Fl f}
  {xv : Nat → Fl f}

theorem prodErr_congr {T T' : Nat → Nat → Fl f} {v : Fl f} {i : Nat} (h : ∀ j, j < n → T i j = T' i j)
    (hr : |v.val - ∑ j ∈ range n, (T i j).val * (xv j).val| ≤ sumBound f n (∑ j ∈ range n, |(T i j).val * (xv j).val|)) :
    |v.val - ∑ j ∈ range n, (T' i j).val * (xv j).val| ≤ sumBound f n (∑ j ∈ range n, |(T' i j).val * (xv j).val|) := by
  have e1 : ∑ j ∈ range n, (T i j).val * (xv j).val = ∑ j ∈ range n, (T' i j).val * (xv j).val :=
    sum_congr rfl fun j hj => by rw [h j (mem_range.1 hj)]
  have e2 : ∑ j ∈ range n, |(T i j).val * (xv j).val| = ∑ j ∈ range n, |(T' i j).val * (xv j).val| :=
    sum_congr rfl fun j hj => by rw [h j (mem_range.1 hj)]
  rwa [e1, e2] at hr

/-- Both ways of forming the product, on the rows of a triangle. -/
theorem trowsMv_err (he : f.emin ≤ 0) {packed trans c : Bool} {R : Rows} {P : Nat → Nat → Fl f} (hR : TriRows R u n)
    (hP : ∀ i j, tri u n i j → rowM R Q i j = P i j) (hA : RowsAtD m R d n Q) (hx : VecAt m x incX n xv) (hi : incX ≠ 0)
    (hdA : RowsDisjD R d n x incX) :
    ∃ v, Yields (trowsMv packed R u trans c d n x incX) m x incX n v ∧ ∀ i, i < n →
      |(v i).val - ∑ j ∈ range n, (triOp u trans c d P i j).val * (xv j).val| ≤
        sumBound f n (∑ j ∈ range n, |(triOp u trans c d P i j).val * (xv j).val|) := by
  cases trans
  · exact ⟨_, yields_of_snap hi (trowsMvN_fl hR hA hx hi hdA), fun i hin =>
      prodErr_congr (fun j hj => triOp_congr hin hj hP) (prod_error he hin)⟩
  · obtain ⟨σ, h1, h2, h3⟩ := trowsMvT_fl (packed := packed) (c := c) he hR hA hx hi hdA
    exact ⟨_, yields_of_snap hi h3, fun i hin =>
      prodErr_congr (fun j hj => triOp_congr hin hj hP) (updRow_error hR h1 h2 hin)⟩

/-- **C176** `tpmv` in floating point, for all 32 combinations of order, triangle, transposition, conjugation and unit diagonal: each element
of `op(T) x` is right up to `n` roundings of the sum of the magnitudes of its terms, and what is lost below the normal range. Nothing else
changes. -/
theorem C176_tpmv (he : f.emin ≤ 0) (hA : StAt m (packAd A o u n) (stored u d n) Q) (hx : VecAt m x incX n xv) (hi : incX ≠ 0)
    (hdA : StVecDisj (packAd A o u n) (stored u d n) x incX n) :
    ∃ v, Yields (tpmv o u t d n A x incX) m x incX n v ∧ ∀ i, i < n →
      |(v i).val - ∑ j ∈ range n, (opM t (triM u d Q) i j).val * (xv j).val| ≤
        ((1 + unitRoundoff f) ^ n - 1) * ∑ j ∈ range n, |(opM t (triM u d Q) i j).val * (xv j).val| +
        n * (1 + unitRoundoff f) ^ n * halfTiny f := by
  rw [← triOp_eq t u d Q rfl rfl]
  cases o
  swap
  · rw [← stAt_sw, packAd_sw, sw_stored] at hA
    rw [← stVecDisj_sw, packAd_sw, sw_stored] at hdA
    have hin := tpRows_in u.flip n A
    have := trowsMv_err (packed := true) (trans := t.flip.trans) (c := t.flip.conj) he (tpRows_tri u.flip n A) (fun i j h => tpRows_M h (sw Q))
      (hin.atD hA) hx hi (hin.disjD hdA)
    rw [triOp_flip] at this
    exact this
  · have hin := tpRows_in u n A
    exact trowsMv_err (packed := true) (trans := t.trans) (c := t.conj) he (tpRows_tri u n A) (fun i j h => tpRows_M h Q)
      (hin.atD hA) hx hi (hin.disjD hdA)

/-- **C176** The same for `tbmv` and the banded triangular matrix. -/
theorem C176_tbmv (he : f.emin ≤ 0) (hA : StAt m (bandAd A o ld (lowerK u k) (upperK u k)) (triBand u d k n) Q) (hx : VecAt m x incX n xv)
    (hi : incX ≠ 0) (hdA : StVecDisj (bandAd A o ld (lowerK u k) (upperK u k)) (triBand u d k n) x incX n) :
    ∃ v, Yields (tbmv o u t d n k A ld x incX) m x incX n v ∧ ∀ i, i < n →
      |(v i).val - ∑ j ∈ range n, (opM t (triM u d (bandM (lowerK u k) (upperK u k) Q)) i j).val * (xv j).val| ≤
        ((1 + unitRoundoff f) ^ n - 1) * ∑ j ∈ range n, |(opM t (triM u d (bandM (lowerK u k) (upperK u k) Q)) i j).val * (xv j).val| +
        n * (1 + unitRoundoff f) ^ n * halfTiny f := by
  rw [← triOp_eq t u d _ rfl rfl]
  unfold tbmv
  by_cases h0 : n = 0
  · subst h0
    simp only [if_true]
    exact ⟨xv, yields_of_snap hi (congrArg (fun z => Out.ok ((), z)) (snap_eq hi fun i h => absurd h (Nat.not_lt_zero i))),
      fun i h => absurd h (Nat.not_lt_zero i)⟩
  rw [if_neg h0]
  cases o
  swap
  · rw [← stAt_sw, bandAd_sw, triBand_sw, show upperK u k = lowerK u.flip k by rw [lowerK_flip],
      show lowerK u k = upperK u.flip k by rw [upperK_flip]] at hA
    rw [← stVecDisj_sw, bandAd_sw, triBand_sw, show upperK u k = lowerK u.flip k by rw [lowerK_flip],
      show lowerK u k = upperK u.flip k by rw [upperK_flip]] at hdA
    have hin := tbRows_in u.flip n k A ld
    have := trowsMv_err (packed := false) (trans := t.flip.trans) (c := t.flip.conj) he (tbRows_tri u.flip n k A ld)
      (fun i j h => tbRows_M h.2.1 (sw Q)) (hin.atD hA) hx hi (hin.disjD hdA)
    rw [lowerK_flip, upperK_flip, bandM_sw, triOp_flip] at this
    exact this
  · have hin := tbRows_in u n k A ld
    exact trowsMv_err (packed := false) (trans := t.trans) (c := t.conj) he (tbRows_tri u n k A ld) (fun i j h => tbRows_M h.2.1 Q)
      (hin.atD hA) hx hi (hin.disjD hdA)

end

/-! ### The same bits as with the matrix stored in full -/

section
variable {o : Order} {u : UpLo} {t : Trans} {d : Diag} {n k : Nat} {A ld x incX : Int} {m : Mem (Fl f)} {Q : Nat → Nat → Fl f}
  {xv : Nat → Fl f}

theorem prodRow_mat {c : Bool} {P : Nat → Nat → Fl f} (hQ : ∀ i j, tri u n i j → P i j = Q i j) {i : Nat} (h : i < n) :
    prodRow u false c d n P xv i = prodRow u false c d n Q xv i := by
  unfold prodRow
  simp only [triE_fl]
  cases u
  · have e : triUp .upper false = true := rfl
    rw [if_pos e, if_pos e, if_pos e, if_pos e, dotL_comm (k := n - i - 1),
      dotL_congr (n := n - i - 1) (b := fun k => P i (i + 1 + k)) fun l hl => hQ i (i + 1 + l) ⟨h, by omega, by simp; omega⟩,
      dotL_comm (k := n - i - 1), dotL_comm (k := n - i),
      dotL_congr (n := n - i) (b := fun k => P i (i + k)) fun l hl => hQ i (i + l) ⟨h, by omega, by simp⟩, dotL_comm (k := n - i)]
  · have e : ¬ triUp .lower false = true := by decide
    rw [if_neg e, if_neg e, if_neg e, if_neg e, dotL_comm (k := i),
      dotL_congr (n := i) (b := fun k => P i k) fun l hl => hQ i l ⟨h, by omega, by simp; omega⟩,
      dotL_comm (k := i), dotL_comm (k := i + 1),
      dotL_congr (n := i + 1) (b := fun k => P i k) fun l hl => hQ i l ⟨h, by omega, by simp; omega⟩, dotL_comm (k := i + 1)]

/-- **C177** Where `tpmv` takes inner products, that is for `T x` with a row-major and `Tᵀ x` with a column-major matrix, it leaves bit for bit
what `trmv` leaves for the same matrix stored in full. -/
theorem C177_tpmv_trmv_partial {A' ld' x' incX' : Int} {m' : Mem (Fl f)} (ht : t.trans = decide (o = .colMajor))
    (hA : StAt m (packAd A o u n) (stored u d n) Q) (hx : VecAt m x incX n xv) (hi : incX ≠ 0)
    (hdA : StVecDisj (packAd A o u n) (stored u d n) x incX n)
    (hA' : MatAt m' A' o ld' (stored u d n) Q) (hx' : VecAt m' x' incX' n xv) (hi' : incX' ≠ 0)
    (hdA' : MatVecDisj A' o ld' (stored u d n) x' incX' n) :
    ∃ w, Yields (tpmv o u t d n A x incX) m x incX n w ∧ Yields (trmv o u t d n A' ld' x' incX') m' x' incX' n w := by
  cases o
  swap
  · have hf := col_direct ht
    rw [← stAt_sw, packAd_sw, sw_stored] at hA
    rw [← stVecDisj_sw, packAd_sw, sw_stored] at hdA
    rw [matAt_col, sw_stored] at hA'
    rw [matVecDisj_col, sw_stored] at hdA'
    have hin := tpRows_in u.flip n A
    have h1 := trowsMvN_fl (packed := true) (c := t.flip.conj) (tpRows_tri u.flip n A) (hin.atD hA) hx hi (hin.disjD hdA)
    have h2 := trmvRow_ops (trans := false) (c := t.flip.conj) fl_add_zero hA' hx' hi' hdA'
    unfold tpmv trmv
    simp only [hf]
    exact ⟨_, (yields_of_snap hi h1).congr fun i h => prodRow_mat (fun i j h => tpRows_M h _) h, yields_of_over hi' h2⟩
  · have hf := row_direct ht
    have hin := tpRows_in u n A
    have h1 := trowsMvN_fl (packed := true) (c := t.conj) (tpRows_tri u n A) (hin.atD hA) hx hi (hin.disjD hdA)
    have h2 := trmvRow_ops (trans := false) (c := t.conj) fl_add_zero hA' hx' hi' hdA'
    unfold tpmv trmv
    simp only [hf]
    exact ⟨_, (yields_of_snap hi h1).congr fun i h => prodRow_mat (fun i j h => tpRows_M h _) h, yields_of_over hi' h2⟩

/-- **C177** The same for `tbmv`, with zeros outside the band. -/
theorem C177_tbmv_trmv_partial {A' ld' x' incX' : Int} {m' : Mem (Fl f)} (hn : n ≠ 0) (ht : t.trans = decide (o = .colMajor))
    (hA : StAt m (bandAd A o ld (lowerK u k) (upperK u k)) (triBand u d k n) Q) (hx : VecAt m x incX n xv) (hi : incX ≠ 0)
    (hdA : StVecDisj (bandAd A o ld (lowerK u k) (upperK u k)) (triBand u d k n) x incX n)
    (hA' : MatAt m' A' o ld' (stored u d n) (bandM (lowerK u k) (upperK u k) Q)) (hx' : VecAt m' x' incX' n xv) (hi' : incX' ≠ 0)
    (hdA' : MatVecDisj A' o ld' (stored u d n) x' incX' n) :
    ∃ w, Yields (tbmv o u t d n k A ld x incX) m x incX n w ∧ Yields (trmv o u t d n A' ld' x' incX') m' x' incX' n w := by
  cases o
  swap
  · have hf := col_direct ht
    rw [← stAt_sw, bandAd_sw, triBand_sw, show upperK u k = lowerK u.flip k by rw [lowerK_flip],
      show lowerK u k = upperK u.flip k by rw [upperK_flip]] at hA
    rw [← stVecDisj_sw, bandAd_sw, triBand_sw, show upperK u k = lowerK u.flip k by rw [lowerK_flip],
      show lowerK u k = upperK u.flip k by rw [upperK_flip]] at hdA
    rw [matAt_col, sw_stored] at hA'
    rw [matVecDisj_col, sw_stored] at hdA'
    have hin := tbRows_in u.flip n k A ld
    have h1 := trowsMvN_fl (packed := false) (c := t.flip.conj) (tbRows_tri u.flip n k A ld) (hin.atD hA) hx hi (hin.disjD hdA)
    have h2 := trmvRow_ops (trans := false) (c := t.flip.conj) fl_add_zero hA' hx' hi' hdA'
    unfold tbmv trmv
    rw [if_neg hn]
    simp only [hf]
    refine ⟨_, (yields_of_snap hi h1).congr fun i h => prodRow_mat (fun i j h => ?_) h, yields_of_over hi' h2⟩
    rw [tbRows_M h.2.1, lowerK_flip, upperK_flip, bandM_sw]
  · have hf := row_direct ht
    have hin := tbRows_in u n k A ld
    have h1 := trowsMvN_fl (packed := false) (c := t.conj) (tbRows_tri u n k A ld) (hin.atD hA) hx hi (hin.disjD hdA)
    have h2 := trmvRow_ops (trans := false) (c := t.conj) fl_add_zero hA' hx' hi' hdA'
    unfold tbmv trmv
    rw [if_neg hn]
    simp only [hf]
    exact ⟨_, (yields_of_snap hi h1).congr fun i h => prodRow_mat (fun i j h => tbRows_M h.2.1 _) h, yields_of_over hi' h2⟩

end

/-- The memory of the example above with another vector. -/
def exTpFl' : Mem (Fl binary64) := fun p => if 10 ≤ p ∧ p < 12 then .val (.round _ (1 / 2 ^ 53)) else exTpFl p

/-- **C177 (disproved for the other cases).** For `Tᵀ x` with a row-major matrix `tpmv` and `tbmv` begin with the term of the diagonal, where
`trmv` ends with it: `1 + 2^-53 + 2^-53` is 1 in the one, and `2^-53 + 2^-53 + 1` is `1 + 2^-52` in the other. -/
theorem C177_tpmv_trmv_false : ∃ a b,
    peek (tpmv .rowMajor .upper ⟨false, true⟩ .nonUnit 3 0 10 1 exTpFl') (fun _ m => m 12) = .ok (.val a) ∧
    peek (tbmv .rowMajor .upper ⟨false, true⟩ .nonUnit 3 2 50 3 10 1 exTpFl') (fun _ m => m 12) = .ok (.val a) ∧
    peek (trmv .rowMajor .upper ⟨false, true⟩ .nonUnit 3 30 3 10 1 exTpFl') (fun _ m => m 12) = .ok (.val b) ∧ a ≠ b := by
  refine ⟨.round binary64 1, .round binary64 (1 + 1 / 2 ^ 52), by decide +kernel, by decide +kernel, by decide +kernel, by decide +kernel⟩

/-- The hypotheses hold for the memory of the example above. -/
example : StAt exTpFl (packAd 0 .rowMajor .upper 3) (stored .upper .nonUnit 3) (fun i j => if i = 0 ∧ j = 1 then 0 else .round _ 1) ∧
    StAt exTpFl (bandAd 50 .rowMajor 3 0 2) (triBand .upper .nonUnit 2 3) (fun i j => if i = 0 ∧ j = 1 then 0 else .round _ 1) :=
  ⟨exTpFl_ok.1, exTpFl_ok.2.2.1⟩

example : (peek (tpmv .rowMajor .upper ⟨false, true⟩ .nonUnit 3 0 10 1 exTpFl) fun _ m => m 12) = .ok (.val (.round binary64 1)) := by
  decide +kernel

example : ∃ w, Yields (tpmv .rowMajor .upper ⟨false, false⟩ .nonUnit 3 0 10 1) exTpFl 10 1 3 w ∧
    Yields (trmv .rowMajor .upper ⟨false, false⟩ .nonUnit 3 30 3 10 1) exTpFl 10 1 3 w :=
  have ⟨h1, h2, _, h4, h5, h6, _⟩ := exTpFl_ok
  C177_tpmv_trmv_partial rfl h1 h4 (by decide) h5 h2 h4 (by decide) h6

end Verif.Blas
