import Verif.Lemmas.Blas2RowsTri

/-! Lemmas: the exact effect of the triangular products and solves on rows. -/

namespace Verif.Blas

open Finset

variable {K : Type}

theorem shift1 (n : Nat) (x incX : Int) (i : Nat) :
    start n x incX + (i : Int) * incX + incX = start n x incX + ((i + 1 : Nat) : Int) * incX := by push_cast; ring

theorem loopFrom_zero (n : Nat) (f : Nat → M K Unit) : loopFrom 0 n f = loop n f := by
  unfold loopFrom
  simp only [Nat.zero_add, Nat.sub_zero]

theorem loopDownTo_zero (n : Nat) (f : Nat → M K Unit) : loopDownTo 0 n f = loopDown n f := rfl

section
variable {R : Rows} {u : UpLo} {d : Diag} {c : Bool} {m : Mem K} {x incX : Int} {n : Nat} {Q : Nat → Nat → K}

theorem upper_row (hR : TriRows R .upper n) {i : Nat} (h : i < n) : R.first i = i := hR.up rfl i h

section
variable [CommRing K] [StarRing K]

theorem pMvN_skip {D : Nat → K} (hR : TriRows R u n) {i : Nat} (h : i < n) (hl : i = if u = .upper then n - 1 else 0)
    (hD : D i = 1) (w : Nat → K) (j : Nat) : pMvN n D (sZ R u c Q) i w j = w j := by
  unfold pMvN
  by_cases e : j = i
  · subst e
    simp [hD, sZ_last hR h hl]
  · simp [e]

theorem pMvT_skip {D : Nat → K} (hR : TriRows R u n) {i : Nat} (h : i < n) (hl : i = if u = .upper then n - 1 else 0)
    (hD : D i = 1) (w : Nat → K) (j : Nat) : pMvT D (sZ R u c Q) i w j = w j := by
  unfold pMvT
  by_cases e : j = i
  · subst e
    simp [hD]
  · simp [e, sZ_last hR h hl]

theorem dg_unit : dg (K := K) c .unit Q = fun _ => 1 := by funext i; simp [dg]

theorem trowsMv_run {packed trans : Bool} {xv : Nat → K} (hR : TriRows R u n) (hA : RowsAtD m R d n Q)
    (hx : VecAt m x incX n xv) (hi : incX ≠ 0) (hdA : RowsDisjD R d n x incX) :
    trowsMv packed R u trans c d n x incX m =
      .ok ((), snap m x incX n fun i => ∑ j ∈ range n, triOp u trans c d (rowM R Q) i j * xv j) := by
  rw [snap_congr hi fun i hin => triOp_rows_sum (c := c) (d := d) (Q := Q) (trans := trans) hR hin xv]
  conv_lhs => rw [snap_eq hi hx]
  unfold trowsMv
  cases trans
  · simp only [Bool.false_eq_true, if_false]
    cases u
    · have tr := trace_mvN (D := dg c d Q) (Z := sZ R .upper c Q) (ord_id n)
        (fun i j h _ hz => by simpa using sZ_ne hR h hz) xv
      cases d
      · have pass : ∀ k, k < n → ∀ w, incDot (dotC c (R.len k - 1) (R.row k + 1) 1
            (start n x incX + (k : Int) * incX + incX) incX) (start n x incX + (k : Int) * incX) (snap m x incX n w) =
            .ok ((), snap m x incX n (pMvN n (dg c .unit Q) (sZ R .upper c Q) k w)) := by
          intro k hk w
          rw [shift1, dg_unit]
          exact pass_incDot hR hA hi hdA hk w
        cases packed
        · exact tr.run hi _ pass
        · exact tr.run_last hi _ pass fun w i hin => pMvN_skip (i := n - 1) hR (by omega) rfl (by simp [dg]) w i
      · refine tr.run hi _ fun k hk w => ?_
        have := pass_setDot (c := c) hR hA hi hdA hk w
        rw [upper_row hR hk] at this
        exact this
    · have tr := trace_mvN (D := dg c d Q) (Z := sZ R .lower c Q) (ord_rev n)
        (fun i j h h' hz => by have : j < i := by simpa using sZ_ne hR h hz
                               omega) xv
      cases d
      · have pass : ∀ k, k < n → ∀ w, incDot (dotC c (R.len (n - 1 - k) - 1) (R.row (n - 1 - k)) 1
            (start n x incX + (R.first (n - 1 - k) : Int) * incX) incX) (start n x incX + ((n - 1 - k : Nat) : Int) * incX)
              (snap m x incX n w) =
            .ok ((), snap m x incX n (pMvN n (dg c .unit Q) (sZ R .lower c Q) (n - 1 - k) w)) := by
          intro k hk w
          rw [dg_unit]
          exact pass_incDot hR hA hi hdA (by omega) w
        cases packed
        · exact tr.run hi _ pass
        · exact tr.run_last hi _ pass fun w i hin => by
            rw [show n - 1 - (n - 1) = 0 by omega]
            exact pMvN_skip (i := 0) hR (by omega) rfl (by simp [dg]) w i
      · exact tr.run hi _ fun k hk w => pass_setDot (c := c) hR hA hi hdA (by omega) w
  · simp only [if_true]
    cases u
    · have tr := trace_mvT (D := dg c d Q) (Z := sZ R .upper c Q) (ord_rev n)
        (fun i j h h' hz => by have : i < j := by simpa using sZ_ne hR h hz
                               omega) xv
      refine tr.run hi _ fun k hk w => ?_
      beta_reduce
      rw [shift1]
      exact pass_mulDiag hR hA hi hdA (by omega) w
    · have tr := trace_mvT (D := dg c d Q) (Z := sZ R .lower c Q) (ord_id n)
        (fun i j h h' hz => by simpa using sZ_ne hR h hz) xv
      cases d
      · have pass : ∀ k, k < n → ∀ w, axpyX c (R.len k - 1) (start n x incX + (k : Int) * incX) (R.row k)
            (start n x incX + (R.first k : Int) * incX) incX (snap m x incX n w) =
            .ok ((), snap m x incX n (pMvT (dg c .unit Q) (sZ R .lower c Q) k w)) := by
          intro k hk w
          rw [dg_unit]
          exact pass_axpyX hR hA hi hdA hk w
        cases packed
        · simp only [Bool.false_eq_true, if_false, loopFrom_zero]
          exact tr.run hi _ pass
        · rcases Nat.eq_zero_or_pos n with rfl | hpos
          · exact tr.run hi _ fun k hk => absurd hk (Nat.not_lt_zero k)
          · exact tr.run_first hi _ pass fun w i hin => pMvT_skip hR hpos rfl (by simp [dg]) w i
      · exact tr.run hi _ fun k hk w => pass_mulDiag (c := c) hR hA hi hdA hk w

end

section
variable [Field K] [StarRing K]

theorem pSvN_skip {D : Nat → K} (hR : TriRows R u n) {i : Nat} (h : i < n) (hl : i = if u = .upper then n - 1 else 0)
    (hD : D i = 1) (w : Nat → K) (j : Nat) : pSvN n D (sZ R u c Q) i w j = w j := by
  unfold pSvN
  by_cases e : j = i
  · subst e
    simp [hD, sZ_last hR h hl]
  · simp [e]

theorem pSvT_skip {D : Nat → K} (hR : TriRows R u n) {i : Nat} (h : i < n) (hl : i = if u = .upper then n - 1 else 0)
    (hD : D i = 1) (w : Nat → K) (j : Nat) : pSvT D (sZ R u c Q) i w j = w j := by
  unfold pSvT
  by_cases e : j = i
  · subst e
    simp [hD]
  · simp [e, sZ_last hR h hl]

theorem dg_ne (hnz : d = .nonUnit → ∀ i, i < n → Q i i ≠ 0) {i : Nat} (h : i < n) : dg c d Q i ≠ 0 := by
  cases d
  · simp [dg]
  · have := hnz rfl i h
    cases c <;> simpa [dg, cj] using this

theorem solved {D b s v : K} (hD : D ≠ 0) (h : v = (b - s) / D) : D * v + s = b := by
  rw [h]; field_simp; ring

theorem trowsSv_run {packed trans : Bool} {b : Nat → K} (hR : TriRows R u n) (hA : RowsAtD m R d n Q)
    (hx : VecAt m x incX n b) (hi : incX ≠ 0) (hdA : RowsDisjD R d n x incX)
    (hnz : d = .nonUnit → ∀ i, i < n → Q i i ≠ 0) :
    ∃ xs, trowsSv packed R u trans c d n x incX m = .ok ((), snap m x incX n xs) ∧
      ∀ i, i < n → ∑ j ∈ range n, triOp u trans c d (rowM R Q) i j * xs j = b i := by
  have hm := snap_eq hi hx
  cases trans
  · cases u
    · obtain ⟨xs, tr, hxs⟩ := trace_svN (D := dg c d Q) (Z := sZ R .upper c Q) (ord_rev n)
        (fun i j h h' hz => by have : i < j := by simpa using sZ_ne hR h hz
                               omega) b
      refine ⟨xs, ?_, fun i hin => (triOp_rows_sum hR hin xs).trans (solved (dg_ne hnz hin) (hxs i hin))⟩
      conv_lhs => rw [hm]
      refine tr.run hi _ fun k hk w => ?_
      beta_reduce
      rw [shift1]
      exact pass_subDot hR hA hi hdA (by omega) w
    · obtain ⟨xs, tr, hxs⟩ := trace_svN (D := dg c d Q) (Z := sZ R .lower c Q) (ord_id n)
        (fun i j h h' hz => by simpa using sZ_ne hR h hz) b
      refine ⟨xs, ?_, fun i hin => (triOp_rows_sum hR hin xs).trans (solved (dg_ne hnz hin) (hxs i hin))⟩
      conv_lhs => rw [hm]
      cases d
      · have pass : ∀ k, k < n → ∀ w, subDot c .unit (dotC c (R.len k - 1) (R.row k) 1
            (start n x incX + (R.first k : Int) * incX) incX) (start n x incX + (k : Int) * incX)
            (R.row k + ((R.len k - 1 : Nat) : Int)) (snap m x incX n w) =
            .ok ((), snap m x incX n (pSvN n (dg c .unit Q) (sZ R .lower c Q) k w)) :=
          fun k hk w => pass_subDot hR hA hi hdA hk w
        unfold trowsSv
        cases packed
        · simp only [Bool.false_eq_true, if_false, loopFrom_zero]
          exact tr.run hi _ pass
        · rcases Nat.eq_zero_or_pos n with rfl | hpos
          · exact tr.run hi _ fun k hk => absurd hk (Nat.not_lt_zero k)
          · exact tr.run_first hi _ pass fun w i hin => pSvN_skip hR hpos rfl (by simp [dg]) w i
      · exact tr.run hi _ fun k hk w => pass_subDot (c := c) hR hA hi hdA hk w
  · cases u
    · obtain ⟨xs, tr, hxs⟩ := trace_svT (D := dg c d Q) (Z := sZ R .upper c Q) (ord_id n)
        (fun i j h h' hz => by simpa using sZ_ne hR h hz) b
      refine ⟨xs, ?_, fun i hin => (triOp_rows_sum hR hin xs).trans (solved (dg_ne hnz hin) (hxs i hin))⟩
      conv_lhs => rw [hm]
      cases d
      · have pass : ∀ k, k < n → ∀ w, axpyNegX c (R.len k - 1) (start n x incX + (k : Int) * incX) (R.row k + 1)
            (start n x incX + (k : Int) * incX + incX) incX (snap m x incX n w) =
            .ok ((), snap m x incX n (pSvT (dg c .unit Q) (sZ R .upper c Q) k w)) := by
          intro k hk w
          rw [shift1, dg_unit]
          exact pass_axpyNegX hR hA hi hdA hk w
        unfold trowsSv
        cases packed
        · exact tr.run hi _ pass
        · exact tr.run_last hi _ pass fun w i hin => pSvT_skip (i := n - 1) hR (by omega) rfl (by simp [dg]) w i
      · refine tr.run hi _ fun k hk w => ?_
        beta_reduce
        rw [shift1]
        exact pass_divDiag (c := c) hR hA hi hdA hk w
    · obtain ⟨xs, tr, hxs⟩ := trace_svT (D := dg c d Q) (Z := sZ R .lower c Q) (ord_rev n)
        (fun i j h h' hz => by have : j < i := by simpa using sZ_ne hR h hz
                               omega) b
      refine ⟨xs, ?_, fun i hin => (triOp_rows_sum hR hin xs).trans (solved (dg_ne hnz hin) (hxs i hin))⟩
      conv_lhs => rw [hm]
      cases d
      · have pass : ∀ k, k < n → ∀ w, axpyNegX c (R.len (n - 1 - k) - 1) (start n x incX + ((n - 1 - k : Nat) : Int) * incX)
            (R.row (n - 1 - k)) (start n x incX + (R.first (n - 1 - k) : Int) * incX) incX (snap m x incX n w) =
            .ok ((), snap m x incX n (pSvT (dg c .unit Q) (sZ R .lower c Q) (n - 1 - k) w)) := by
          intro k hk w
          rw [dg_unit]
          exact pass_axpyNegX hR hA hi hdA (by omega) w
        unfold trowsSv
        cases packed
        · exact tr.run hi _ pass
        · exact tr.run_last hi _ pass fun w i hin => by
            rw [show n - 1 - (n - 1) = 0 by omega]
            exact pSvT_skip (i := 0) hR (by omega) rfl (by simp [dg]) w i
      · exact tr.run hi _ fun k hk w => pass_divDiag (c := c) hR hA hi hdA (by omega) w

end

end

end Verif.Blas
