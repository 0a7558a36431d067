import Verif.Props.BlasBandFl

/-! Property theorems for the solves with packed and banded triangular matrices of cxxblas in floating point: where they take inner
products they leave the bits that `trsv` leaves (C175). -/

namespace Verif.Blas

open Finset Verif.Ieee

variable {f : Fmt}

section
variable {R : Rows} {u : UpLo} {d : Diag} {c : Bool} {n : Nat} {x incX : Int} {m : Mem (Fl f)} {Q : Nat → Nat → Fl f} {b : Nat → Fl f}

theorem fl_sub_zero (a : Fl f) : a - 0 = a := by
  obtain ⟨v, hv⟩ := a
  change Fl.round f (v - 0) = _
  unfold Fl.round
  simp only [sub_zero, rnd_of_repr hv]

theorem triE_fl (c : Bool) (Q : Nat → Nat → Fl f) (i j : Nat) : triE false c Q i j = Q i j := by
  unfold triE
  simp [cj_val]

/-- The sum over the stored part of a row beside the diagonal is that over the whole row. -/
theorem strict_solveSum (hR : TriRows R u n) {i : Nat} (h : i < n) (xs : Nat → Fl f) :
    dotL (R.len i - 1) (fun k => cj c (Q i (sS R u i + k))) (fun k => xs (sS R u i + k)) =
      solveSum u false c n (rowM R Q) xs i := by
  have h1 := hR.pos i h
  have h2 := hR.le i h
  simp only [cj_val, solveSum, triE_fl]
  cases u
  · have h3 := hR.up rfl i h
    rw [if_pos (show triUp .upper false = true from rfl)]
    simp only [sS, if_true]
    have := dotL_seg (s := 0) (len := R.len i - 1) (n := n - i - 1) (by omega) (fun k => Q i (i + 1 + k)) fun k => xs (i + 1 + k)
    simp only [Nat.zero_add] at this
    rw [← this]
    rw [dotL_comm, dotL_comm (b := fun k => xs (i + 1 + k))]
    refine dotL_congr fun k hk => ?_
    unfold rowM seg
    by_cases hc : k < R.len i - 1
    · rw [if_pos (by omega), if_pos (by omega)]
    · rw [if_neg (by omega), if_neg (by omega)]
  · have h3 := hR.lo rfl i h
    rw [if_neg (show ¬ triUp .lower false = true by decide)]
    simp only [sS, reduceCtorEq, if_false]
    rw [← dotL_seg (n := i) (by omega) (Q i) xs]
    rw [dotL_comm, dotL_comm (b := xs)]
    refine dotL_congr fun k hk => ?_
    unfold rowM seg
    by_cases hc : R.first i ≤ k
    · rw [if_pos (by omega), if_pos (by omega)]
    · rw [if_neg (by omega), if_neg (by omega)]

theorem rowM_diag (hR : TriRows R u n) {i : Nat} (h : i < n) : rowM R Q i i = Q i i := by
  have h1 := hR.pos i h
  unfold rowM seg
  cases u
  · have := hR.up rfl i h
    rw [if_pos (by omega)]
  · have := hR.lo rfl i h
    rw [if_pos (by omega)]

/-- A step of the solve, when the elements it needs have been found. -/
theorem strict_step (hR : TriRows R u n) (hA : RowsAtD m R d n Q) (hx : VecAt m x incX n b) (hi : incX ≠ 0)
    (hdA : RowsDisjD R d n x incX) {i : Nat} (h : i < n) {S : Set Nat} (hS : ∀ k, k ∈ S → k < n) (hiS : i ∉ S)
    (hk : ∀ k, k < R.len i - 1 → sS R u i + k ∈ S) {xs : Nat → Fl f}
    (hs : xs i = solveStep c d (rowM R Q) b i (solveSum u false c n (rowM R Q) xs i)) :
    subDot c d (dotC c (R.len i - 1) (sA R u i) 1 (start n x incX + (sS R u i : Int) * incX) incX)
      (start n x incX + (i : Int) * incX) (sD R u i) (over m (elem x incX n) xs S) =
      .ok ((), set (over m (elem x incX n) xs S) (elem x incX n i) (xs i)) := by
  have off : ∀ a, (∀ j, j < n → a ≠ elem x incX n j) → over m (elem x incX n) xs S a = m a := fun a ha =>
    over_of_not_mem fun k hk e => ha k (hS k hk) e.symm
  have he : start n x incX + (i : Int) * incX = elem x incX n i := start_elem ..
  rw [he, subDot_ops (s := solveSum u false c n (rowM R Q) xs i) (w := b i) (v := Q i i)]
  · rw [hs, solveStep, rowM_diag hR h]
  · rw [← strict_solveSum hR h]
    refine dotC_fold (xv := fun k => Q i (sS R u i + k)) (yv := fun k => xs (sS R u i + k)) (fun k hk' => ?_) fun k hk' => ?_
    · rw [mul_one, off _ fun j hj => strict_disj hR hdA h k j hk' hj]
      exact strict_at hR hA h k hk'
    · rw [elem_shift]
      exact over_of_mem (elem_inj hi).injOn (hk k hk')
  · rw [over_of_not_mem, hx i h]
    intro k hk e
    exact hiS (elem_inj hi e ▸ hk)
  · intro hd
    subst hd
    rw [off _ fun j hj => diag_disj hR hdA h j hj]
    exact diag_at hR hA h
  · intro hd
    subst hd
    exact diag_disj hR hdA h i h

theorem trowsSv_fl {packed : Bool} (hR : TriRows R u n) (hA : RowsAtD m R d n Q) (hx : VecAt m x incX n b) (hi : incX ≠ 0)
    (hdA : RowsDisjD R d n x incX) :
    ∃ xs, trowsSv packed R u false c d n x incX m = .ok ((), over m (elem x incX n) xs (below n)) ∧
      ∀ i, i < n → xs i = solveStep c d (rowM R Q) b i (solveSum u false c n (rowM R Q) xs i) := by
  have hinj := (elem_inj (x := x) (n := n) hi).injOn (s := below n)
  cases u
  · obtain ⟨xs, hxs⟩ := exists_fix_down n (fun i xs => solveStep c d (rowM R Q) b i (solveSum .upper false c n (rowM R Q) xs i)) (by
      intro i xs ys h
      simp only [solveSum, triUp]
      congr 1
      exact dotL_congr fun k hk => h (i + 1 + k) (by omega) (by omega))
    refine ⟨xs, loopDown_over hinj (fun i => subDot c d (dotC c (R.len i - 1) (R.row i + 1) 1
      (start n x incX + (i : Int) * incX + incX) incX) (start n x incX + (i : Int) * incX) (R.row i)) _ fun i hin => ?_, hxs⟩
    have h1 := hR.pos i hin
    have h2 := hR.le i hin
    have h3 := hR.up rfl i hin
    have := strict_step (c := c) hR hA hx hi hdA hin (S := above (i + 1) n) (fun k hk => hk.2) (by simp [above])
      (fun k hk => by simp only [sS, if_true]; exact ⟨by omega, by omega⟩) (hxs i hin)
    beta_reduce
    rw [shift1]
    exact this
  · obtain ⟨xs, hxs⟩ := exists_fix (fun i xs => solveStep c d (rowM R Q) b i (solveSum .lower false c n (rowM R Q) xs i)) (by
      intro i xs ys h
      simp only [solveSum, triUp]
      congr 1
      exact dotL_congr fun k hk => h k hk)
    refine ⟨xs, ?_, fun i _ => hxs i⟩
    have step : ∀ i, i < n → subDot c d (dotC c (R.len i - 1) (R.row i) 1 (start n x incX + (R.first i : Int) * incX) incX)
        (start n x incX + (i : Int) * incX) (R.row i + ((R.len i - 1 : Nat) : Int)) (over m (elem x incX n) xs (below i)) =
        .ok ((), set (over m (elem x incX n) xs (below i)) (elem x incX n i) (xs i)) := by
      intro i hin
      have h1 := hR.pos i hin
      have h3 := hR.lo rfl i hin
      exact strict_step (c := c) hR hA hx hi hdA hin (S := below i) (fun k hk => Nat.lt_trans hk hin) (by simp)
        (fun k hk => by simp only [sS, reduceCtorEq, if_false]; show _ < i; omega) (hxs i)
    cases d
    · unfold trowsSv
      cases packed
      · simp only [Bool.false_eq_true, if_false, loopFrom_zero]
        exact loop_over hinj _ _ step
      · rcases Nat.eq_zero_or_pos n with rfl | hpos
        · exact loop_over hinj _ _ fun i h => absurd h (Nat.not_lt_zero i)
        have h0 : xs 0 = b 0 := by
          rw [hxs 0, solveStep, if_pos rfl]
          simp only [solveSum, triUp]
          exact fl_sub_zero _
        have e0 : m = over m (elem x incX n) xs (below 1) := by
          refine over_unique (elem_inj hi).injOn (fun i h => ?_) fun _ _ => rfl
          have : i = 0 := Nat.lt_one_iff.mp h
          rw [this, h0]
          exact hx 0 hpos
        have := loop_trace (fun k => subDot c .unit (dotC c (R.len (1 + k) - 1) (R.row (1 + k)) 1
          (start n x incX + (R.first (1 + k) : Int) * incX) incX) (start n x incX + ((1 + k : Nat) : Int) * incX)
          (R.row (1 + k) + ((R.len (1 + k) - 1 : Nat) : Int))) (fun k => over m (elem x incX n) xs (below (1 + k))) (n - 1)
          fun k hk => by
            rw [step (1 + k) (by omega), set_over, ← below_succ]
            · rfl
            · rw [← below_succ]
              exact hinj.mono (below_mono (by omega))
        rw [show 1 + (n - 1) = n by omega, show (1 + 0) = 1 from rfl, ← e0] at this
        exact this
    · exact loop_over hinj _ _ step

/-- The equations of a solve have one solution. -/
theorem solve_unique {P : Nat → Nat → Fl f} {xs ys : Nat → Fl f} (hQ : ∀ i j, tri u n i j → P i j = Q i j)
    (hxs : ∀ i, i < n → xs i = solveStep c d P b i (solveSum u false c n P xs i))
    (hys : ∀ i, i < n → ys i = solveStep c d Q b i (solveSum u false c n Q ys i)) : ∀ i, i < n → xs i = ys i := by
  have hd : ∀ i, i < n → P i i = Q i i := fun i h => hQ i i ⟨h, h, by cases u <;> simp⟩
  cases u
  · have key : ∀ k i, i < n → n - i ≤ k → xs i = ys i := by
      intro k
      induction k with
      | zero => intro i h hk; omega
      | succ k ih =>
        intro i h hk
        rw [hxs i h, hys i h]
        simp only [solveStep, solveSum, triE_fl, hd i h]
        rw [if_pos (show triUp .upper false = true from rfl), if_pos (show triUp .upper false = true from rfl)]
        rw [dotL_congr (b := fun k => xs (i + 1 + k)) fun l hl => ih (i + 1 + l) (by omega) (by omega), dotL_comm,
          dotL_congr (b := fun k => P i (i + 1 + k)) fun l hl => hQ i (i + 1 + l) ⟨h, by omega, by simp; omega⟩, dotL_comm]
    exact fun i h => key _ i h (Nat.le_refl _)
  · intro i
    induction i using Nat.strong_induction_on with
    | _ i ih =>
      intro h
      rw [hxs i h, hys i h]
      simp only [solveStep, solveSum, triE_fl, hd i h]
      rw [if_neg (show ¬ triUp .lower false = true by decide), if_neg (show ¬ triUp .lower false = true by decide)]
      rw [dotL_congr (b := xs) fun l hl => ih l hl (by omega), dotL_comm,
        dotL_congr (b := fun k => P i k) fun l hl => hQ i l ⟨h, by omega, by simp; omega⟩, dotL_comm]

/-- The same equations for matrices that agree on the triangle. -/
theorem solve_congr {P : Nat → Nat → Fl f} {xs : Nat → Fl f} (hQ : ∀ i j, tri u n i j → P i j = Q i j)
    (hxs : ∀ i, i < n → xs i = solveStep c d P b i (solveSum u false c n P xs i)) :
    ∀ i, i < n → xs i = solveStep c d Q b i (solveSum u false c n Q xs i) := by
  intro i h
  have hd : P i i = Q i i := hQ i i ⟨h, h, by cases u <;> simp⟩
  refine (hxs i h).trans ?_
  simp only [solveStep, solveSum, triE_fl, hd]
  cases u
  · rw [if_pos (show triUp .upper false = true from rfl), if_pos (show triUp .upper false = true from rfl)]
    rw [dotL_comm, dotL_congr (b := fun k => P i (i + 1 + k)) fun l hl => hQ i (i + 1 + l) ⟨h, by omega, by simp; omega⟩, dotL_comm]
  · rw [if_neg (show ¬ triUp .lower false = true by decide), if_neg (show ¬ triUp .lower false = true by decide)]
    rw [dotL_comm, dotL_congr (b := fun k => P i k) fun l hl => hQ i l ⟨h, by omega, by simp; omega⟩, dotL_comm]

end

section
variable {o : Order} {u : UpLo} {t : Trans} {d : Diag} {n k : Nat} {A ld x incX : Int} {m : Mem (Fl f)} {Q : Nat → Nat → Fl f}
  {b : Nat → Fl f}

/-- The equations that the direct solves satisfy bit for bit; a column-major matrix is the row-major one of the other triangle. -/
def DirectSol (o : Order) (u : UpLo) (t : Trans) (d : Diag) (n : Nat) (Q : Nat → Nat → Fl f) (b xs : Nat → Fl f) : Prop :=
  match o with
  | .colMajor => ∀ i, i < n → xs i = solveStep t.flip.conj d (sw Q) b i (solveSum u.flip false t.flip.conj n (sw Q) xs i)
  | .rowMajor => ∀ i, i < n → xs i = solveStep t.conj d Q b i (solveSum u false t.conj n Q xs i)

theorem col_direct (ht : t.trans = decide (Order.colMajor = .colMajor)) : t.flip.trans = false := by
  have : t.trans = true := by simpa using ht
  simp [Trans.flip, this]

theorem row_direct (ht : t.trans = decide (Order.rowMajor = .colMajor)) : t.trans = false := by simpa using ht

theorem tpsv_fl (ht : t.trans = decide (o = .colMajor)) (hA : StAt m (packAd A o u n) (stored u d n) Q) (hx : VecAt m x incX n b)
    (hi : incX ≠ 0) (hdA : StVecDisj (packAd A o u n) (stored u d n) x incX n) :
    ∃ xs, Yields (tpsv o u t d n A x incX) m x incX n xs ∧ DirectSol o u t d n Q b xs := by
  unfold tpsv DirectSol
  cases o
  swap
  · have hf := col_direct ht
    rw [← stAt_sw, packAd_sw, sw_stored] at hA
    rw [← stVecDisj_sw, packAd_sw, sw_stored] at hdA
    have hin := tpRows_in u.flip n A
    obtain ⟨xs, h1, h2⟩ := trowsSv_fl (packed := true) (c := t.flip.conj) (tpRows_tri u.flip n A) (hin.atD hA) hx hi (hin.disjD hdA)
    simp only [hf]
    exact ⟨xs, yields_of_over hi h1, solve_congr (fun i j h => tpRows_M h _) h2⟩
  · have hf := row_direct ht
    have hin := tpRows_in u n A
    obtain ⟨xs, h1, h2⟩ := trowsSv_fl (packed := true) (c := t.conj) (tpRows_tri u n A) (hin.atD hA) hx hi (hin.disjD hdA)
    simp only [hf]
    exact ⟨xs, yields_of_over hi h1, solve_congr (fun i j h => tpRows_M h _) h2⟩

theorem tbsv_fl (hn : n ≠ 0) (ht : t.trans = decide (o = .colMajor))
    (hA : StAt m (bandAd A o ld (lowerK u k) (upperK u k)) (triBand u d k n) Q) (hx : VecAt m x incX n b)
    (hi : incX ≠ 0) (hdA : StVecDisj (bandAd A o ld (lowerK u k) (upperK u k)) (triBand u d k n) x incX n) :
    ∃ xs, Yields (tbsv o u t d n k A ld x incX) m x incX n xs ∧
      DirectSol o u t d n (bandM (lowerK u k) (upperK u k) Q) b xs := by
  unfold tbsv DirectSol
  rw [if_neg hn]
  cases o
  swap
  · have hf := col_direct ht
    rw [← stAt_sw, bandAd_sw, triBand_sw, show upperK u k = lowerK u.flip k by rw [lowerK_flip],
      show lowerK u k = upperK u.flip k by rw [upperK_flip]] at hA
    rw [← stVecDisj_sw, bandAd_sw, triBand_sw, show upperK u k = lowerK u.flip k by rw [lowerK_flip],
      show lowerK u k = upperK u.flip k by rw [upperK_flip]] at hdA
    have hin := tbRows_in u.flip n k A ld
    obtain ⟨xs, h1, h2⟩ := trowsSv_fl (packed := false) (c := t.flip.conj) (tbRows_tri u.flip n k A ld) (hin.atD hA) hx hi (hin.disjD hdA)
    simp only [hf]
    refine ⟨xs, yields_of_over hi h1, solve_congr (fun i j h => ?_) h2⟩
    rw [tbRows_M h.2.1, lowerK_flip, upperK_flip, bandM_sw]
  · have hf := row_direct ht
    have hin := tbRows_in u n k A ld
    obtain ⟨xs, h1, h2⟩ := trowsSv_fl (packed := false) (c := t.conj) (tbRows_tri u n k A ld) (hin.atD hA) hx hi (hin.disjD hdA)
    simp only [hf]
    exact ⟨xs, yields_of_over hi h1, solve_congr (fun i j h => tbRows_M h.2.1 _) h2⟩

theorem trsv_direct (ht : t.trans = decide (o = .colMajor)) (hA : MatAt m A o ld (stored u d n) Q) (hx : VecAt m x incX n b)
    (hi : incX ≠ 0) (hdA : MatVecDisj A o ld (stored u d n) x incX n) :
    ∃ xs, Yields (trsv o u t d n A ld x incX) m x incX n xs ∧ DirectSol o u t d n Q b xs := by
  unfold trsv DirectSol
  cases o
  swap
  · have hf := col_direct ht
    rw [matAt_col, sw_stored] at hA
    rw [matVecDisj_col, sw_stored] at hdA
    obtain ⟨xs, h1, h2⟩ := trsvRow_ops (trans := t.flip.trans) (c := t.flip.conj) hA hx hi hdA
    rw [hf] at h1 h2
    simp only [hf]
    exact ⟨xs, yields_of_over hi h1, h2⟩
  · have hf := row_direct ht
    obtain ⟨xs, h1, h2⟩ := trsvRow_ops (trans := t.trans) (c := t.conj) hA hx hi hdA
    rw [hf] at h1 h2
    simp only [hf]
    exact ⟨xs, yields_of_over hi h1, h2⟩

theorem DirectSol.unique {xs ys : Nat → Fl f} (h1 : DirectSol o u t d n Q b xs) (h2 : DirectSol o u t d n Q b ys) :
    ∀ i, i < n → xs i = ys i := by
  cases o
  · exact solve_unique (fun _ _ _ => rfl) h1 h2
  · exact solve_unique (fun _ _ _ => rfl) h1 h2

theorem DirectSol.residual (he : f.emin ≤ 0) (ht : t.trans = decide (o = .colMajor)) {xs : Nat → Fl f} (h : DirectSol o u t d n Q b xs)
    (hnz : d = .nonUnit → ∀ i, i < n → (Q i i).val ≠ 0) {i : Nat} (hin : i < n) :
    |∑ j ∈ range n, (opM t (triM u d Q) i j).val * (xs j).val - (b i).val| ≤
      ((1 + unitRoundoff f) ^ (n + 1) - 1) * ∑ j ∈ range n, |(opM t (triM u d Q) i j).val * (xs j).val| +
      (n + |(opM t (triM u d Q) i i).val|) * (1 + unitRoundoff f) ^ (n + 1) * halfTiny f := by
  rw [← triOp_eq t u d Q rfl rfl]
  cases o
  swap
  · have hf := col_direct ht
    have := row_residual (d := d) he hin (h i hin) (fun hd => hnz hd i hin)
    rw [← hf, triOp_flip] at this
    exact this
  · have hf := row_direct ht
    have := row_residual (d := d) he hin (h i hin) (fun hd => hnz hd i hin)
    rw [← hf] at this
    exact this

/-- `tpsv` in floating point where it takes inner products, that is for `T x = b` with a row-major and `Tᵀ x = b` with a column-major matrix. -/
theorem tpsv_direct (he : f.emin ≤ 0) (ht : t.trans = decide (o = .colMajor)) (hA : StAt m (packAd A o u n) (stored u d n) Q)
    (hx : VecAt m x incX n b) (hi : incX ≠ 0) (hdA : StVecDisj (packAd A o u n) (stored u d n) x incX n)
    (hnz : d = .nonUnit → ∀ i, i < n → (Q i i).val ≠ 0) :
    ∃ xv, Yields (tpsv o u t d n A x incX) m x incX n xv ∧ ∀ i, i < n →
      |∑ j ∈ range n, (opM t (triM u d Q) i j).val * (xv j).val - (b i).val| ≤
        ((1 + unitRoundoff f) ^ (n + 1) - 1) * ∑ j ∈ range n, |(opM t (triM u d Q) i j).val * (xv j).val| +
        (n + |(opM t (triM u d Q) i i).val|) * (1 + unitRoundoff f) ^ (n + 1) * halfTiny f := by
  obtain ⟨xs, h1, h2⟩ := tpsv_fl ht hA hx hi hdA
  exact ⟨xs, h1, fun i hin => h2.residual he ht hnz hin⟩

/-- The same for `tbsv` and the banded triangular matrix. -/
theorem tbsv_direct (he : f.emin ≤ 0) (hn : n ≠ 0) (ht : t.trans = decide (o = .colMajor))
    (hA : StAt m (bandAd A o ld (lowerK u k) (upperK u k)) (triBand u d k n) Q) (hx : VecAt m x incX n b) (hi : incX ≠ 0)
    (hdA : StVecDisj (bandAd A o ld (lowerK u k) (upperK u k)) (triBand u d k n) x incX n)
    (hnz : d = .nonUnit → ∀ i, i < n → (Q i i).val ≠ 0) :
    ∃ xv, Yields (tbsv o u t d n k A ld x incX) m x incX n xv ∧ ∀ i, i < n →
      |∑ j ∈ range n, (opM t (triM u d (bandM (lowerK u k) (upperK u k) Q)) i j).val * (xv j).val - (b i).val| ≤
        ((1 + unitRoundoff f) ^ (n + 1) - 1) *
          ∑ j ∈ range n, |(opM t (triM u d (bandM (lowerK u k) (upperK u k) Q)) i j).val * (xv j).val| +
        (n + |(opM t (triM u d (bandM (lowerK u k) (upperK u k) Q)) i i).val|) * (1 + unitRoundoff f) ^ (n + 1) * halfTiny f := by
  obtain ⟨xs, h1, h2⟩ := tbsv_fl hn ht hA hx hi hdA
  refine ⟨xs, h1, fun i hin => h2.residual he ht (fun hd i hi => ?_) hin⟩
  have : bandM (lowerK u k) (upperK u k) Q i i = Q i i := if_pos (by omega)
  rw [this]
  exact hnz hd i hi

/-- **C175** In these cases `tpsv` leaves bit for bit what `trsv` leaves for the same matrix stored in full. -/
theorem C175_tpsv_trsv_partial {A' ld' x' incX' : Int} {m' : Mem (Fl f)} (ht : t.trans = decide (o = .colMajor))
    (hA : StAt m (packAd A o u n) (stored u d n) Q) (hx : VecAt m x incX n b) (hi : incX ≠ 0)
    (hdA : StVecDisj (packAd A o u n) (stored u d n) x incX n)
    (hA' : MatAt m' A' o ld' (stored u d n) Q) (hx' : VecAt m' x' incX' n b) (hi' : incX' ≠ 0)
    (hdA' : MatVecDisj A' o ld' (stored u d n) x' incX' n) :
    ∃ w, Yields (tpsv o u t d n A x incX) m x incX n w ∧ Yields (trsv o u t d n A' ld' x' incX') m' x' incX' n w := by
  obtain ⟨xs, h1, h2⟩ := tpsv_fl ht hA hx hi hdA
  obtain ⟨ys, h3, h4⟩ := trsv_direct ht hA' hx' hi' hdA'
  exact ⟨xs, h1, h3.congr fun i hin => (h4.unique h2 i hin)⟩

/-- **C175** `tbsv` leaves bit for bit what `trsv` leaves for the same matrix stored in full, with zeros outside the band. -/
theorem C175_tbsv_trsv_partial {A' ld' x' incX' : Int} {m' : Mem (Fl f)} (hn : n ≠ 0) (ht : t.trans = decide (o = .colMajor))
    (hA : StAt m (bandAd A o ld (lowerK u k) (upperK u k)) (triBand u d k n) Q) (hx : VecAt m x incX n b) (hi : incX ≠ 0)
    (hdA : StVecDisj (bandAd A o ld (lowerK u k) (upperK u k)) (triBand u d k n) x incX n)
    (hA' : MatAt m' A' o ld' (stored u d n) (bandM (lowerK u k) (upperK u k) Q)) (hx' : VecAt m' x' incX' n b) (hi' : incX' ≠ 0)
    (hdA' : MatVecDisj A' o ld' (stored u d n) x' incX' n) :
    ∃ w, Yields (tbsv o u t d n k A ld x incX) m x incX n w ∧ Yields (trsv o u t d n A' ld' x' incX') m' x' incX' n w := by
  obtain ⟨xs, h1, h2⟩ := tbsv_fl hn ht hA hx hi hdA
  obtain ⟨ys, h3, h4⟩ := trsv_direct ht hA' hx' hi' hdA'
  exact ⟨xs, h1, h3.congr fun i hin => (h4.unique h2 i hin)⟩

end

/-- A memory for the examples: an upper triangle of order 3, packed at 0, in full at 30 and banded at 50; a vector at 10. -/
def exTpFl : Mem (Fl binary64) := fun p =>
  if p = 1 ∨ p = 31 ∨ p = 51 then .val 0
  else if 10 ≤ p ∧ p < 12 then .val (.round _ (1 / 2 ^ 54))
  else if (0 ≤ p ∧ p < 6) ∨ p = 12 ∨ (30 ≤ p ∧ p < 39) ∨ (50 ≤ p ∧ p < 57) then .val (.round _ 1) else .out

/-- The hypotheses of the theorems hold. -/
theorem exTpFl_ok : StAt exTpFl (packAd 0 .rowMajor .upper 3) (stored .upper .nonUnit 3)
      (fun i j => if i = 0 ∧ j = 1 then 0 else .round _ 1) ∧
    MatAt exTpFl 30 .rowMajor 3 (stored .upper .nonUnit 3) (fun i j => if i = 0 ∧ j = 1 then 0 else .round _ 1) ∧
    StAt exTpFl (bandAd 50 .rowMajor 3 0 2) (triBand .upper .nonUnit 2 3) (fun i j => if i = 0 ∧ j = 1 then 0 else .round _ 1) ∧
    VecAt exTpFl 10 1 3 (fun i => if i < 2 then .round _ (1 / 2 ^ 54) else .round _ 1) ∧
    StVecDisj (packAd 0 .rowMajor .upper 3) (stored .upper .nonUnit 3) 10 1 3 ∧
    MatVecDisj 30 .rowMajor 3 (stored .upper .nonUnit 3) 10 1 3 ∧
    StVecDisj (bandAd 50 .rowMajor 3 0 2) (triBand .upper .nonUnit 2 3) 10 1 3 := by
  refine ⟨fun i j h => ?_, fun i j h => ?_, fun i j h => ?_, fun i h => ?_, fun i j k h hk => ?_, fun i j k h hk => ?_, fun i j k h hk => ?_⟩
  · obtain ⟨⟨h1, h2, h3⟩, -⟩ := h
    interval_cases i <;> interval_cases j <;> first | rfl | (exact absurd h3 (by decide))
  · obtain ⟨⟨h1, h2, h3⟩, -⟩ := h
    interval_cases i <;> interval_cases j <;> first | rfl | (exact absurd h3 (by decide))
  · obtain ⟨⟨h1, h2, h3, h4⟩, -⟩ := h
    simp only [lowerK, upperK] at h3 h4
    interval_cases i <;> interval_cases j <;> first | rfl | omega
  · interval_cases i <;> rfl
  · obtain ⟨⟨h1, h2, h3⟩, -⟩ := h
    interval_cases i <;> interval_cases j <;> interval_cases k <;> first | decide | (exact absurd h3 (by decide))
  · obtain ⟨⟨h1, h2, h3⟩, -⟩ := h
    interval_cases i <;> interval_cases j <;> interval_cases k <;> first | decide | (exact absurd h3 (by decide))
  · obtain ⟨⟨h1, h2, h3, h4⟩, -⟩ := h
    simp only [lowerK, upperK] at h3 h4
    interval_cases i <;> interval_cases j <;> interval_cases k <;> first | decide | omega

/-- **C175 (disproved for the other cases).** For `Tᵀ x = b` with a row-major matrix `tpsv` and `tbsv` subtract the products one by one, where
`trsv` subtracts their sum: `1 - 2^-54 - 2^-54` is 1 in the one and `1 - 2^-53` in the other. -/
theorem C175_tpsv_trsv_false : ∃ a b,
    peek (tpsv .rowMajor .upper ⟨false, true⟩ .nonUnit 3 0 10 1 exTpFl) (fun _ m => m 12) = .ok (.val a) ∧
    peek (tbsv .rowMajor .upper ⟨false, true⟩ .nonUnit 3 2 50 3 10 1 exTpFl) (fun _ m => m 12) = .ok (.val a) ∧
    peek (trsv .rowMajor .upper ⟨false, true⟩ .nonUnit 3 30 3 10 1 exTpFl) (fun _ m => m 12) = .ok (.val b) ∧ a ≠ b := by
  refine ⟨.round binary64 1, .round binary64 (1 - 1 / 2 ^ 53), by decide +kernel, by decide +kernel, by decide +kernel, by decide +kernel⟩

end Verif.Blas
