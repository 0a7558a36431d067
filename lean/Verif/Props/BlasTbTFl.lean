import Verif.Props.BlasTbFl

/-! Property theorems for the solves with packed and banded triangular matrices in floating point where the products are subtracted one by one
(C174). -/

namespace Verif.Blas

open Finset Verif.Ieee

variable {f : Fmt}

/-! ### Subtracting products one by one -/

/-- `b` after the products with the first `k` elements found, in the order `σ`, have been subtracted. -/
def subAll (σ : Nat → Nat) (Z : Nat → Nat → Fl f) (xs : Nat → Fl f) (b : Fl f) (i : Nat) : Nat → Fl f
  | 0 => b
  | k + 1 => subAll σ Z xs b i k + -xs (σ k) * Z (σ k) i

theorem subAll_congr {σ : Nat → Nat} {Z : Nat → Nat → Fl f} {xs ys : Nat → Fl f} {b : Fl f} {i : Nat} :
    ∀ k, (∀ l, l < k → xs (σ l) = ys (σ l)) → subAll σ Z xs b i k = subAll σ Z ys b i k
  | 0, _ => rfl
  | k + 1, h => by
    rw [subAll, subAll, subAll_congr k fun l hl => h l (by omega), h k (by omega)]

/-- What is left differs from the exact difference by `k` roundings of the terms and of what is left. -/
theorem subAll_error (σ : Nat → Nat) (Z : Nat → Nat → Fl f) (xs : Nat → Fl f) (b : Fl f) (i : Nat) : ∀ k,
    |b.val - ∑ l ∈ range k, (Z (σ l) i).val * (xs (σ l)).val - (subAll σ Z xs b i k).val| ≤
      ((1 + unitRoundoff f) ^ k - 1) * (|(subAll σ Z xs b i k).val| + ∑ l ∈ range k, |(Z (σ l) i).val * (xs (σ l)).val|) +
      k * (1 + unitRoundoff f) ^ k * halfTiny f
  | 0 => by simp [subAll]
  | k + 1 => by
    have ih := subAll_error σ Z xs b i k
    have hq : (-xs (σ k) * Z (σ k) i).val = rnd f (-(xs (σ k)).val * (Z (σ k) i).val) := rfl
    have ha : (subAll σ Z xs b i (k + 1)).val = rnd f ((subAll σ Z xs b i k).val - -(-xs (σ k) * Z (σ k) i).val) := by
      rw [sub_neg_eq_add]; rfl
    have h1 := rnd_err f (-(xs (σ k)).val * (Z (σ k) i).val)
    rw [← hq] at h1
    have h2 := rnd_sub_err_after (f := f) (subAll σ Z xs b i k).repr (repr_neg (-xs (σ k) * Z (σ k) i).repr)
    rw [← ha] at h2
    rw [sum_range_succ, sum_range_succ]
    have hp : -(xs (σ k)).val * (Z (σ k) i).val = -((Z (σ k) i).val * (xs (σ k)).val) := by ring
    rw [hp, abs_neg] at h1
    have hS : (0 : ℚ) ≤ ∑ l ∈ range k, |(Z (σ l) i).val * (xs (σ l)).val| := sum_nonneg fun _ _ => abs_nonneg _
    have hP := one_le_pow_unit f k
    have hu := unit_pos f
    have hh := tiny_pos f
    rw [pow_succ]
    push_cast
    have hk : (0 : ℚ) ≤ k := Nat.cast_nonneg k
    generalize (subAll σ Z xs b i (k + 1)).val = a' at *
    generalize (subAll σ Z xs b i k).val = a at *
    generalize (-xs (σ k) * Z (σ k) i).val = q at *
    generalize (Z (σ k) i).val * (xs (σ k)).val = p at *
    generalize (∑ l ∈ range k, |(Z (σ l) i).val * (xs (σ l)).val|) = T at *
    generalize (∑ l ∈ range k, (Z (σ l) i).val * (xs (σ l)).val) = S at *
    generalize (1 + unitRoundoff f) ^ k = P at *
    generalize unitRoundoff f = u at *
    generalize halfTiny f = h at *
    generalize (k : ℚ) = K at *
    rw [sub_neg_eq_add] at h2
    have e3 : b.val - (S + p) - a' = (b.val - S - a) + -(q - -p) + -(a' - (a + q)) + (0 : ℚ) := by ring
    have e4 : a = a' + p + -(q - -p) + -(a' - (a + q)) := by ring
    have h3 : |b.val - (S + p) - a'| ≤ |b.val - S - a| + |q - -p| + |a' - (a + q)| := by
      rw [e3, add_zero]
      have := abs_add_three (b.val - S - a) (-(q - -p)) (-(a' - (a + q)))
      rwa [abs_neg, abs_neg] at this
    have h4 : |a| ≤ |a'| + |p| + |q - -p| + |a' - (a + q)| := by
      have := abs_add_three (a' + p) (-(q - -p)) (-(a' - (a + q)))
      rw [abs_neg, abs_neg, ← e4] at this
      have := abs_add_le a' p
      linarith
    have hA' := abs_nonneg a'
    have hp0 := abs_nonneg p
    generalize |a'| = X at *
    generalize |p| = Y at *
    generalize |a| = V at *
    have h5 : (P - 1) * (V + T) ≤ (P - 1) * ((X + Y + (u * Y + h) + u * X) + T) :=
      mul_le_mul_of_nonneg_left (by linarith) (by linarith)
    have h6 : 0 ≤ (P * u) * T := mul_nonneg (mul_nonneg (by linarith) hu.le) hS
    have h7 : 0 ≤ (K + 1) * (P * u) * h := mul_nonneg (mul_nonneg (by linarith) (mul_nonneg (by linarith) hu.le)) hh.le
    nlinarith

/-- The equation of a row that is solved in this way. -/
theorem subAll_residual {σ : Nat → Nat} {Z : Nat → Nat → Fl f} {xs : Nat → Fl f} {b : Fl f} {i k : Nat} {D z : ℚ}
    (hz : (D = 1 ∧ z = (subAll σ Z xs b i k).val) ∨ (D ≠ 0 ∧ z = rnd f ((subAll σ Z xs b i k).val / D))) :
    |(D * z + ∑ l ∈ range k, (Z (σ l) i).val * (xs (σ l)).val) - b.val| ≤
      ((1 + unitRoundoff f) ^ (k + 1) - 1) * (|D * z| + ∑ l ∈ range k, |(Z (σ l) i).val * (xs (σ l)).val|) +
      (k + |D|) * (1 + unitRoundoff f) ^ (k + 1) * halfTiny f := by
  have h1 := subAll_error σ Z xs b i k
  have hu := unit_pos f
  have hh := tiny_pos f
  have hP := one_le_pow_unit f k
  have hS : (0 : ℚ) ≤ ∑ l ∈ range k, |(Z (σ l) i).val * (xs (σ l)).val| := sum_nonneg fun _ _ => abs_nonneg _
  have hk : (0 : ℚ) ≤ k := Nat.cast_nonneg k
  generalize (subAll σ Z xs b i k).val = w at *
  have h2 : |D * z - w| ≤ unitRoundoff f * |D * z| + |D| * halfTiny f := by
    rcases hz with ⟨hD, hz⟩ | ⟨hD, hz⟩
    · rw [hD, hz, one_mul, sub_self, abs_zero, abs_one, one_mul]
      have := mul_nonneg hu.le (abs_nonneg w)
      linarith
    · have e : D * z - w = D * (z - w / D) := by field_simp
      have h3 := rnd_err_after f (w / D)
      rw [← hz] at h3
      rw [e, abs_mul, abs_mul]
      have := mul_le_mul_of_nonneg_left h3 (abs_nonneg D)
      linarith
  rw [pow_succ]
  generalize (∑ l ∈ range k, |(Z (σ l) i).val * (xs (σ l)).val|) = T at *
  generalize (∑ l ∈ range k, (Z (σ l) i).val * (xs (σ l)).val) = S at *
  generalize (1 + unitRoundoff f) ^ k = P at *
  generalize unitRoundoff f = u at *
  generalize halfTiny f = h at *
  generalize (k : ℚ) = K at *
  have h3 : |D * z + S - b.val| ≤ |b.val - S - w| + |D * z - w| := by
    have e : D * z + S - b.val = -(b.val - S - w) + (D * z - w) := by ring
    rw [e]
    have := abs_add_le (-(b.val - S - w)) (D * z - w)
    rwa [abs_neg] at this
  have h4 : |w| ≤ |D * z| + |D * z - w| := by
    have := abs_sub_abs_le_abs_sub w (D * z)
    rw [abs_sub_comm w] at this
    linarith
  have hX := abs_nonneg (D * z)
  have hD0 := abs_nonneg D
  generalize |D * z| = X at *
  generalize |D| = d at *
  generalize |w| = V at *
  have h5 : (P - 1) * (V + T) ≤ (P - 1) * ((X + (u * X + d * h)) + T) := mul_le_mul_of_nonneg_left (by linarith) (by linarith)
  have h6 : 0 ≤ (P * u) * T := mul_nonneg (mul_nonneg (by linarith) hu.le) hS
  have h7 : 0 ≤ (K + d) * (P * u) * h := mul_nonneg (mul_nonneg (by linarith) (mul_nonneg (by linarith) hu.le)) hh.le
  nlinarith

/-! ### The passes -/

/-- Division by the diagonal. -/
def divD (c : Bool) (d : Diag) (Q : Nat → Nat → Fl f) (i : Nat) (v : Fl f) : Fl f := if d = .unit then v else v / cj c (Q i i)

/-- Pass of the transposed solve on rounded numbers. -/
def pSvF (c : Bool) (d : Diag) (Q Z : Nat → Nat → Fl f) (i : Nat) (w : Nat → Fl f) (j : Nat) : Fl f :=
  if j = i then divD c d Q i (w i) else w j + -divD c d Q i (w i) * Z i j

theorem trace_svF {n : Nat} {σ : Nat → Nat} {c : Bool} {d : Diag} {Q Z : Nat → Nat → Fl f} (h : Ord n σ)
    (hZ : ∀ i j, i < n → j < n → Z i j ≠ 0 → σ i < σ j) (b : Nat → Fl f) :
    ∃ xs, Trace (pSvF c d Q Z) σ n b xs ∧ ∀ i, i < n → xs i = divD c d Q i (subAll σ Z xs (b i) i (σ i)) := by
  obtain ⟨xs, hx⟩ := exists_fix_ord h (fun i xs => divD c d Q i (subAll σ Z xs (b i) i (σ i))) fun i xs ys hi hxy => by
    have hs := h.lt i hi
    rw [subAll_congr _ fun l hl => hxy (σ l) (h.lt l (by omega)) (by rw [h.inv l (by omega)]; exact hl)]
  refine ⟨xs, ⟨fun k j => if σ j < k then xs j else subAll σ Z xs (b j) j k, fun i _ => by simp [subAll], fun k hk i hi => ?_,
    fun i hi => if_pos (h.lt i hi)⟩, hx⟩
  have hs := h.lt k hk
  have hv : divD c d Q (σ k) (subAll σ Z xs (b (σ k)) (σ k) k) = xs (σ k) := by
    have := hx _ hs
    rw [h.inv k hk] at this
    exact this.symm
  unfold pSvF
  beta_reduce
  by_cases e : i = σ k
  · subst e
    rw [if_pos rfl, h.inv k hk, if_neg (Nat.lt_irrefl k), if_pos (Nat.lt_succ_self k), hv]
  · have h1 : σ i ≠ k := fun e' => e ((h.eq_iff hi hk).1 e')
    rw [if_neg e, h.inv k hk, if_neg (Nat.lt_irrefl k), hv]
    by_cases h2 : σ i < k
    · rw [if_pos h2, if_pos (by omega)]
      have : Z (σ k) i = 0 := by
        by_contra hz
        have := hZ _ _ hs hi hz
        rw [h.inv k hk] at this
        omega
      rw [this, fl_mul_zero, fl_add_zero]
    · rw [if_neg h2, if_neg (by omega), subAll]

section
variable {R : Rows} {u : UpLo} {d : Diag} {c : Bool} {n : Nat} {x incX : Int} {m : Mem (Fl f)} {Q : Nat → Nat → Fl f} {b : Nat → Fl f}

theorem pass_axpyNegF (hR : TriRows R u n) (hA : RowsAtD m R d n Q) (hi : incX ≠ 0) (hdA : RowsDisjD R d n x incX) {i : Nat}
    (h : i < n) (w : Nat → Fl f) :
    axpyNegX c (R.len i - 1) (start n x incX + (i : Int) * incX) (sA R u i) (start n x incX + (sS R u i : Int) * incX) incX
      (snap m x incX n w) = .ok ((), snap m x incX n (pSvF c .unit Q (sZ R u c Q) i w)) := by
  unfold axpyNegX
  have he : start n x incX + (i : Int) * incX = elem x incX n i := start_elem ..
  rw [he, bind_ok (load_ok (snap_in hi h)), segAxpy_fl (q := Q i) hi (hR.sS_le h) (strict_at hR hA h) (strict_disj hR hdA h)]
  refine congrArg (fun z => Out.ok ((), z)) (snap_congr hi fun j _ => ?_)
  have e1 : seg (sS R u i) (R.len i - 1) (Q i) j = sZ R u c Q i j := by simp only [sZ, cj_val]
  rw [e1]
  unfold pSvF divD
  by_cases e : j = i
  · subst e
    rw [sZ_self hR h, fl_mul_zero, fl_add_zero, if_pos rfl, if_pos rfl]
  · rw [if_neg e, if_pos rfl]

theorem pass_divF (hR : TriRows R u n) (hA : RowsAtD m R .nonUnit n Q) (hi : incX ≠ 0)
    (hdA : RowsDisjD R .nonUnit n x incX) {i : Nat} (h : i < n) (w : Nat → Fl f) :
    (do
      divDiag c .nonUnit (start n x incX + (i : Int) * incX) (sD R u i)
      axpyNegX c (R.len i - 1) (start n x incX + (i : Int) * incX) (sA R u i) (start n x incX + (sS R u i : Int) * incX) incX :
        M (Fl f) Unit)
      (snap m x incX n w) = .ok ((), snap m x incX n (pSvF c .nonUnit Q (sZ R u c Q) i w)) := by
  have h1 : divDiag c .nonUnit (start n x incX + (i : Int) * incX) (sD R u i) (snap m x incX n w) =
      .ok ((), snap m x incX n (Function.update w i (w i / cj c (Q i i)))) := by
    unfold divDiag
    simp only
    rw [start_elem, bind_ok (load_ok (snap_in hi h)),
      bind_ok (load_ok ((snap_out (diag_disj hR hdA h)).trans (diag_at hR hA h))),
      store_ok (by rw [snap_in hi h]; simp), snap_set hi h]
    rfl
  rw [bind_ok h1, pass_axpyNegF hR hA hi hdA h]
  refine congrArg (fun z => Out.ok ((), z)) (snap_congr hi fun j _ => ?_)
  by_cases e : j = i
  · subst e; simp [pSvF, divD]
  · simp [pSvF, divD, e]

theorem pSvF_skip (hR : TriRows R u n) {i : Nat} (h : i < n) (hl : i = if u = .upper then n - 1 else 0)
    (w : Nat → Fl f) (j : Nat) : pSvF c .unit Q (sZ R u c Q) i w j = w j := by
  unfold pSvF divD
  by_cases e : j = i
  · subst e; simp
  · rw [if_neg e, sZ_last hR h hl, fl_mul_zero, fl_add_zero]

theorem trowsSvT_fl {packed : Bool} (hR : TriRows R u n) (hA : RowsAtD m R d n Q) (hx : VecAt m x incX n b) (hi : incX ≠ 0)
    (hdA : RowsDisjD R d n x incX) :
    ∃ xs σ, trowsSv packed R u true c d n x incX m = .ok ((), snap m x incX n xs) ∧ Ord n σ ∧
      (∀ i j, i < n → j < n → sZ R u c Q i j ≠ 0 → σ i < σ j) ∧
      ∀ i, i < n → xs i = divD c d Q i (subAll σ (sZ R u c Q) xs (b i) i (σ i)) := by
  have hm := snap_eq hi hx
  cases u
  · have hZ : ∀ i j, i < n → j < n → sZ R .upper c Q i j ≠ 0 → i < j := fun i j h h' hz => by simpa using sZ_ne hR h hz
    obtain ⟨xs, tr, hxs⟩ := trace_svF (c := c) (d := d) (Q := Q) (ord_id n) hZ b
    refine ⟨xs, _, ?_, ord_id n, hZ, hxs⟩
    conv_lhs => rw [hm]
    cases d
    · have pass : ∀ k, k < n → ∀ w, axpyNegX c (R.len k - 1) (start n x incX + (k : Int) * incX) (R.row k + 1)
          (start n x incX + (k : Int) * incX + incX) incX (snap m x incX n w) =
          .ok ((), snap m x incX n (pSvF c .unit Q (sZ R .upper c Q) k w)) := by
        intro k hk w
        rw [shift1]
        exact pass_axpyNegF hR hA hi hdA hk w
      unfold trowsSv
      cases packed
      · exact tr.run hi _ pass
      · exact tr.run_last hi _ pass fun w i hin => pSvF_skip (i := n - 1) hR (by omega) rfl w i
    · refine tr.run hi _ fun k hk w => ?_
      beta_reduce
      rw [shift1]
      exact pass_divF (c := c) hR hA hi hdA hk w
  · have hZ : ∀ i j, i < n → j < n → sZ R .lower c Q i j ≠ 0 → n - 1 - i < n - 1 - j := fun i j h h' hz => by
      have : j < i := by simpa using sZ_ne hR h hz
      omega
    obtain ⟨xs, tr, hxs⟩ := trace_svF (c := c) (d := d) (Q := Q) (ord_rev n) hZ b
    refine ⟨xs, _, ?_, ord_rev n, hZ, hxs⟩
    conv_lhs => rw [hm]
    cases d
    · have pass : ∀ k, k < n → ∀ w, axpyNegX c (R.len (n - 1 - k) - 1) (start n x incX + ((n - 1 - k : Nat) : Int) * incX)
          (R.row (n - 1 - k)) (start n x incX + (R.first (n - 1 - k) : Int) * incX) incX (snap m x incX n w) =
          .ok ((), snap m x incX n (pSvF c .unit Q (sZ R .lower c Q) (n - 1 - k) w)) := by
        intro k hk w
        exact pass_axpyNegF hR hA hi hdA (by omega) w
      unfold trowsSv
      cases packed
      · exact tr.run hi _ pass
      · exact tr.run_last hi _ pass fun w i hin => by
          rw [show n - 1 - (n - 1) = 0 by omega]
          exact pSvF_skip (i := 0) hR (by omega) rfl w i
    · exact tr.run hi _ fun k hk w => pass_divF (c := c) hR hA hi hdA (by omega) w

theorem triOp_T (hR : TriRows R u n) {i j : Nat} (hi : i < n) (hj : j < n) :
    triOp u true c d (rowM R Q) i j = if j = i then dg c d Q i else sZ R u c Q j i := by
  unfold triOp triE
  simp only [cj_val, if_true, dg, sZ]
  by_cases e : i = j
  · subst e
    rw [if_pos rfl, if_pos rfl, rowM_diag hR hi]
  · rw [if_neg e, if_neg (Ne.symm e)]
    have h1 := hR.pos j hj
    unfold rowM seg
    cases u
    · have h3 := hR.up rfl j hj
      rw [show triUp .upper true = false from rfl]
      simp only [sS, if_true, Bool.false_eq_true, if_false]
      split_ifs <;> first | rfl | omega
    · have h3 := hR.lo rfl j hj
      rw [show triUp .lower true = true from rfl]
      simp only [sS, reduceCtorEq, if_true, if_false]
      split_ifs <;> first | rfl | omega

theorem triOp_T_sum (hR : TriRows R u n) {σ : Nat → Nat} (ho : Ord n σ)
    (hZ : ∀ i j, i < n → j < n → sZ R u c Q i j ≠ 0 → σ i < σ j) {i : Nat} (hi : i < n) (xs : Nat → Fl f) (g : ℚ → ℚ) (h0 : g 0 = 0) :
    ∑ j ∈ range n, g ((triOp u true c d (rowM R Q) i j).val * (xs j).val) =
      g ((dg c d Q i).val * (xs i).val) + ∑ l ∈ range (σ i), g ((sZ R u c Q (σ l) i).val * (xs (σ l)).val) := by
  have e1 : ∀ j, j ∈ range n → g ((triOp u true c d (rowM R Q) i j).val * (xs j).val) =
      (if j = i then g ((dg c d Q i).val * (xs i).val) else 0) + g ((sZ R u c Q j i).val * (xs j).val) := by
    intro j hj
    rw [mem_range] at hj
    rw [triOp_T hR hi hj]
    by_cases e : j = i
    · subst e
      rw [if_pos rfl, if_pos rfl, sZ_self hR hj, val_zero, zero_mul, h0, add_zero]
    · rw [if_neg e, if_neg e, zero_add]
  rw [sum_congr rfl e1, sum_add_distrib, sum_ite_eq' (range n) i, if_pos (mem_range.2 hi)]
  congr 1
  have e2 : ∑ j ∈ range n, g ((sZ R u c Q j i).val * (xs j).val) = ∑ l ∈ range n, g ((sZ R u c Q (σ l) i).val * (xs (σ l)).val) :=
    sum_nbij' σ σ (fun j hj => mem_range.2 (ho.lt j (mem_range.1 hj))) (fun j hj => mem_range.2 (ho.lt j (mem_range.1 hj)))
      (fun j hj => ho.inv j (mem_range.1 hj)) (fun j hj => ho.inv j (mem_range.1 hj))
      fun j hj => by rw [ho.inv j (mem_range.1 hj)]
  rw [e2]
  refine (sum_subset (range_subset_range.2 (ho.lt i hi).le) fun l hl hl' => ?_).symm
  rw [mem_range] at hl hl'
  have : sZ R u c Q (σ l) i = 0 := by
    by_contra hz
    have := hZ _ _ (ho.lt l hl) hi hz
    rw [ho.inv l hl] at this
    exact hl' this
  rw [this, val_zero, zero_mul, h0]

/-- The computed vector satisfies each equation up to `n + 1` roundings of its terms. -/
theorem rowT_residual (he : f.emin ≤ 0) (hR : TriRows R u n) {σ : Nat → Nat} (ho : Ord n σ)
    (hZ : ∀ i j, i < n → j < n → sZ R u c Q i j ≠ 0 → σ i < σ j) {xs : Nat → Fl f}
    (hx : ∀ i, i < n → xs i = divD c d Q i (subAll σ (sZ R u c Q) xs (b i) i (σ i)))
    (hnz : d = .nonUnit → ∀ i, i < n → (Q i i).val ≠ 0) {i : Nat} (hi : i < n) :
    |∑ j ∈ range n, (triOp u true c d (rowM R Q) i j).val * (xs j).val - (b i).val| ≤
      ((1 + unitRoundoff f) ^ (n + 1) - 1) * ∑ j ∈ range n, |(triOp u true c d (rowM R Q) i j).val * (xs j).val| +
      (n + |(triOp u true c d (rowM R Q) i i).val|) * (1 + unitRoundoff f) ^ (n + 1) * halfTiny f := by
  have h1 := triOp_T_sum (d := d) hR ho hZ hi xs id rfl
  have h2 := triOp_T_sum (d := d) hR ho hZ hi xs (fun q => |q|) abs_zero
  simp only [id] at h1
  have hD : (triOp u true c d (rowM R Q) i i) = dg c d Q i := by rw [triOp_T hR hi hi, if_pos rfl]
  rw [h1, h2, hD]
  have hr := subAll_residual (f := f) (σ := σ) (Z := sZ R u c Q) (xs := xs) (b := b i) (i := i) (k := σ i) (D := (dg c d Q i).val)
    (z := (xs i).val) (by
      have hxi := hx i hi
      rw [divD] at hxi
      unfold dg
      by_cases hd : d = .unit
      · left
        rw [if_pos hd] at hxi
        rw [if_pos hd]
        exact ⟨val_one he, congrArg Fl.val hxi⟩
      · right
        rw [if_neg hd, cj_val] at hxi
        rw [if_neg hd, cj_val]
        exact ⟨hnz (by cases d <;> simp_all) i hi, congrArg Fl.val hxi⟩)
  have hk := ho.lt i hi
  refine hr.trans ?_
  have hp : (1 + unitRoundoff f) ^ (σ i + 1) ≤ (1 + unitRoundoff f) ^ (n + 1) := pow_unit_mono f (by omega)
  have hp1 := one_le_pow_unit f (σ i + 1)
  have hkn : ((σ i : Nat) : ℚ) ≤ n := by exact_mod_cast hk.le
  have hk0 : (0 : ℚ) ≤ (σ i : Nat) := Nat.cast_nonneg _
  have hh := tiny_pos f
  have hD0 := abs_nonneg (dg c d Q i).val
  have hX := abs_nonneg ((dg c d Q i).val * (xs i).val)
  have hT : (0 : ℚ) ≤ ∑ l ∈ range (σ i), |(sZ R u c Q (σ l) i).val * (xs (σ l)).val| := sum_nonneg fun _ _ => abs_nonneg _
  refine add_le_add (mul_le_mul_of_nonneg_right (by linarith) (by linarith)) (mul_le_mul_of_nonneg_right ?_ hh.le)
  exact mul_le_mul (by linarith) hp (by linarith) (by linarith)

end

section
variable {o : Order} {u : UpLo} {t : Trans} {d : Diag} {n k : Nat} {A ld x incX : Int} {m : Mem (Fl f)} {Q : Nat → Nat → Fl f}
  {b : Nat → Fl f}

theorem resid_congr {T T' : Nat → Nat → Fl f} {xs : Nat → Fl f} {i : Nat} (hi : i < n) (h : ∀ j, j < n → T i j = T' i j)
    (hr : |∑ j ∈ range n, (T i j).val * (xs j).val - (b i).val| ≤
      ((1 + unitRoundoff f) ^ (n + 1) - 1) * ∑ j ∈ range n, |(T i j).val * (xs j).val| +
      (n + |(T i i).val|) * (1 + unitRoundoff f) ^ (n + 1) * halfTiny f) :
    |∑ j ∈ range n, (T' i j).val * (xs j).val - (b i).val| ≤
      ((1 + unitRoundoff f) ^ (n + 1) - 1) * ∑ j ∈ range n, |(T' i j).val * (xs j).val| +
      (n + |(T' i i).val|) * (1 + unitRoundoff f) ^ (n + 1) * halfTiny f := by
  have e1 : ∑ j ∈ range n, (T i j).val * (xs j).val = ∑ j ∈ range n, (T' i j).val * (xs j).val :=
    sum_congr rfl fun j hj => by rw [h j (mem_range.1 hj)]
  have e2 : ∑ j ∈ range n, |(T i j).val * (xs j).val| = ∑ j ∈ range n, |(T' i j).val * (xs j).val| :=
    sum_congr rfl fun j hj => by rw [h j (mem_range.1 hj)]
  rwa [e1, e2, h i hi] at hr

theorem col_updates (ht : t.trans ≠ decide (Order.colMajor = .colMajor)) : t.flip.trans = true := by
  have : t.trans = false := by simpa using ht
  simp [Trans.flip, this]

theorem row_updates (ht : t.trans ≠ decide (Order.rowMajor = .colMajor)) : t.trans = true := by simpa using ht

/-- **C174** `tpsv` in floating point, for all 32 combinations of order, triangle, transposition, conjugation and unit diagonal: the
computed vector satisfies each equation of `op(T) x = b` up to `n + 1` roundings of the sum of the magnitudes of its terms, however
badly conditioned the matrix is. Nothing else changes. -/
theorem C174_tpsv (he : f.emin ≤ 0) (hA : StAt m (packAd A o u n) (stored u d n) Q)
    (hx : VecAt m x incX n b) (hi : incX ≠ 0) (hdA : StVecDisj (packAd A o u n) (stored u d n) x incX n)
    (hnz : d = .nonUnit → ∀ i, i < n → (Q i i).val ≠ 0) :
    ∃ xv, Yields (tpsv o u t d n A x incX) m x incX n xv ∧ ∀ i, i < n →
      |∑ j ∈ range n, (opM t (triM u d Q) i j).val * (xv j).val - (b i).val| ≤
        ((1 + unitRoundoff f) ^ (n + 1) - 1) * ∑ j ∈ range n, |(opM t (triM u d Q) i j).val * (xv j).val| +
        (n + |(opM t (triM u d Q) i i).val|) * (1 + unitRoundoff f) ^ (n + 1) * halfTiny f := by
  by_cases ht : t.trans = decide (o = .colMajor)
  · exact tpsv_direct he ht hA hx hi hdA hnz
  rw [← triOp_eq t u d Q rfl rfl]
  have key : ∀ (u : UpLo) (trans c : Bool) (Q : Nat → Nat → Fl f), trans = true → (d = .nonUnit → ∀ i, i < n → (Q i i).val ≠ 0) →
      StAt m (packAd A .rowMajor u n) (stored u d n) Q → StVecDisj (packAd A .rowMajor u n) (stored u d n) x incX n →
      ∃ xv, Yields (trowsSv true (tpRows u n A) u trans c d n x incX) m x incX n xv ∧ ∀ i, i < n →
        |∑ j ∈ range n, (triOp u trans c d Q i j).val * (xv j).val - (b i).val| ≤
          ((1 + unitRoundoff f) ^ (n + 1) - 1) * ∑ j ∈ range n, |(triOp u trans c d Q i j).val * (xv j).val| +
          (n + |(triOp u trans c d Q i i).val|) * (1 + unitRoundoff f) ^ (n + 1) * halfTiny f := by
    intro u trans c Q htr hnz hA hdA
    subst htr
    have hin := tpRows_in u n A
    obtain ⟨xs, σ, h1, h2, h3, h4⟩ := trowsSvT_fl (packed := true) (c := c) (tpRows_tri u n A) (hin.atD hA) hx hi (hin.disjD hdA)
    refine ⟨xs, yields_of_snap hi h1, fun i hi' => ?_⟩
    exact resid_congr hi' (fun j hj => triOp_congr hi' hj fun i j h => tpRows_M h Q)
      (rowT_residual he (tpRows_tri u n A) h2 h3 h4 hnz hi')
  cases o
  swap
  · rw [← stAt_sw, packAd_sw, sw_stored] at hA
    rw [← stVecDisj_sw, packAd_sw, sw_stored] at hdA
    have := key u.flip t.flip.trans t.flip.conj (sw Q) (col_updates ht) hnz hA hdA
    rw [triOp_flip] at this
    exact this
  · exact key u t.trans t.conj _ (row_updates ht) hnz hA hdA

/-- **C174** The same for `tbsv` and the banded triangular matrix. -/
theorem C174_tbsv (he : f.emin ≤ 0) (hA : StAt m (bandAd A o ld (lowerK u k) (upperK u k)) (triBand u d k n) Q) (hx : VecAt m x incX n b)
    (hi : incX ≠ 0) (hdA : StVecDisj (bandAd A o ld (lowerK u k) (upperK u k)) (triBand u d k n) x incX n)
    (hnz : d = .nonUnit → ∀ i, i < n → (Q i i).val ≠ 0) :
    ∃ xv, Yields (tbsv o u t d n k A ld x incX) m x incX n xv ∧ ∀ i, i < n →
      |∑ j ∈ range n, (opM t (triM u d (bandM (lowerK u k) (upperK u k) Q)) i j).val * (xv j).val - (b i).val| ≤
        ((1 + unitRoundoff f) ^ (n + 1) - 1) *
          ∑ j ∈ range n, |(opM t (triM u d (bandM (lowerK u k) (upperK u k) Q)) i j).val * (xv j).val| +
        (n + |(opM t (triM u d (bandM (lowerK u k) (upperK u k) Q)) i i).val|) * (1 + unitRoundoff f) ^ (n + 1) * halfTiny f := by
  by_cases h0 : n = 0
  · subst h0
    unfold tbsv
    simp only [if_true]
    exact ⟨b, yields_of_snap hi (congrArg (fun z => Out.ok ((), z)) (snap_eq hi fun i h => absurd h (Nat.not_lt_zero i))),
      fun i h => absurd h (Nat.not_lt_zero i)⟩
  by_cases ht : t.trans = decide (o = .colMajor)
  · exact tbsv_direct he h0 ht hA hx hi hdA hnz
  rw [← triOp_eq t u d _ rfl rfl]
  have key : ∀ (u : UpLo) (c : Bool) (Q : Nat → Nat → Fl f), (d = .nonUnit → ∀ i, i < n → (Q i i).val ≠ 0) →
      StAt m (bandAd A .rowMajor ld (lowerK u k) (upperK u k)) (triBand u d k n) Q →
      StVecDisj (bandAd A .rowMajor ld (lowerK u k) (upperK u k)) (triBand u d k n) x incX n →
      ∃ xv, Yields (trowsSv false (tbRows u n k A ld) u true c d n x incX) m x incX n xv ∧ ∀ i, i < n →
        |∑ j ∈ range n, (triOp u true c d (bandM (lowerK u k) (upperK u k) Q) i j).val * (xv j).val - (b i).val| ≤
          ((1 + unitRoundoff f) ^ (n + 1) - 1) *
            ∑ j ∈ range n, |(triOp u true c d (bandM (lowerK u k) (upperK u k) Q) i j).val * (xv j).val| +
          (n + |(triOp u true c d (bandM (lowerK u k) (upperK u k) Q) i i).val|) * (1 + unitRoundoff f) ^ (n + 1) * halfTiny f := by
    intro u c Q hnz hA hdA
    have hin := tbRows_in u n k A ld
    obtain ⟨xs, σ, h1, h2, h3, h4⟩ := trowsSvT_fl (packed := false) (c := c) (tbRows_tri u n k A ld) (hin.atD hA) hx hi (hin.disjD hdA)
    refine ⟨xs, yields_of_snap hi h1, fun i hi' => ?_⟩
    exact resid_congr hi' (fun j hj => triOp_congr hi' hj fun i j h => tbRows_M h.2.1 Q)
      (rowT_residual he (tbRows_tri u n k A ld) h2 h3 h4 hnz hi')
  unfold tbsv
  rw [if_neg h0]
  cases o
  swap
  · rw [← stAt_sw, bandAd_sw, triBand_sw, show upperK u k = lowerK u.flip k by rw [lowerK_flip],
      show lowerK u k = upperK u.flip k by rw [upperK_flip]] at hA
    rw [← stVecDisj_sw, bandAd_sw, triBand_sw, show upperK u k = lowerK u.flip k by rw [lowerK_flip],
      show lowerK u k = upperK u.flip k by rw [upperK_flip]] at hdA
    have := key u.flip t.flip.conj (sw Q) hnz hA hdA
    rw [lowerK_flip, upperK_flip, bandM_sw, ← col_updates ht, triOp_flip] at this
    exact this
  · have := key u t.conj _ hnz hA hdA
    rw [← row_updates ht] at this
    exact this

end

end Verif.Blas
