import Verif.Props.BlasTrmFl
import Verif.Props.FloatMul

/-!
# C168: general matrix products of BLAS in floating point

`gemv` and `gemm` form each inner product in one sum; what they leave does not depend on the order of storage, bit for bit.
-/

namespace Verif.Blas

open Finset Verif.Ieee

variable {f : Fmt}

theorem fl_mul_comm (a b : Fl f) : a * b = b * a := by
  show Fl.round f _ = Fl.round f _
  rw [mul_comm]

theorem fl_zero_mul (a : Fl f) : 0 * a = 0 := by rw [fl_mul_comm, fl_mul_zero]

theorem dotL_comm (k : Nat) (a b : Nat → Fl f) : dotL k a b = dotL k b a := by
  induction k with
  | zero => rfl
  | succ k ih => rw [dotL_succ, dotL_succ, ih, fl_mul_comm]

theorem opM_fl (t : Trans) (Q : Nat → Nat → Fl f) (i j : Nat) : opM t Q i j = if t.trans then Q j i else Q i j := by
  unfold opM cj
  cases t.conj <;> rfl

/-- The element `beta v + alpha (a0 b0 + a1 b1 + ...)` as it is computed. -/
def mulElem (k : Nat) (alpha beta v : Fl f) (a b : Nat → Fl f) : Fl f := v * beta + alpha * dotL k a b

/-- `w` is `beta v + alpha (a0 b0 + a1 b1 + ...)` up to `k + 2` roundings of the sum of the magnitudes, and what is lost below the normal range. -/
def MulErr (f : Fmt) (k : Nat) (alpha beta v : ℚ) (a b : Nat → ℚ) (w : ℚ) : Prop :=
  |w - (beta * v + alpha * ∑ l ∈ range k, a l * b l)| ≤
    ((1 + unitRoundoff f) ^ (k + 2) - 1) * (|beta * v| + |alpha| * ∑ l ∈ range k, |a l * b l|) +
    (2 + k * |alpha|) * (1 + unitRoundoff f) ^ (k + 2) * halfTiny f

theorem mulElem_err (k : Nat) (alpha beta v : Fl f) (a b : Nat → Fl f) :
    MulErr f k alpha.val beta.val v.val (fun l => (a l).val) (fun l => (b l).val) (mulElem k alpha beta v a b).val := by
  have h := MulM.combine_err (b := beta) (v := v) (al := alpha) (s := dotL k a b) (abs_sum_le_sum_abs _ _) (dotL_error k a b)
  have e : MulM.scal beta v = v * beta := by
    unfold MulM.scal
    split
    · rename_i h0; rw [h0, fl_mul_zero]
    · rfl
  rw [e] at h
  exact h

section
variable {o : Order} {t : Trans} {conjX : Bool} {r c : Nat} {alpha beta : Fl f} {A ld x incX y incY : Int} {m : Mem (Fl f)}
  {Q : Nat → Nat → Fl f} {xv yv : Nat → Fl f}

theorem rowDot_fl {cA cX : Bool} {n : Nat} {a incA x incX : Int} {av xv : Nat → Fl f} (ha : ∀ i, i < n → m (a + i * incA) = .val (av i))
    (hx : ∀ i, i < n → m (x + i * incX) = .val (xv i)) : rowDot cA cX n a incA x incX m = .ok (dotL n av xv, m) := by
  cases cX <;> cases cA <;> simp only [rowDot]
  · exact dotC_fold (c := false) ha hx
  · exact dotC_fold (c := true) ha hx
  · rw [dotL_comm]; exact dotC_fold (c := true) hx ha
  · rw [bind_ok (show dotuGeneric n a incA x incX m = _ from dotC_fold (c := false) ha hx)]; rfl

theorem scalInit_initF {n : Nat} (hy : InitAt beta m y incY n yv) (hi : incY ≠ 0) :
    scalInit n beta y incY m = .ok ((), over m (elem y incY n) (fun i => yv i * beta) (below n)) := by
  by_cases h : beta = 0
  · subst h
    rw [scalInit_zero_run hy.1 hi]
    simp only [fl_mul_zero]
  · exact scalInit_runF (hy.2 h) hi

theorem mv_fl {n : Nat} {D : Nat → M (Fl f) (Fl f)} {d : Nat → Fl f} (hy : InitAt beta m y incY n yv) (hi : incY ≠ 0)
    (hD : ∀ i, i < n → ∀ m', AgreeOff (cells y incY n) m m' → D i m' = .ok (d i, m')) :
    (do
      scalInitGeneric n beta (start n y incY) incY
      loop n fun i => addDot alpha (D i) (start n y incY + i * incY) : M (Fl f) Unit) m =
    .ok ((), over m (elem y incY n) (fun i => yv i * beta + alpha * d i) (below n)) := by
  rw [bind_ok (show scalInitGeneric n beta (start n y incY) incY m = _ from scalInit_initF hy hi)]
  simp only [start_elem]
  rw [accum_run (d := d) (yv := fun i => yv i * beta) (elem_inj hi).injOn]
  · rw [over_same (elem_inj hi).injOn]
  · intro i hin m' hm
    rw [image_elem] at hm
    exact hD i hin m' (AgreeOff.trans (agreeOff_over (S := below n) fun j hj => ⟨j, hj, rfl⟩) hm)
  · intro i hin
    exact over_of_mem (elem_inj hi).injOn hin

theorem gemvRow_fl (hA : MatAt m A .rowMajor ld (full r c) Q) (hx : VecAt m x incX (if t.trans then r else c) xv)
    (hy : InitAt beta m y incY (if t.trans then c else r) yv) (hi : incY ≠ 0)
    (hdA : MatVecDisj A .rowMajor ld (full r c) y incY (if t.trans then c else r))
    (hdx : VecDisj x incX (if t.trans then r else c) y incY (if t.trans then c else r)) :
    gemvRow t conjX r c alpha A ld x incX beta y incY m =
      .ok ((), over m (elem y incY (if t.trans then c else r)) (fun i =>
        mulElem (if t.trans then r else c) alpha beta (yv i) (opM t Q i) xv) (below (if t.trans then c else r))) := by
  have e : ∀ i, opM t Q i = fun j => if t.trans then Q j i else Q i j := fun i => funext fun j => opM_fl t Q i j
  simp only [e]
  obtain ⟨tc, tt⟩ := t
  cases tt
  · simp only [Bool.false_eq_true, if_false] at *
    simp only [gemvRow, if_true]
    refine mv_fl hy hi fun i hin m' hm => ?_
    refine rowDot_fl (fun j hj => ?_) fun j hj => ?_
    · rw [mul_one, add_assoc]
      exact hA.agree hm hdA i j ⟨hin, hj⟩
    · rw [start_elem]; exact hx.agree hm hdx j hj
  · simp only [if_true] at *
    simp only [gemvRow, Bool.true_eq_false, if_false]
    refine mv_fl hy hi fun i hin m' hm => ?_
    refine rowDot_fl (fun j hj => ?_) fun j hj => ?_
    · have := hA.agree hm hdA j i ⟨hj, hin⟩
      rw [← this]; simp only [idx]; congr 1; ring
    · rw [start_elem]; exact hx.agree hm hdx j hj

theorem gemv_fl (hr : r ≠ 0) (hc : c ≠ 0)
    (hA : MatAt m A o ld (full r c) Q) (hx : VecAt m x incX (opCols t r c) xv) (hy : VecMem m y incY (opRows t r c))
    (hb : beta ≠ 0 → VecAt m y incY (opRows t r c) yv) (hi : incY ≠ 0)
    (hdA : MatVecDisj A o ld (full r c) y incY (opRows t r c))
    (hdx : VecDisj x incX (opCols t r c) y incY (opRows t r c)) :
    Yields (gemv o t conjX r c alpha A ld x incX beta y incY) m y incY (opRows t r c) fun i =>
      mulElem (opCols t r c) alpha beta (yv i) (opM t Q i) xv := by
  have hne : ¬(r = 0 ∨ c = 0) := by omega
  cases o
  swap
  · rw [matAt_col, sw_full] at hA
    rw [matVecDisj_col, sw_full] at hdA
    have e1 : opRows t r c = if t.flip.trans then r else c := by cases h : t.trans <;> simp [opRows, Trans.flip, h]
    have e2 : opCols t r c = if t.flip.trans then c else r := by cases h : t.trans <;> simp [opCols, Trans.flip, h]
    rw [e1] at hy hb hdA hdx ⊢
    rw [e2] at hx hdx ⊢
    refine yields_of_over hi ?_
    have := gemvRow_fl (t := t.flip) (conjX := conjX) (alpha := alpha) hA hx ⟨hy, hb⟩ hi hdA hdx
    simp only [gemv, if_neg hne, gemvGeneric, this, opM_flip]
  · refine yields_of_over hi ?_
    have := gemvRow_fl (t := t) (conjX := conjX) (alpha := alpha) hA hx ⟨hy, hb⟩ hi hdA hdx
    simp only [gemv, if_neg hne, gemvGeneric, this]
    rfl

/-- **C168** `gemv` in floating point, for all orders, transpositions, increments and leading dimensions: each element of `beta y + alpha op(A) x` is
right up to `k + 2` roundings of the sum of the magnitudes of its terms, `k` being the number of columns of `op(A)`. With `beta = 0` the old `y`
may be uninitialised. Nothing else changes. -/
theorem C168_gemv (hr : r ≠ 0) (hc : c ≠ 0)
    (hA : MatAt m A o ld (full r c) Q) (hx : VecAt m x incX (opCols t r c) xv) (hy : VecMem m y incY (opRows t r c))
    (hb : beta ≠ 0 → VecAt m y incY (opRows t r c) yv) (hi : incY ≠ 0)
    (hdA : MatVecDisj A o ld (full r c) y incY (opRows t r c))
    (hdx : VecDisj x incX (opCols t r c) y incY (opRows t r c)) :
    ∃ w, Yields (gemv o t conjX r c alpha A ld x incX beta y incY) m y incY (opRows t r c) w ∧ ∀ i, i < opRows t r c →
      MulErr f (opCols t r c) alpha.val beta.val (yv i).val (fun j => (opM t Q i j).val) (fun j => (xv j).val) (w i).val :=
  ⟨_, gemv_fl hr hc hA hx hy hb hi hdA hdx, fun _ _ => mulElem_err _ _ _ _ _ _⟩

end

/-! ### Products of matrices -/

section
variable {tA tB : Trans} {r c k : Nat} {alpha beta : Fl f} {A ldA B ldB C ldC : Int} {m : Mem (Fl f)} {QA QB QC : Nat → Nat → Fl f}

theorem fl_add_zero' (a : Fl f) : a + 0 = a := fl_add_zero a

theorem mulElem_one (he : f.emin ≤ 0) (v : Fl f) (a b : Nat → Fl f) : mulElem k alpha 1 v a b = v + alpha * dotL k a b := by
  unfold mulElem
  rw [MulM.fl_mul_one he]

theorem gemmPass_fl (he : f.emin ≤ 0) (hr : r ≠ 0) {l : Nat} (hl : l < c)
    (hA : MatAt m A .rowMajor ldA (full (opRows tA r k) (opCols tA r k)) QA)
    (hB : MatAt m B .rowMajor ldB (full (opRows tB k c) (opCols tB k c)) QB)
    (hldB : LdOk .rowMajor ldB (opRows tB k c) (opCols tB k c)) (hld : (c : Int) ≤ ldC) {v : Nat → Fl f}
    (hy : VecAt m (C + l) ldC r v)
    (hdA : StDisj (matAd A .rowMajor ldA) (full (opRows tA r k) (opCols tA r k)) (matAd C .rowMajor ldC) (full r c))
    (hdB : StDisj (matAd B .rowMajor ldB) (full (opRows tB k c) (opCols tB k c)) (matAd C .rowMajor ldC) (full r c)) :
    Yields (gemmPass tA tB r k alpha A ldA B ldB C ldC l) m (C + l) ldC r fun i =>
      v i + alpha * dotL k (opM tA QA i) fun j => opM tB QB j l := by
  have h0 : 0 ≤ ldC := by omega
  have hl0 : ldC ≠ 0 := by omega
  have ht := gemmCase_trans tA tB
  have eR := opRows_stored tA _ ht r k
  have eC := opCols_stored tA _ ht r k
  have eA : ∀ i, opM (gemmCase tA tB).1 QA i = opM tA QA i := fun i => funext fun j => by rw [opM_fl, opM_fl, ht]
  have base : ∀ (x incX : Int) (xv : Nat → Fl f), VecAt m x incX k xv → VecDisj x incX k (C + l) ldC r →
      Yields (gemv .rowMajor (gemmCase tA tB).1 (gemmCase tA tB).2 (opRows tA r k) (opCols tA r k) alpha A ldA x incX 1 (C + l) ldC)
        m (C + l) ldC r fun i => v i + alpha * dotL k (opM tA QA i) xv := by
    intro x incX xv hx hdx
    by_cases hk : k = 0
    · subst hk
      refine ⟨m, ?_, fun i hi => ?_, fun _ _ => rfl⟩
      · unfold gemv opRows opCols
        rw [if_pos (by cases tA.trans <;> simp)]
        rfl
      · rw [hy i hi]
        show _ = Cell.val (v i + alpha * 0)
        rw [fl_mul_zero, fl_add_zero]
    · have := gemv_fl (t := (gemmCase tA tB).1) (conjX := (gemmCase tA tB).2) (alpha := alpha) (beta := 1) (x := x) (incX := incX)
        (xv := xv) (y := C + l) (incY := ldC) (yv := v)
        (by unfold opRows; cases tA.trans <;> simp <;> omega) (by unfold opCols; cases tA.trans <;> simp <;> omega) hA
        (by rw [eC]; exact hx) (by rw [eR]; intro i hi; rw [hy i hi]; simp) (fun _ => by rw [eR]; exact hy)
        hl0 (by rw [eR]; exact disj_col hdA h0 hl) (by rw [eR, eC]; exact hdx)
      rw [eR, eC] at this
      refine this.congr fun i _ => ?_
      rw [mulElem_one he, eA]
  unfold gemmPass
  cases hB' : tB.trans
  · have e1 : opRows tB k c = k := by simp [opRows, hB']
    have e2 : opCols tB k c = c := by simp [opCols, hB']
    rw [e1, e2] at hB hldB hdB
    have := base (B + l) ldB (fun j => QB j l) (vecAt_col hB (by have : (c : Int) ≤ ldB := hldB; omega) hl)
      (disj_colVec (disj_col hdB h0 hl) (by have : (c : Int) ≤ ldB := hldB; omega) hl)
    have e3 : (fun j => opM tB QB j l) = fun j => QB j l := funext fun j => by rw [opM_fl, hB']; rfl
    rw [← e3] at this
    unfold opRows opCols at this
    cases hA' : tA.trans <;> rw [hA'] at this <;> exact this
  · have e1 : opRows tB k c = c := by simp [opRows, hB']
    have e2 : opCols tB k c = k := by simp [opCols, hB']
    rw [e1, e2] at hB hldB hdB
    have := base (B + l * ldB) 1 (fun j => QB l j) (vecAt_row hB hl) (disj_rowVec (disj_col hdB h0 hl) hl)
    have e3 : (fun j => opM tB QB j l) = fun j => QB l j := funext fun j => by rw [opM_fl, hB']; rfl
    rw [← e3] at this
    unfold opRows opCols at this
    cases hA' : tA.trans <;> rw [hA'] at this <;> exact this

theorem gemmRow_fl (he : f.emin ≤ 0) (hr : r ≠ 0)
    (hA : alpha ≠ 0 → MatAt m A .rowMajor ldA (full (opRows tA r k) (opCols tA r k)) QA)
    (hB : alpha ≠ 0 → MatAt m B .rowMajor ldB (full (opRows tB k c) (opCols tB k c)) QB)
    (hC : MatMem m C .rowMajor ldC (full r c)) (hb : beta ≠ 0 → MatAt m C .rowMajor ldC (full r c) QC)
    (hldB : LdOk .rowMajor ldB (opRows tB k c) (opCols tB k c)) (hld : (c : Int) ≤ ldC)
    (hdA : StDisj (matAd A .rowMajor ldA) (full (opRows tA r k) (opCols tA r k)) (matAd C .rowMajor ldC) (full r c))
    (hdB : StDisj (matAd B .rowMajor ldB) (full (opRows tB k c) (opCols tB k c)) (matAd C .rowMajor ldC) (full r c)) :
    YieldsMat (gemmRow tA tB r c k alpha A ldA B ldB beta C ldC) m C .rowMajor ldC (full r c) fun i j =>
      mulElem k alpha beta (QC i j) (opM tA QA i) fun l => opM tB QB l j := by
  have h1 : YieldsMat (gescalInit .rowMajor r c beta C ldC) m C .rowMajor ldC (full r c) fun i j => QC i j * beta := by
    refine gescalRow_run (sc := fun n => scalInit n beta) hld (fun h => ?_) fun i hi m' ho => ?_
    · subst h
      exact yields_of_over (by decide) (scalInit_initF ⟨vecMem_full hC, fun h => vecAt_full (hb h)⟩ (by decide))
    · exact yields_of_over (by decide) (scalInit_initF ⟨vecMem_row' hC hld hi ho, fun h => vecAt_row' (hb h) hld hi ho⟩ (by decide))
  refine h1.bind fun m' hV ho => ?_
  by_cases ha : alpha = 0
  · rw [if_pos ha]
    refine ⟨m', rfl, fun i j hp => ?_, fun _ _ => rfl⟩
    rw [hV i j hp]
    simp only [mulElem, ha, fl_zero_mul, fl_add_zero]
  · rw [if_neg ha]
    have hA' : StAt m' (matAd A .rowMajor ldA) _ QA := StAt.only (hA ha) ho hdA
    have hB' : StAt m' (matAd B .rowMajor ldB) _ QB := StAt.only (hB ha) ho hdB
    refine cols_run hld _ fun l hl m'' ho' => ?_
    have ho2 := ho'.mono (P' := full r c) fun i j hp => ⟨hp.1, hp.2.trans hl⟩
    exact gemmPass_fl he hr hl (hA'.only ho2 hdA) (hB'.only ho2 hdB) hldB hld (vecAt_col' hV hld hl ho') hdA hdB

/-- The matrices of a call of `gemm` in memory: `A` and `B` are read unless `alpha = 0`, the old `C` is unless `beta = 0`, and `C` overlaps
neither. -/
def GemmAt (o : Order) (tA tB : Trans) (r c k : Nat) (alpha beta : Fl f) (A ldA B ldB C ldC : Int) (m : Mem (Fl f))
    (QA QB QC : Nat → Nat → Fl f) : Prop :=
  (alpha ≠ 0 → MatAt m A o ldA (full (opRows tA r k) (opCols tA r k)) QA) ∧
  (alpha ≠ 0 → MatAt m B o ldB (full (opRows tB k c) (opCols tB k c)) QB) ∧
  MatMem m C o ldC (full r c) ∧ (beta ≠ 0 → MatAt m C o ldC (full r c) QC) ∧
  LdOk o ldA (opRows tA r k) (opCols tA r k) ∧ LdOk o ldB (opRows tB k c) (opCols tB k c) ∧ LdOk o ldC r c ∧
  StDisj (matAd A o ldA) (full (opRows tA r k) (opCols tA r k)) (matAd C o ldC) (full r c) ∧
  StDisj (matAd B o ldB) (full (opRows tB k c) (opCols tB k c)) (matAd C o ldC) (full r c)

theorem gemm_fl_row (he : f.emin ≤ 0) (h : GemmAt .rowMajor tA tB r c k alpha beta A ldA B ldB C ldC m QA QB QC) :
    YieldsMat (gemm .rowMajor tA tB r c k alpha A ldA B ldB beta C ldC) m C .rowMajor ldC (full r c) fun i j =>
      mulElem k alpha beta (QC i j) (opM tA QA i) fun l => opM tB QB l j := by
  obtain ⟨hA, hB, hC, hb, -, hlB, hlC, hdA, hdB⟩ := h
  unfold gemm
  by_cases h : r = 0 ∨ c = 0
  · rw [if_pos h]
    refine ⟨m, rfl, fun i j hp => ?_, fun _ _ => rfl⟩
    have h1 : i < r := hp.1
    have h2 : j < c := hp.2
    omega
  · rw [if_neg h]
    exact gemmRow_fl he (by omega) hA hB hC hb hlB hlC hdA hdB

theorem gemm_fl (he : f.emin ≤ 0) {o : Order} (h : GemmAt o tA tB r c k alpha beta A ldA B ldB C ldC m QA QB QC) :
    YieldsMat (gemm o tA tB r c k alpha A ldA B ldB beta C ldC) m C o ldC (full r c) fun i j =>
      mulElem k alpha beta (QC i j) (opM tA QA i) fun l => opM tB QB l j := by
  cases o
  swap
  · obtain ⟨hA, hB, hC, hb, hlA, hlB, hlC, hdA, hdB⟩ := h
    have hC' := matMem_col.1 hC
    have hdA' := stDisj_col hdA
    have hdB' := stDisj_col hdB
    rw [sw_full] at hC'
    rw [sw_op, sw_full] at hdA' hdB'
    have := gemm_fl_row (tA := tB) (tB := tA) (r := c) (c := r) (k := k) (alpha := alpha) (beta := beta) (A := B) (ldA := ldB) (B := A) (ldB := ldA)
      (C := C) (ldC := ldC) (m := m) (QA := sw QB) (QB := sw QA) (QC := sw QC) he
      ⟨fun h => by have := matAt_col.1 (hB h); rwa [sw_op] at this, fun h => by have := matAt_col.1 (hA h); rwa [sw_op] at this,
      hC', fun h => by have := matAt_col.1 (hb h); rwa [sw_full] at this, ldOk_op _ _ _ _ hlB, ldOk_op _ _ _ _ hlA, hlC, hdB', hdA'⟩
    refine yieldsMat_col ?_
    rw [sw_full]
    have e : gemm .colMajor tA tB r c k alpha A ldA B ldB beta C ldC = gemm .rowMajor tB tA c r k alpha B ldB A ldA beta C ldC := by
      unfold gemm; simp only [or_comm]
    rw [e]
    refine this.congr fun i j _ => ?_
    unfold mulElem
    rw [dotL_comm, sw_opM, sw_opM]
    rfl
  · exact gemm_fl_row he h

/-- **C168** `gemm` in floating point, for all orders, transpositions and conjugations: each element of `beta C + alpha op(A) op(B)` is right up to
`k + 2` roundings of the sum of the magnitudes of its terms. Nothing else changes. -/
theorem C168_gemm (he : f.emin ≤ 0) {o : Order} (h : GemmAt o tA tB r c k alpha beta A ldA B ldB C ldC m QA QB QC) :
    ∃ W, YieldsMat (gemm o tA tB r c k alpha A ldA B ldB beta C ldC) m C o ldC (full r c) W ∧ ∀ i j, full r c i j →
      MulErr f k alpha.val beta.val (QC i j).val (fun l => (opM tA QA i l).val) (fun l => (opM tB QB l j).val) (W i j).val :=
  ⟨_, gemm_fl he h, fun _ _ _ => mulElem_err _ _ _ _ _ _⟩

/-- **C168** Matrices stored by rows and matrices stored by columns give the same product, bit for bit, wherever they are in memory. -/
theorem C168_storage (he : f.emin ≤ 0) {A' ldA' B' ldB' C' ldC' : Int} {m' : Mem (Fl f)}
    (h : GemmAt .rowMajor tA tB r c k alpha beta A ldA B ldB C ldC m QA QB QC)
    (h' : GemmAt .colMajor tA tB r c k alpha beta A' ldA' B' ldB' C' ldC' m' QA QB QC) :
    ∃ W, YieldsMat (gemm .rowMajor tA tB r c k alpha A ldA B ldB beta C ldC) m C .rowMajor ldC (full r c) W ∧
      YieldsMat (gemm .colMajor tA tB r c k alpha A' ldA' B' ldB' beta C' ldC') m' C' .colMajor ldC' (full r c) W :=
  ⟨_, gemm_fl he h, gemm_fl he h'⟩

/-- **C168** A column of a product is the product with the column, bit for bit: `gemm` leaves in column `j` of `C` what `gemv` leaves for column `j`
of `B`. -/
theorem C168_column (he : f.emin ≤ 0) {o o' : Order} {A' ld x incX y incY : Int} {m' : Mem (Fl f)} {conjX : Bool} {j : Nat} (hj : j < c)
    (hr : r ≠ 0) (hk : k ≠ 0) (h : GemmAt o tA tB r c k alpha beta A ldA B ldB C ldC m QA QB QC)
    (hA : MatAt m' A' o' ld (full (opRows tA r k) (opCols tA r k)) QA) (hx : VecAt m' x incX k fun l => opM tB QB l j)
    (hy : VecAt m' y incY r fun i => QC i j) (hi : incY ≠ 0)
    (hdA : MatVecDisj A' o' ld (full (opRows tA r k) (opCols tA r k)) y incY r) (hdx : VecDisj x incX k y incY r) :
    ∃ W, YieldsMat (gemm o tA tB r c k alpha A ldA B ldB beta C ldC) m C o ldC (full r c) W ∧
      Yields (gemv o' tA conjX (opRows tA r k) (opCols tA r k) alpha A' ld x incX beta y incY) m' y incY r fun i => W i j := by
  have eR := opRows_stored tA tA rfl r k
  have eC := opCols_stored tA tA rfl r k
  refine ⟨_, gemm_fl he h, ?_⟩
  have := gemv_fl (t := tA) (conjX := conjX) (alpha := alpha) (beta := beta) (yv := fun i => QC i j) (r := opRows tA r k) (c := opCols tA r k)
    (by unfold opRows; cases tA.trans <;> simp <;> omega) (by unfold opCols; cases tA.trans <;> simp <;> omega) hA
    (by rw [eC]; exact hx) (by rw [eR]; exact hy.mem) (fun _ => by rw [eR]; exact hy) hi (by rw [eR]; exact hdA) (by rw [eR, eC]; exact hdx)
  rw [eR, eC] at this
  exact this

end

/-! ### Examples -/

/-- A 1x2 matrix at 0, a 2x1 matrix at 10, and one element at 20 that is not initialised. -/
def exMulFl : Mem (Fl binary64) := fun p =>
  if p = 0 ∨ p = 11 then .val (.round _ 3) else if p = 1 ∨ p = 10 then .val (.round _ (1 / 10)) else if p = 20 then .raw else .out

/-- The hypotheses of `C168_storage` hold, for both orders; `3 · 0.1 + 0.1 · 3` is computed. -/
example : (∀ o, GemmAt o noTrans noTrans 1 1 2 (.round binary64 1) (.round _ 0) 0 (if o = .rowMajor then 2 else 1)
      10 (if o = .rowMajor then 1 else 2) 20 1 exMulFl
      (fun _ j => if j = 0 then .round _ 3 else .round _ (1 / 10)) (fun i _ => if i = 0 then .round _ (1 / 10) else .round _ 3) (fun _ _ => 0)) ∧
    peek (gemm .rowMajor noTrans noTrans 1 1 2 (.round binary64 1) 0 2 10 1 (.round _ 0) 20 1 exMulFl) (fun _ m => m 20) =
      .ok (.val (.round _ (2 * rnd binary64 (3 * rnd binary64 (1 / 10))))) := by
  refine ⟨fun o => ⟨fun _ i j h => ?_, fun _ i j h => ?_, fun i j h => ?_, fun h => absurd ?_ h, ?_, ?_, ?_, fun i j k l h h' => ?_,
    fun i j k l h h' => ?_⟩, by decide +kernel⟩
  · obtain ⟨h1, h2⟩ := h
    have h1 : i < 1 := h1
    have h2 : j < 2 := h2
    interval_cases i; interval_cases j <;> cases o <;> rfl
  · obtain ⟨h1, h2⟩ := h
    have h1 : i < 2 := h1
    have h2 : j < 1 := h2
    interval_cases j; interval_cases i <;> cases o <;> rfl
  · obtain ⟨h1, h2⟩ := h
    interval_cases i; interval_cases j
    cases o <;> exact fun h => by cases h
  · decide +kernel
  · cases o <;> (unfold LdOk; decide)
  · cases o <;> (unfold LdOk; decide)
  · cases o <;> (unfold LdOk; decide)
  · obtain ⟨h1, h2⟩ := h
    obtain ⟨h3, h4⟩ := h'
    have h1 : i < 1 := h1
    have h2 : j < 2 := h2
    interval_cases i; interval_cases k; interval_cases l; interval_cases j <;> cases o <;> decide
  · obtain ⟨h1, h2⟩ := h
    obtain ⟨h3, h4⟩ := h'
    have h1 : i < 2 := h1
    have h2 : j < 1 := h2
    interval_cases j; interval_cases k; interval_cases l; interval_cases i <;> cases o <;> decide

end Verif.Blas
