import Verif.Props.Blas3

/-! Property theorems for the products and solves of cxxblas with triangular and banded matrices and many right-hand sides (C85
and C86). -/

namespace Verif.Blas

open Finset

variable {K : Type}

/-! ### C85: triangular matrices -/

section tr
variable {o : Order} {s : Side} {u : UpLo} {t : Trans} {d : Diag} {r c : Nat} {A ldA B ldB : Int} {m : Mem K}
  {QA QB : Nat → Nat → K}

theorem opM_flip' [Star K] (t : Trans) (Q : Nat → Nat → K) (i j : Nat) : opM t.flip Q i j = opM t Q j i := by
  cases h : t.trans <;> simp [opM, Trans.flip, h]

theorem trmmRow_run [CommRing K] [StarRing K] [DecidableEq K] {alpha : K}
    (hA : MatAt m A .rowMajor ldA (stored u d (sideDim s r c)) QA) (hB : MatAt m B .rowMajor ldB (full r c) QB)
    (hlB : (c : Int) ≤ ldB)
    (hdA : StDisj (matAd A .rowMajor ldA) (stored u d (sideDim s r c)) (matAd B .rowMajor ldB) (full r c)) :
    YieldsMat (trmmRow s u t d r c alpha A ldA B ldB) m B .rowMajor ldB (full r c) fun i j =>
      alpha * sideMul s r c (opM t (triM u d QA)) QB i j := by
  have hA0 : StAt m (matAd A .rowMajor ldA) (stored u d (sideDim s r c)) QA := hA
  have fin : ∀ c1 : M K Unit, YieldsMat c1 m B .rowMajor ldB (full r c) (sideMul s r c (opM t (triM u d QA)) QB) →
      YieldsMat (do c1; gescalInit .rowMajor r c alpha B ldB) m B .rowMajor ldB (full r c) fun i j =>
        alpha * sideMul s r c (opM t (triM u d QA)) QB i j := by
    intro c1 h
    refine h.bind fun m' hV _ => ?_
    exact gescalInit_row (fun i j hp => by rw [hV i j hp]; simp) (fun _ => hV) hlB
  cases s
  · refine fin _ (cols_run hlB _ fun l hl m' ho => ?_)
    have ho2 := ho.mono (P' := full r c) fun i j hp => ⟨hp.1, hp.2.trans hl⟩
    have h0 : 0 ≤ ldB := by omega
    exact C77_trmv (hA0.only ho2 hdA) (vecAt_col' hB hlB hl ho) (by omega) (disj_col hdA h0 hl)
  · refine fin _ (lines_run hlB _ fun l hl m' ho => ?_)
    have ho2 := ho.mono (P' := full r c) fun i j hp => ⟨hp.1.trans hl, hp.2⟩
    refine (C77_trmv (t := t.flip) (hA0.only ho2 hdA) (vecAt_row' hB hlB hl ho) (by decide) (disj_row hdA hl)).congr fun i _ => ?_
    exact sum_congr rfl fun j _ => by rw [opM_flip', mul_comm]

theorem opTri_sw [CommRing K] [StarRing K] (t : Trans) (u : UpLo) (d : Diag) (Q : Nat → Nat → K) :
    opM t (triM u.flip d (sw Q)) = sw (opM t (triM u d Q)) := by
  have h : triM u.flip d (sw Q) = sw (triM u d Q) := by
    funext i j
    rcases lt_trichotomy i j with h | h | h
    · cases u <;> simp [triM, UpLo.flip, sw, h.ne, h.ne', h, not_lt.2 h.le]
    · subst h; cases d <;> simp [triM, sw]
    · cases u <;> simp [triM, UpLo.flip, sw, h.ne, h.ne', h, not_lt.2 h.le]
  rw [h, sw_opM]

/-- **C85** `trmm`: `B := alpha op(T) B` or `alpha B op(T)` for the triangular matrix `T`; the other triangle is not read, and with
a unit diagonal the diagonal is not read either. -/
theorem C85_trmm [CommRing K] [StarRing K] [DecidableEq K] {alpha : K}
    (hA : MatAt m A o ldA (stored u d (sideDim s r c)) QA) (hB : MatAt m B o ldB (full r c) QB) (hlB : LdOk o ldB r c)
    (hdA : StDisj (matAd A o ldA) (stored u d (sideDim s r c)) (matAd B o ldB) (full r c)) :
    YieldsMat (trmm o s u t d r c alpha A ldA B ldB) m B o ldB (full r c) fun i j =>
      alpha * sideMul s r c (opM t (triM u d QA)) QB i j := by
  cases o
  · exact trmmRow_run hA hB hlB hdA
  · have hdA' := stDisj_col hdA
    rw [matAt_col, sw_stored, ← sideDim_flip] at hA
    rw [matAt_col, sw_full] at hB
    rw [sw_stored, sw_full, ← sideDim_flip] at hdA'
    refine yieldsMat_col ?_
    rw [sw_full]
    refine (trmmRow_run (t := t) (alpha := alpha) hA hB hlB hdA').congr fun i j _ => ?_
    rw [opTri_sw, sideMul_sw]
    rfl

theorem trsmRow_run [Field K] [StarRing K] {alpha : K}
    (hA : MatAt m A .rowMajor ldA (stored u d (sideDim s r c)) QA) (hB : MatAt m B .rowMajor ldB (full r c) QB)
    (hlB : (c : Int) ≤ ldB)
    (hdA : StDisj (matAd A .rowMajor ldA) (stored u d (sideDim s r c)) (matAd B .rowMajor ldB) (full r c))
    (hnz : d = .nonUnit → ∀ i, i < sideDim s r c → QA i i ≠ 0) :
    ∃ X, YieldsMat (trsmRow s u t d r c alpha A ldA B ldB) m B .rowMajor ldB (full r c) X ∧
      ∀ i j, full r c i j → sideMul s r c (opM t (triM u d QA)) X i j = alpha * QB i j := by
  have hA0 : StAt m (matAd A .rowMajor ldA) (stored u d (sideDim s r c)) QA := hA
  have fin : ∀ (c1 : M K Unit) V, YieldsMat c1 m B .rowMajor ldB (full r c) V →
      (∀ i j, full r c i j → sideMul s r c (opM t (triM u d QA)) V i j = QB i j) →
      ∃ X, YieldsMat (do c1; gescal .rowMajor r c alpha B ldB) m B .rowMajor ldB (full r c) X ∧
        ∀ i j, full r c i j → sideMul s r c (opM t (triM u d QA)) X i j = alpha * QB i j := by
    intro c1 V h hV
    refine ⟨fun i j => alpha * V i j, h.bind fun m' hW _ => gescal_row hW hlB, fun i j hp => ?_⟩
    rw [← hV i j hp]
    cases s
    · simp only [sideMul, mul_sum]
      exact sum_congr rfl fun k _ => by ring
    · simp only [sideMul, mul_sum]
      exact sum_congr rfl fun k _ => by ring
  cases s
  · obtain ⟨V, h1, h2⟩ := cols_ex (m := m) (C := B)
      (fun l v => ∀ i, i < r → ∑ j ∈ range r, opM t (triM u d QA) i j * v j = QB i l) hlB
      (fun j => trsv .rowMajor u t d r A ldA (B + j) ldB) fun l hl m' ho => by
        have ho2 := ho.mono (P' := full r c) fun i j hp => ⟨hp.1, hp.2.trans hl⟩
        exact C77_trsv (hA0.only ho2 hdA) (vecAt_col' hB hlB hl ho) (by omega) (disj_col hdA (by omega) hl) hnz
    exact fin _ V h1 fun i j hp => h2 j hp.2 i hp.1
  · obtain ⟨V, h1, h2⟩ := lines_ex (m := m) (C := B)
      (fun l v => ∀ i, i < c → ∑ j ∈ range c, opM t.flip (triM u d QA) i j * v j = QB l i) hlB
      (fun i => trsv .rowMajor u t.flip d c A ldA (B + i * ldB) 1) fun l hl m' ho => by
        have ho2 := ho.mono (P' := full r c) fun i j hp => ⟨hp.1.trans hl, hp.2⟩
        exact C77_trsv (hA0.only ho2 hdA) (vecAt_row' hB hlB hl ho) (by decide) (disj_row hdA hl) hnz
    refine fin _ V h1 fun i j hp => ?_
    rw [← h2 i hp.1 j hp.2]
    exact sum_congr rfl fun k _ => by rw [opM_flip', mul_comm]

/-- **C85** `trsm`: the solution of `op(T) X = alpha B` or `X op(T) = alpha B`, for a triangular matrix without zeros on the
diagonal. -/
theorem C85_trsm [Field K] [StarRing K] {alpha : K}
    (hA : MatAt m A o ldA (stored u d (sideDim s r c)) QA) (hB : MatAt m B o ldB (full r c) QB) (hlB : LdOk o ldB r c)
    (hdA : StDisj (matAd A o ldA) (stored u d (sideDim s r c)) (matAd B o ldB) (full r c))
    (hnz : d = .nonUnit → ∀ i, i < sideDim s r c → QA i i ≠ 0) :
    ∃ X, YieldsMat (trsm o s u t d r c alpha A ldA B ldB) m B o ldB (full r c) X ∧
      ∀ i j, full r c i j → sideMul s r c (opM t (triM u d QA)) X i j = alpha * QB i j := by
  cases o
  · exact trsmRow_run hA hB hlB hdA hnz
  · have hdA' := stDisj_col hdA
    rw [matAt_col, sw_stored, ← sideDim_flip] at hA
    rw [matAt_col, sw_full] at hB
    rw [sw_stored, sw_full, ← sideDim_flip] at hdA'
    rw [← sideDim_flip] at hnz
    obtain ⟨X, h1, h2⟩ := trsmRow_run (t := t) (alpha := alpha) hA hB hlB hdA' hnz
    refine ⟨sw X, yieldsMat_col (by rw [sw_full]; exact h1), fun i j hp => ?_⟩
    have := h2 j i ⟨hp.2, hp.1⟩
    rw [opTri_sw, show X = sw (sw X) from rfl, sideMul_sw] at this
    exact this

/-- **C85** Multiplying after solving gives the memory back as it was, if the factors cancel. -/
theorem C85_inverse [Field K] [StarRing K] [DecidableEq K] {alpha beta : K} (hab : beta * alpha = 1)
    (hA : MatAt m A o ldA (stored u d (sideDim s r c)) QA) (hB : MatAt m B o ldB (full r c) QB) (hlB : LdOk o ldB r c)
    (hdA : StDisj (matAd A o ldA) (stored u d (sideDim s r c)) (matAd B o ldB) (full r c))
    (hnz : d = .nonUnit → ∀ i, i < sideDim s r c → QA i i ≠ 0) :
    (do trsm o s u t d r c alpha A ldA B ldB; trmm o s u t d r c beta A ldA B ldB : M K Unit) m = .ok ((), m) := by
  obtain ⟨X, ⟨m', h1, h2, h3⟩, h4⟩ := C85_trsm (t := t) (alpha := alpha) hA hB hlB hdA hnz
  have hA' : StAt m' (matAd A o ldA) (stored u d (sideDim s r c)) QA := StAt.only hA h3 hdA
  obtain ⟨m'', g1, g2, g3⟩ := C85_trmm (t := t) (alpha := beta) hA' h2 hlB hdA
  refine (bind_ok h1).trans (g1.trans ?_)
  refine congrArg (fun z => Out.ok ((), z)) (funext fun a => ?_)
  by_cases ha : ∃ i j, full r c i j ∧ a = B + idx o ldB i j
  · obtain ⟨i, j, hp, rfl⟩ := ha
    rw [g2 i j hp, hB i j hp]
    beta_reduce
    rw [h4 i j hp, ← mul_assoc, hab, one_mul]
  · have : ∀ i j, full r c i j → a ≠ B + idx o ldB i j := fun i j hp e => ha ⟨i, j, hp, e⟩
    rw [g3 a this, h3 a this]

end tr

/-- A memory for the examples over the rationals: an upper triangular matrix of order 2 at 0, a 2x1 matrix at 10. -/
def exTrm : Mem Rat := fun a =>
  if a = 0 then .val 2 else if a = 1 then .val 3 else if a = 3 then .val 4 else if a = 10 then .val 7
  else if a = 11 then .val 8 else .out

example : MatAt exTrm 0 .rowMajor 2 (stored .upper .nonUnit (sideDim .left 2 1))
      (fun i j => if i = 1 then 4 else if j = 0 then 2 else 3) ∧
    MatAt exTrm 10 .rowMajor 1 (full 2 1) (fun i _ => (i : Rat) + 7) ∧
    StDisj (matAd 0 .rowMajor 2) (stored .upper .nonUnit (sideDim .left 2 1)) (matAd 10 .rowMajor 1) (full 2 1) := by
  refine ⟨fun i j h => ?_, fun i j h => ?_, fun i j k l h h' => ?_⟩
  · obtain ⟨⟨h1, h2, h3⟩, -⟩ := h
    change i < 2 at h1
    change j < 2 at h2
    interval_cases i <;> interval_cases j <;> first | (simp [exTrm, idx]; done) | (exact absurd h3 (by decide))
  · obtain ⟨h1, h2⟩ := h
    interval_cases i <;> interval_cases j
    · simp [exTrm, idx]
    · norm_num [exTrm, idx]
  · obtain ⟨⟨h1, h2, h3⟩, -⟩ := h
    change i < 2 at h1
    change j < 2 at h2
    obtain ⟨h4, h5⟩ := h'
    interval_cases i <;> interval_cases j <;> interval_cases k <;> interval_cases l <;> decide

/-! ### C86: banded matrices -/

section gb
variable [CommRing K] [StarRing K] [DecidableEq K] {o : Order} {tA tB : Trans} {p q l kl ku : Nat} {alpha beta : K}
  {A ldA B ldB C ldC : Int} {m : Mem K} {QA QB QC : Nat → Nat → K}

/-- Column `i` of `op(B)`, row-major. -/
def opCol (t : Trans) (B ldB : Int) (i : Nat) : Int × Int := if t.trans then (B + i * ldB, 1) else (B + i, ldB)

/-- Row `i` of `op(B)`, row-major. -/
def opRow (t : Trans) (B ldB : Int) (i : Nat) : Int × Int := if t.trans then (B + i, ldB) else (B + i * ldB, 1)

theorem opCol_at {r c i : Nat} (hB : MatAt m B .rowMajor ldB (full (opRows tB r c) (opCols tB r c)) QB)
    (hl : LdOk .rowMajor ldB (opRows tB r c) (opCols tB r c)) (hi : i < c) :
    VecAt m (opCol tB B ldB i).1 (opCol tB B ldB i).2 r (fun j => if tB.trans then QB i j else QB j i) ∧
    ∀ y incY n, StVecDisj (matAd B .rowMajor ldB) (full (opRows tB r c) (opCols tB r c)) y incY n →
      VecDisj (opCol tB B ldB i).1 (opCol tB B ldB i).2 r y incY n := by
  obtain ⟨cb, tb⟩ := tB
  cases tb
  · have h0 : 0 ≤ ldB := by have : (c : Int) ≤ ldB := hl; omega
    exact ⟨vecAt_col hB h0 hi, fun y incY n h => disj_colVec h h0 hi⟩
  · exact ⟨vecAt_row hB hi, fun y incY n h => disj_rowVec h hi⟩

theorem opRow_at {r c i : Nat} (hB : MatAt m B .rowMajor ldB (full (opRows tB r c) (opCols tB r c)) QB)
    (hl : LdOk .rowMajor ldB (opRows tB r c) (opCols tB r c)) (hi : i < r) :
    VecAt m (opRow tB B ldB i).1 (opRow tB B ldB i).2 c (fun j => if tB.trans then QB j i else QB i j) ∧
    ∀ y incY n, StVecDisj (matAd B .rowMajor ldB) (full (opRows tB r c) (opCols tB r c)) y incY n →
      VecDisj (opRow tB B ldB i).1 (opRow tB B ldB i).2 c y incY n := by
  obtain ⟨cb, tb⟩ := tB
  cases tb
  · exact ⟨vecAt_row hB hi, fun y incY n h => disj_rowVec h hi⟩
  · have h0 : 0 ≤ ldB := by have : (r : Int) ≤ ldB := hl; omega
    exact ⟨vecAt_col hB h0 hi, fun y incY n h => disj_colVec h h0 hi⟩

theorem opM_eq (t : Trans) (Q : Nat → Nat → K) (i j : Nat) : opM t Q i j = cj t.conj (if t.trans then Q j i else Q i j) := rfl

/-- The four loops for `C := beta C + alpha op(A) op(B)`, row-major. -/
theorem gbL_run (hp : p ≠ 0) (hq : q ≠ 0) (hA : StAt m (bandAd A .rowMajor ldA kl ku) (inBand kl ku p q) QA)
    (hB : MatAt m B .rowMajor ldB (full (opRows tB (opCols tA p q) l) (opCols tB (opCols tA p q) l)) QB)
    (hC : MatMem m C .rowMajor ldC (full (opRows tA p q) l))
    (hb : beta ≠ 0 → MatAt m C .rowMajor ldC (full (opRows tA p q) l) QC)
    (hlB : LdOk .rowMajor ldB (opRows tB (opCols tA p q) l) (opCols tB (opCols tA p q) l)) (hlC : (l : Int) ≤ ldC)
    (hdA : StDisj (bandAd A .rowMajor ldA kl ku) (inBand kl ku p q) (matAd C .rowMajor ldC) (full (opRows tA p q) l))
    (hdB : StDisj (matAd B .rowMajor ldB) (full (opRows tB (opCols tA p q) l) (opCols tB (opCols tA p q) l))
      (matAd C .rowMajor ldC) (full (opRows tA p q) l)) :
    YieldsMat (loop l fun i => gbmv .rowMajor tA tB.conj p q kl ku alpha A ldA (opCol tB B ldB i).1 (opCol tB B ldB i).2 beta
        (C + i) ldC) m C .rowMajor ldC (full (opRows tA p q) l) fun i j =>
      beta * QC i j + alpha * ∑ x ∈ range (opCols tA p q), opM tA (bandM kl ku QA) i x * opM tB QB x j := by
  have hB0 : StAt m (matAd B .rowMajor ldB) _ QB := hB
  refine cols_run hlC _ fun i hi m' ho => ?_
  have ho2 := ho.mono (P' := full (opRows tA p q) l) fun a b h => ⟨h.1, h.2.trans hi⟩
  have h0 : 0 ≤ ldC := by omega
  obtain ⟨h1, h2⟩ := opCol_at (tB := tB) (hB0.only ho2 hdB) hlB hi
  exact C78_gbmv hp hq (hA.only ho2 hdA) h1 (vecMem_col' hC hlC hi ho) (fun h => vecAt_col' (hb h) hlC hi ho) (by omega)
    (disj_col hdA h0 hi) (h2 _ _ _ (disj_col hdB h0 hi))

/-- The four loops for `C := beta C + alpha op(B) op(A)`, row-major. -/
theorem gbR_run (hp : p ≠ 0) (hq : q ≠ 0) (hA : StAt m (bandAd A .rowMajor ldA kl ku) (inBand kl ku p q) QA)
    (hB : MatAt m B .rowMajor ldB (full (opRows tB l (opRows tA p q)) (opCols tB l (opRows tA p q))) QB)
    (hC : MatMem m C .rowMajor ldC (full l (opCols tA p q)))
    (hb : beta ≠ 0 → MatAt m C .rowMajor ldC (full l (opCols tA p q)) QC)
    (hlB : LdOk .rowMajor ldB (opRows tB l (opRows tA p q)) (opCols tB l (opRows tA p q))) (hlC : (opCols tA p q : Int) ≤ ldC)
    (hdA : StDisj (bandAd A .rowMajor ldA kl ku) (inBand kl ku p q) (matAd C .rowMajor ldC) (full l (opCols tA p q)))
    (hdB : StDisj (matAd B .rowMajor ldB) (full (opRows tB l (opRows tA p q)) (opCols tB l (opRows tA p q)))
      (matAd C .rowMajor ldC) (full l (opCols tA p q))) :
    YieldsMat (loop l fun i => gbmv .rowMajor tA.flip tB.conj p q kl ku alpha A ldA (opRow tB B ldB i).1 (opRow tB B ldB i).2 beta
        (C + i * ldC) 1) m C .rowMajor ldC (full l (opCols tA p q)) fun i j =>
      beta * QC i j + alpha * ∑ x ∈ range (opRows tA p q), opM tB QB i x * opM tA (bandM kl ku QA) x j := by
  have hB0 : StAt m (matAd B .rowMajor ldB) _ QB := hB
  refine lines_run hlC _ fun i hi m' ho => ?_
  have ho2 := ho.mono (P' := full l (opCols tA p q)) fun a b h => ⟨h.1.trans hi, h.2⟩
  obtain ⟨h1, h2⟩ := opRow_at (tB := tB) (hB0.only ho2 hdB) hlB hi
  have e1 := opRows_flip tA p q
  have e2 := opCols_flip tA p q
  have := C78_gbmv (t := tA.flip) (conjX := tB.conj) (alpha := alpha) hp hq (hA.only ho2 hdA) (by rw [e2]; exact h1)
    (by rw [e1]; exact vecMem_row' hC hlC hi ho) (fun h => by rw [e1]; exact vecAt_row' (hb h) hlC hi ho) (by decide)
    (by rw [e1]; exact disj_row hdA hi) (by rw [e1, e2]; exact h2 _ _ _ (disj_row hdB hi))
  rw [e1, e2] at this
  refine this.congr fun j _ => ?_
  congr 2
  refine sum_congr rfl fun x _ => ?_
  rw [opM_flip', mul_comm, opM_eq tB]

/-- **C86** `gbmm` with the banded matrix `A` (`p` rows, `q` columns) on the left: `C := beta C + alpha op(A) op(B)`. -/
theorem C86_gbmm_left (hp : p ≠ 0) (hq : q ≠ 0) (hA : StAt m (bandAd A o ldA kl ku) (inBand kl ku p q) QA)
    (hB : MatAt m B o ldB (full (opRows tB (opCols tA p q) l) (opCols tB (opCols tA p q) l)) QB)
    (hC : MatMem m C o ldC (full (opRows tA p q) l)) (hb : beta ≠ 0 → MatAt m C o ldC (full (opRows tA p q) l) QC)
    (hlB : LdOk o ldB (opRows tB (opCols tA p q) l) (opCols tB (opCols tA p q) l)) (hlC : LdOk o ldC (opRows tA p q) l)
    (hdA : StDisj (bandAd A o ldA kl ku) (inBand kl ku p q) (matAd C o ldC) (full (opRows tA p q) l))
    (hdB : StDisj (matAd B o ldB) (full (opRows tB (opCols tA p q) l) (opCols tB (opCols tA p q) l))
      (matAd C o ldC) (full (opRows tA p q) l)) :
    YieldsMat (gbmm o .left tA tB p q kl ku l alpha A ldA B ldB beta C ldC) m C o ldC (full (opRows tA p q) l) fun i j =>
      beta * QC i j + alpha * ∑ x ∈ range (opCols tA p q), opM tA (bandM kl ku QA) i x * opM tB QB x j := by
  cases o
  · have := gbL_run (tB := tB) (alpha := alpha) hp hq hA hB hC hb hlB hlC hdA hdB
    obtain ⟨cb, tb⟩ := tB
    cases tb <;> exact this
  · rw [← stAt_sw, bandAd_sw, inBand_sw] at hA
    rw [matAt_col, sw_op] at hB
    have hC' := matMem_col.1 hC
    rw [sw_full] at hC'
    rw [← stDisj_sw1, ← stDisj_sw2, bandAd_sw, inBand_sw, matAd_sw, sw_full] at hdA
    have hdB' := stDisj_col hdB
    rw [sw_op, sw_full] at hdB'
    have hlB' := ldOk_op _ _ _ _ hlB
    have e1 : opCols tA p q = opRows tA q p := by unfold opRows opCols; cases tA.trans <;> rfl
    have e2 : opRows tA p q = opCols tA q p := by unfold opRows opCols; cases tA.trans <;> rfl
    have hlC' : (opCols tA q p : Int) ≤ ldC := by rw [← e2]; exact hlC
    have hb' : beta ≠ 0 → MatAt m C .rowMajor ldC (full l (opRows tA p q)) (sw QC) := fun h => by
      have := matAt_col.1 (hb h); rwa [sw_full] at this
    refine yieldsMat_col ?_
    rw [sw_full]
    rw [e1] at hB hlB' hdB' ⊢
    rw [e2] at hC' hdA hdB' hb' ⊢
    have := gbR_run (tB := tB) (alpha := alpha) hq hp hA hB hC' hb' hlB' hlC' hdA hdB'
    rw [show gbmm .colMajor .left tA tB p q kl ku l alpha A ldA B ldB beta C ldC = loop l fun i =>
      gbmv .rowMajor tA.flip tB.conj q p ku kl alpha A ldA (opRow tB B ldB i).1 (opRow tB B ldB i).2 beta (C + i * ldC) 1 by
      obtain ⟨cb, tb⟩ := tB; cases tb <;> rfl]
    refine this.congr fun i j _ => ?_
    rw [bandM_sw, sw_opM, sw_opM]
    simp only [sw]
    congr 2
    exact sum_congr rfl fun x _ => mul_comm _ _

/-- **C86** `gbmm` with the banded matrix `A` (`p` rows, `q` columns) on the right: `C := beta C + alpha op(B) op(A)`. -/
theorem C86_gbmm_right (hp : p ≠ 0) (hq : q ≠ 0) (hA : StAt m (bandAd A o ldA kl ku) (inBand kl ku p q) QA)
    (hB : MatAt m B o ldB (full (opRows tB l (opRows tA p q)) (opCols tB l (opRows tA p q))) QB)
    (hC : MatMem m C o ldC (full l (opCols tA p q))) (hb : beta ≠ 0 → MatAt m C o ldC (full l (opCols tA p q)) QC)
    (hlB : LdOk o ldB (opRows tB l (opRows tA p q)) (opCols tB l (opRows tA p q))) (hlC : LdOk o ldC l (opCols tA p q))
    (hdA : StDisj (bandAd A o ldA kl ku) (inBand kl ku p q) (matAd C o ldC) (full l (opCols tA p q)))
    (hdB : StDisj (matAd B o ldB) (full (opRows tB l (opRows tA p q)) (opCols tB l (opRows tA p q)))
      (matAd C o ldC) (full l (opCols tA p q))) :
    YieldsMat (gbmm o .right tA tB (opRows tB l p) (opCols tB l p) kl ku q alpha A ldA B ldB beta C ldC) m C o ldC
      (full l (opCols tA p q)) fun i j =>
      beta * QC i j + alpha * ∑ x ∈ range (opRows tA p q), opM tB QB i x * opM tA (bandM kl ku QA) x j := by
  cases o
  · have := gbR_run (tB := tB) (alpha := alpha) hp hq hA hB hC hb hlB hlC hdA hdB
    obtain ⟨cb, tb⟩ := tB
    cases tb <;> exact this
  · rw [← stAt_sw, bandAd_sw, inBand_sw] at hA
    rw [matAt_col, sw_op] at hB
    have hC' := matMem_col.1 hC
    rw [sw_full] at hC'
    rw [← stDisj_sw1, ← stDisj_sw2, bandAd_sw, inBand_sw, matAd_sw, sw_full] at hdA
    have hdB' := stDisj_col hdB
    rw [sw_op, sw_full] at hdB'
    have hlB' := ldOk_op _ _ _ _ hlB
    have e1 : opCols tA p q = opRows tA q p := by unfold opRows opCols; cases tA.trans <;> rfl
    have e2 : opRows tA p q = opCols tA q p := by unfold opRows opCols; cases tA.trans <;> rfl
    have hlC' : (l : Int) ≤ ldC := hlC
    have hb' : beta ≠ 0 → MatAt m C .rowMajor ldC (full (opCols tA p q) l) (sw QC) := fun h => by
      have := matAt_col.1 (hb h); rwa [sw_full] at this
    refine yieldsMat_col ?_
    rw [sw_full]
    rw [e2] at hB hlB' hdB' ⊢
    rw [e1] at hC' hdA hdB' hb' ⊢
    have := gbL_run (tB := tB) (alpha := alpha) hq hp hA hB hC' hb' hlB' hlC' hdA hdB'
    rw [show gbmm .colMajor .right tA tB (opRows tB l p) (opCols tB l p) kl ku q alpha A ldA B ldB beta C ldC = loop l fun i =>
      gbmv .rowMajor tA tB.conj q p ku kl alpha A ldA (opCol tB B ldB i).1 (opCol tB B ldB i).2 beta (C + i) ldC by
      obtain ⟨cb, tb⟩ := tB; cases tb <;> rfl]
    refine this.congr fun i j _ => ?_
    rw [bandM_sw, sw_opM, sw_opM]
    simp only [sw]
    congr 2
    exact sum_congr rfl fun x _ => mul_comm _ _

/-- **C86** If `A` has no rows or no columns, nothing is done; in particular `C` is not multiplied by `beta`. -/
theorem C86_gbmm_empty (h : p = 0 ∨ q = 0) :
    gbmm o .left tA tB p q kl ku l alpha A ldA B ldB beta C ldC m = .ok ((), m) ∧
    gbmm o .right tA tB (opRows tB l p) (opCols tB l p) kl ku q alpha A ldA B ldB beta C ldC m = .ok ((), m) := by
  have key : ∀ (n : Nat) (f : Nat → M K Unit), (∀ i, f i m = .ok ((), m)) → loop n f m = .ok ((), m) := by
    intro n f hf
    induction n with
    | zero => rfl
    | succ n ih => exact (loop_succ ih).trans (hf n)
  have h' : q = 0 ∨ p = 0 := h.symm
  obtain ⟨cb, tb⟩ := tB
  constructor <;> cases o <;> cases tb <;> exact key _ _ fun i => C78_gbmv_empty (by assumption)

/-! Symmetric and hermitian banded matrices: `beta` is applied in each pass. -/

/-- One pass per column or row, for the product with a matrix of order `sideDim s r c`. -/
theorem sideB_run {s : Side} {r c : Nat} (fL fR : Nat → M K Unit) (S : Nat → Nat → K) {ad : Nat → Nat → Int} {P : Nat → Nat → Prop}
    (hA : StAt m ad P QA) (hB : MatAt m B .rowMajor ldB (full r c) QB)
    (hC : MatMem m C .rowMajor ldC (full r c)) (hb : beta ≠ 0 → MatAt m C .rowMajor ldC (full r c) QC)
    (hlB : (c : Int) ≤ ldB) (hlC : (c : Int) ≤ ldC) (hdA : StDisj ad P (matAd C .rowMajor ldC) (full r c))
    (hdB : StDisj (matAd B .rowMajor ldB) (full r c) (matAd C .rowMajor ldC) (full r c))
    (hL : s = .left → ∀ l, l < c → ∀ m' v w, StAt m' ad P QA → VecAt m' (B + l) ldB r v → VecMem m' (C + l) ldC r →
      (beta ≠ 0 → VecAt m' (C + l) ldC r w) → ldC ≠ 0 →
      StVecDisj ad P (C + l) ldC r → VecDisj (B + l) ldB r (C + l) ldC r →
      Yields (fL l) m' (C + l) ldC r fun i => beta * w i + alpha * ∑ j ∈ range r, S i j * v j)
    (hR : s = .right → ∀ l, l < r → ∀ m' v w, StAt m' ad P QA → VecAt m' (B + l * ldB) 1 c v → VecMem m' (C + l * ldC) 1 c →
      (beta ≠ 0 → VecAt m' (C + l * ldC) 1 c w) →
      StVecDisj ad P (C + l * ldC) 1 c → VecDisj (B + l * ldB) 1 c (C + l * ldC) 1 c →
      Yields (fR l) m' (C + l * ldC) 1 c fun i => beta * w i + alpha * ∑ j ∈ range c, S j i * v j) :
    YieldsMat (match s with
        | .right => loop r fR
        | .left => loop c fL) m C .rowMajor ldC (full r c) fun i j => beta * QC i j + alpha * sideMul s r c S QB i j := by
  have hB' : StAt m (matAd B .rowMajor ldB) _ QB := hB
  cases s
  · refine cols_run hlC _ fun l hl m'' ho' => ?_
    have ho2 := ho'.mono (P' := full r c) fun i j hp => ⟨hp.1, hp.2.trans hl⟩
    have hB2 : MatAt m'' B .rowMajor ldB (full r c) QB := hB'.only ho2 hdB
    exact hL rfl l hl m'' (fun j => QB j l) _ (hA.only ho2 hdA) (vecAt_col hB2 (by omega) hl) (vecMem_col' hC hlC hl ho')
      (fun h => vecAt_col' (hb h) hlC hl ho') (by omega) (disj_col hdA (by omega) hl)
      (disj_colVec (disj_col hdB (by omega) hl) (by omega) hl)
  · refine lines_run hlC _ fun l hl m'' ho' => ?_
    have ho2 := ho'.mono (P' := full r c) fun i j hp => ⟨hp.1.trans hl, hp.2⟩
    have hB2 : MatAt m'' B .rowMajor ldB (full r c) QB := hB'.only ho2 hdB
    refine (hR rfl l hl m'' (fun j => QB l j) _ (hA.only ho2 hdA) (vecAt_row hB2 hl) (vecMem_row' hC hlC hl ho')
      (fun h => vecAt_row' (hb h) hlC hl ho') (disj_row hdA hl) (disj_rowVec (disj_row hdB hl) hl)).congr fun i _ => ?_
    simp only [sideMul]
    congr 2
    exact sum_congr rfl fun j _ => mul_comm _ _

variable {s : Side} {u : UpLo} {r c k : Nat}

/-- The banded triangle `u` in row-major order is the other one of the transpose in column-major order. -/
theorem band_other {n : Nat} : StAt m (bandAd A .rowMajor ldA (lowerK u k) (upperK u k)) (inBand (lowerK u k) (upperK u k) n n) QA ↔
    StAt m (bandAd A .colMajor ldA (lowerK u.flip k) (upperK u.flip k)) (inBand (lowerK u.flip k) (upperK u.flip k) n n) (sw QA) := by
  rw [← stAt_sw (ad := bandAd A .colMajor ldA _ _), bandAd_sw, inBand_sw, lowerK_flip, upperK_flip]
  exact Iff.rfl

theorem band_other_disj {n : Nat} {x inc : Int} {e : Nat} :
    StVecDisj (bandAd A .rowMajor ldA (lowerK u k) (upperK u k)) (inBand (lowerK u k) (upperK u k) n n) x inc e ↔
    StVecDisj (bandAd A .colMajor ldA (lowerK u.flip k) (upperK u.flip k)) (inBand (lowerK u.flip k) (upperK u.flip k) n n) x inc e := by
  rw [← stVecDisj_sw (ad := bandAd A .colMajor ldA _ _), bandAd_sw, inBand_sw, lowerK_flip, upperK_flip]

theorem band_symM (u : UpLo) (k : Nat) (Q : Nat → Nat → K) :
    symM u.flip (bandM (lowerK u.flip k) (upperK u.flip k) (sw Q)) = symM u (bandM (lowerK u k) (upperK u k) Q) := by
  rw [lowerK_flip, upperK_flip, bandM_sw, sw_symM]

theorem upLo_flip2 (u : UpLo) : u.flip.flip = u := by cases u <;> rfl

/-- **C86** `sbmm`: `C := beta C + alpha S B` or `beta C + alpha B S` for the symmetric banded matrix `S`. -/
theorem C86_sbmm
    (hA : StAt m (bandAd A o ldA (lowerK u k) (upperK u k))
      (inBand (lowerK u k) (upperK u k) (sideDim s r c) (sideDim s r c)) QA)
    (hB : MatAt m B o ldB (full r c) QB) (hC : MatMem m C o ldC (full r c)) (hb : beta ≠ 0 → MatAt m C o ldC (full r c) QC)
    (hlB : LdOk o ldB r c) (hlC : LdOk o ldC r c)
    (hdA : StDisj (bandAd A o ldA (lowerK u k) (upperK u k))
      (inBand (lowerK u k) (upperK u k) (sideDim s r c) (sideDim s r c)) (matAd C o ldC) (full r c))
    (hdB : StDisj (matAd B o ldB) (full r c) (matAd C o ldC) (full r c)) :
    YieldsMat (sbmm o s u r k c alpha A ldA B ldB beta C ldC) m C o ldC (full r c) fun i j =>
      beta * QC i j + alpha * sideMul s r c (symM u (bandM (lowerK u k) (upperK u k) QA)) QB i j := by
  cases o
  · have := sideB_run (alpha := alpha) (s := s)
      (fun i => sbmv .rowMajor u r k alpha A ldA (B + i) ldB beta (C + i) ldC)
      (fun i => sbmv .colMajor u.flip c k alpha A ldA (B + i * ldB) 1 beta (C + i * ldC) 1)
      (symM u (bandM (lowerK u k) (upperK u k) QA)) hA hB hC hb hlB hlC hdA hdB
      (by
        rintro rfl l hl m' v w h1 h2 h3 h4 h0 h5 h6
        exact C79_sbmv h1 h2 h3 h4 h0 h5 h6)
      (by
        rintro rfl l hl m' v w h1 h2 h3 h4 h5 h6
        have := C79_sbmv (alpha := alpha) (band_other.1 h1) h2 h3 h4 (by decide) (band_other_disj.1 h5) h6
        rw [band_symM] at this
        refine this.congr fun i _ => ?_
        congr 2
        exact sum_congr rfl fun j _ => by rw [symM_comm])
    cases s <;> exact this
  · rw [matAt_col, sw_full] at hB
    have hC' := matMem_col.1 hC
    rw [sw_full] at hC'
    rw [← stDisj_sw2, matAd_sw, sw_full] at hdA
    have hdB' := stDisj_col hdB
    rw [sw_full] at hdB'
    refine yieldsMat_col ?_
    rw [sw_full]
    have := sideB_run (alpha := alpha) (s := s.flip) (r := c) (c := r)
      (fun i => sbmv .rowMajor u.flip c k alpha A ldA (B + i) ldB beta (C + i) ldC)
      (fun i => sbmv .colMajor u r k alpha A ldA (B + i * ldB) 1 beta (C + i * ldC) 1)
      (sw (symM u (bandM (lowerK u k) (upperK u k) QA))) hA hB hC'
      (fun h => by have := matAt_col.1 (hb h); rwa [sw_full] at this) hlB hlC hdA hdB'
      (by
        intro hs l hl m' v w h1 h2 h3 h4 h0 h5 h6
        obtain rfl : s = .right := by cases s <;> first | rfl | exact absurd hs (by decide)
        have := C79_sbmv (u := u.flip) (alpha := alpha) ((band_other (u := u.flip) (QA := sw QA)).2 (by rw [upLo_flip2]; exact h1)) h2 h3 h4 h0
          ((band_other_disj (u := u.flip)).2 (by rw [upLo_flip2]; exact h5)) h6
        rw [band_symM] at this
        refine this.congr fun i _ => ?_
        congr 2
        exact sum_congr rfl fun j _ => by rw [symM_comm]; rfl)
      (by
        intro hs l hl m' v w h1 h2 h3 h4 h5 h6
        obtain rfl : s = .left := by cases s <;> first | rfl | exact absurd hs (by decide)
        exact C79_sbmv h1 h2 h3 h4 (by decide) h5 h6)
    rw [show sbmm .colMajor s u r k c alpha A ldA B ldB beta C ldC = match s.flip with
      | .right => loop c (fun i => sbmv .colMajor u r k alpha A ldA (B + i * ldB) 1 beta (C + i * ldC) 1)
      | .left => loop r (fun i => sbmv .rowMajor u.flip c k alpha A ldA (B + i) ldB beta (C + i) ldC) by cases s <;> rfl]
    refine this.congr fun i j _ => ?_
    rw [sideMul_sw]
    rfl

theorem band_herM (re : K → K) (u : UpLo) (k : Nat) (Q : Nat → Nat → K) :
    herM re u.flip (bandM (lowerK u.flip k) (upperK u.flip k) (sw Q)) = sw (herM re u (bandM (lowerK u k) (upperK u k) Q)) := by
  rw [lowerK_flip, upperK_flip, bandM_sw, herM_sw]

/-- **C86** `hbmm`: the same for the hermitian banded matrix. -/
theorem C86_hbmm {re : K → K}
    (hA : StAt m (bandAd A o ldA (lowerK u k) (upperK u k))
      (inBand (lowerK u k) (upperK u k) (sideDim s r c) (sideDim s r c)) QA)
    (hB : MatAt m B o ldB (full r c) QB) (hC : MatMem m C o ldC (full r c)) (hb : beta ≠ 0 → MatAt m C o ldC (full r c) QC)
    (hlB : LdOk o ldB r c) (hlC : LdOk o ldC r c)
    (hdA : StDisj (bandAd A o ldA (lowerK u k) (upperK u k))
      (inBand (lowerK u k) (upperK u k) (sideDim s r c) (sideDim s r c)) (matAd C o ldC) (full r c))
    (hdB : StDisj (matAd B o ldB) (full r c) (matAd C o ldC) (full r c)) :
    YieldsMat (hbmm re o s u r k c alpha A ldA B ldB beta C ldC) m C o ldC (full r c) fun i j =>
      beta * QC i j + alpha * sideMul s r c (herM re u (bandM (lowerK u k) (upperK u k) QA)) QB i j := by
  cases o
  · have := sideB_run (alpha := alpha) (s := s)
      (fun i => hbmv re .rowMajor u r k alpha A ldA (B + i) ldB beta (C + i) ldC)
      (fun i => hbmv re .colMajor u.flip c k alpha A ldA (B + i * ldB) 1 beta (C + i * ldC) 1)
      (herM re u (bandM (lowerK u k) (upperK u k) QA)) hA hB hC hb hlB hlC hdA hdB
      (by
        rintro rfl l hl m' v w h1 h2 h3 h4 h0 h5 h6
        exact C79_hbmv h1 h2 h3 h4 h0 h5 h6)
      (by
        rintro rfl l hl m' v w h1 h2 h3 h4 h5 h6
        have := C79_hbmv (re := re) (alpha := alpha) (band_other.1 h1) h2 h3 h4 (by decide) (band_other_disj.1 h5) h6
        rw [band_herM] at this
        exact this)
    cases s <;> exact this
  · rw [matAt_col, sw_full] at hB
    have hC' := matMem_col.1 hC
    rw [sw_full] at hC'
    rw [← stDisj_sw2, matAd_sw, sw_full] at hdA
    have hdB' := stDisj_col hdB
    rw [sw_full] at hdB'
    refine yieldsMat_col ?_
    rw [sw_full]
    have := sideB_run (alpha := alpha) (s := s.flip) (r := c) (c := r)
      (fun i => hbmv re .rowMajor u.flip c k alpha A ldA (B + i) ldB beta (C + i) ldC)
      (fun i => hbmv re .colMajor u r k alpha A ldA (B + i * ldB) 1 beta (C + i * ldC) 1)
      (sw (herM re u (bandM (lowerK u k) (upperK u k) QA))) hA hB hC'
      (fun h => by have := matAt_col.1 (hb h); rwa [sw_full] at this) hlB hlC hdA hdB'
      (by
        intro hs l hl m' v w h1 h2 h3 h4 h0 h5 h6
        obtain rfl : s = .right := by cases s <;> first | rfl | exact absurd hs (by decide)
        have := C79_hbmv (re := re) (u := u.flip) (alpha := alpha)
          ((band_other (u := u.flip) (QA := sw QA)).2 (by rw [upLo_flip2]; exact h1)) h2 h3 h4 h0
          ((band_other_disj (u := u.flip)).2 (by rw [upLo_flip2]; exact h5)) h6
        rw [band_herM] at this
        exact this)
      (by
        intro hs l hl m' v w h1 h2 h3 h4 h5 h6
        obtain rfl : s = .left := by cases s <;> first | rfl | exact absurd hs (by decide)
        exact C79_hbmv h1 h2 h3 h4 (by decide) h5 h6)
    rw [show hbmm re .colMajor s u r k c alpha A ldA B ldB beta C ldC = match s.flip with
      | .right => loop c (fun i => hbmv re .colMajor u r k alpha A ldA (B + i * ldB) 1 beta (C + i * ldC) 1)
      | .left => loop r (fun i => hbmv re .rowMajor u.flip c k alpha A ldA (B + i) ldB beta (C + i) ldC) by cases s <;> rfl]
    refine this.congr fun i j _ => ?_
    rw [sideMul_sw]
    rfl

end gb

/-! Triangular banded matrices. -/

/-- **C86** as one expects it: `tbmm` computes `B := alpha op(T) B` or `alpha B op(T)` for the triangular banded matrix `T`. -/
def C86Claim (o : Order) (s : Side) : Prop :=
  ∀ (K : Type) [CommRing K] [StarRing K] (u : UpLo) (t : Trans) (d : Diag) (r c k : Nat) (alpha : K) (A ldA B ldB : Int) (m : Mem K)
    (QA QB : Nat → Nat → K),
    StAt m (bandAd A o ldA (lowerK u k) (upperK u k)) (triBand u d k (sideDim s r c)) QA → MatAt m B o ldB (full r c) QB →
    LdOk o ldB r c →
    StDisj (bandAd A o ldA (lowerK u k) (upperK u k)) (triBand u d k (sideDim s r c)) (matAd B o ldB) (full r c) →
    YieldsMat (tbmm o s u t d r c k alpha A ldA B ldB) m B o ldB (full r c) fun i j =>
      alpha * sideMul s r c (opM t (triM u d (bandM (lowerK u k) (upperK u k) QA))) QB i j

theorem yields_then_scal [CommRing K] {c1 : M K Unit} {n : Nat} {alpha : K} {y incY : Int} {m : Mem K} {v : Nat → K} (hi : incY ≠ 0)
    (h : Yields c1 m y incY n v) : Yields (do c1; scal n alpha y incY) m y incY n fun i => alpha * v i := by
  obtain ⟨m', h1, h2, h3⟩ := h
  obtain ⟨m'', g1, g2, g3⟩ := yields_scal (alpha := alpha) h2 hi
  exact ⟨m'', (bind_ok h1).trans g1, g2, fun a ha => (g3 a ha).trans (h3 a ha)⟩

/-- **C86** (only for row-major order from the left and column-major order from the right) `tbmm` computes `B := alpha op(T) B` or
`alpha B op(T)`. -/
theorem C86_tbmm_partial : C86Claim .rowMajor .left ∧ C86Claim .colMajor .right := by
  constructor
  · intro K _ _ u t d r c k alpha A ldA B ldB m QA QB hA hB hlB hdA
    have hl : (c : Int) ≤ ldB := hlB
    refine cols_run hl _ fun l hl' m' ho => ?_
    have ho2 := ho.mono (P' := full r c) fun i j hp => ⟨hp.1, hp.2.trans hl'⟩
    exact yields_then_scal (by omega) (C81_tbmv (hA.only ho2 hdA) (vecAt_col' hB hl hl' ho) (by omega) (disj_col hdA (by omega) hl'))
  · intro K _ _ u t d r c k alpha A ldA B ldB m QA QB hA hB hlB hdA
    have hl : (r : Int) ≤ ldB := hlB
    rw [matAt_col, sw_full] at hB
    rw [← stDisj_sw2, matAd_sw, sw_full] at hdA
    refine yieldsMat_col ?_
    rw [sw_full]
    refine cols_run (V := sw _) hl _ fun l hl' m' ho => ?_
    have ho2 := ho.mono (P' := full c r) fun i j hp => ⟨hp.1, hp.2.trans hl'⟩
    refine (yields_then_scal (by omega) (C81_tbmv (t := t.flip) (hA.only ho2 hdA) (vecAt_col' hB hl hl' ho) (by omega)
      (disj_col hdA (by omega) hl'))).congr fun i _ => ?_
    simp only [sw, sideMul]
    congr 1
    exact sum_congr rfl fun j _ => by rw [opM_flip', mul_comm]

/-- A diagonal matrix of order 1 at 0, two vectors at 10 that are the rows or the columns of a matrix. -/
def exTb : Mem Int := fun a => if a = 0 then .val 3 else if a = 10 then .val 5 else if a = 11 then .val 6 else .out

/-- **C86** In the other two cases the vector is scaled with the wrong increment: for a unit diagonal and the factor 2 the second
element of a row stays as it was and memory behind the matrix is read. -/
theorem C86_false : ¬C86Claim .rowMajor .right ∧ ¬C86Claim .colMajor .left := by
  constructor
  · intro h
    obtain ⟨m', e1, -, -⟩ := h Int .upper noTrans .unit 1 2 0 2 0 1 10 2 exTb (fun _ _ => 3) (fun _ j => (j : Int) + 5)
      (fun i j hp => by
        obtain ⟨⟨h1, h2, h3, h4⟩, h5⟩ := hp
        exact absurd (show i = j by simp only [lowerK, upperK] at h3 h4; omega) (h5 rfl))
      (fun i j hp => by obtain ⟨h1, h2⟩ := hp; interval_cases i; interval_cases j <;> decide) (Int.le_refl 2)
      (fun i j k l hp _ => by
        obtain ⟨⟨h1, h2, h3, h4⟩, h5⟩ := hp
        exact absurd (show i = j by simp only [lowerK, upperK] at h3 h4; omega) (h5 rfl))
    have e2 : (peek (tbmm (K := Int) .rowMajor .right .upper noTrans .unit 1 2 0 2 0 1 10 2 exTb) fun _ _ => ()) = .ub := by decide
    rw [e1] at e2
    exact absurd e2 (by simp [peek])
  · intro h
    obtain ⟨m', e1, -, -⟩ := h Int .upper noTrans .unit 2 1 0 2 0 1 10 2 exTb (fun _ _ => 3) (fun i _ => (i : Int) + 5)
      (fun i j hp => by
        obtain ⟨⟨h1, h2, h3, h4⟩, h5⟩ := hp
        exact absurd (show i = j by simp only [lowerK, upperK] at h3 h4; omega) (h5 rfl))
      (fun i j hp => by obtain ⟨h1, h2⟩ := hp; interval_cases j; interval_cases i <;> decide) (Int.le_refl 2)
      (fun i j k l hp _ => by
        obtain ⟨⟨h1, h2, h3, h4⟩, h5⟩ := hp
        exact absurd (show i = j by simp only [lowerK, upperK] at h3 h4; omega) (h5 rfl))
    have e2 : (peek (tbmm (K := Int) .colMajor .left .upper noTrans .unit 2 1 0 2 0 1 10 2 exTb) fun _ _ => ()) = .ub := by decide
    rw [e1] at e2
    exact absurd e2 (by simp [peek])

/-- The hypotheses hold for a banded matrix whose corners are not in memory, and there is room for the product. -/
def exBm : Mem Int := fun a =>
  if a = 0 ∨ a = 5 then .out else if 0 < a ∧ a < 5 then .val a else if a = 10 ∨ a = 11 then .val (a - 5)
  else if a = 20 ∨ a = 21 then .raw else .out

example : StAt exBm (bandAd 0 .rowMajor 3 1 1) (inBand 1 1 2 2) (fun i j => 2 * (i : Int) + j + 1) ∧
    MatAt exBm 10 .rowMajor 1 (full 2 1) (fun i _ => (i : Int) + 5) ∧ MatMem exBm 20 .rowMajor 1 (full 2 1) ∧
    StDisj (bandAd 0 .rowMajor 3 1 1) (inBand 1 1 2 2) (matAd 20 .rowMajor 1) (full 2 1) ∧
    StDisj (matAd 10 .rowMajor 1) (full 2 1) (matAd 20 .rowMajor 1) (full 2 1) := by
  refine ⟨fun i j h => ?_, fun i j h => ?_, fun i j h => ?_, fun i j k l h h' => ?_, fun i j k l h h' => ?_⟩
  · obtain ⟨h1, h2, -, -⟩ := h
    interval_cases i <;> interval_cases j <;> decide
  · obtain ⟨h1, h2⟩ := h
    interval_cases i <;> interval_cases j <;> decide
  · obtain ⟨h1, h2⟩ := h
    interval_cases i <;> interval_cases j <;> decide
  · obtain ⟨h1, h2, -, -⟩ := h
    obtain ⟨h3, h4⟩ := h'
    interval_cases i <;> interval_cases j <;> interval_cases k <;> interval_cases l <;> decide
  · obtain ⟨h1, h2⟩ := h
    obtain ⟨h3, h4⟩ := h'
    interval_cases i <;> interval_cases j <;> interval_cases k <;> interval_cases l <;> decide

example : (peek (gbmm (K := Int) .rowMajor .left noTrans noTrans 2 2 1 1 1 1 0 3 10 1 0 20 1 exBm) fun _ m => (m 20, m 21)) =
    .ok (.val 17, .val 39) := by decide

end Verif.Blas
