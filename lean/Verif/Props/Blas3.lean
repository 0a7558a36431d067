import Verif.Lemmas.Blas3
import Mathlib.NumberTheory.Zsqrtd.Basic

/-! Property theorems for the generic level-3 routines of cxxblas (C82 to C86). Matrices in memory are those of `Spec/Blas.lean`
and `Spec/BlasBand.lean`; the scalars are any commutative ring with conjugation (a field for the solves), in exact arithmetic.
Everything outside of the positions named is arbitrary: it need not be initialised, nor exist. -/

namespace Verif.Blas

open Finset

variable {K : Type}

/-! ### C82: matrix-matrix product -/

section gemm
variable [CommRing K] [StarRing K] [DecidableEq K] {o : Order} {tA tB : Trans} {r c k : Nat} {alpha beta : K}
  {A ldA B ldB C ldC : Int} {m : Mem K} {QA QB QC : Nat → Nat → K}

theorem gemmCase_trans (tA tB : Trans) : (gemmCase tA tB).1.trans = tA.trans := by
  obtain ⟨a, b⟩ := tA; obtain ⟨a', b'⟩ := tB
  cases a <;> cases b <;> cases a' <;> cases b' <;> rfl

theorem opRows_stored (t t' : Trans) (h : t'.trans = t.trans) (r c : Nat) : opRows t' (opRows t r c) (opCols t r c) = r := by
  unfold opRows opCols; rw [h]; cases t.trans <;> rfl

theorem opCols_stored (t t' : Trans) (h : t'.trans = t.trans) (r c : Nat) : opCols t' (opRows t r c) (opCols t r c) = c := by
  unfold opRows opCols; rw [h]; cases t.trans <;> rfl

theorem gemmPass_run (hr : r ≠ 0) {l : Nat} (hl : l < c)
    (hA : MatAt m A .rowMajor ldA (full (opRows tA r k) (opCols tA r k)) QA)
    (hB : MatAt m B .rowMajor ldB (full (opRows tB k c) (opCols tB k c)) QB)
    (hldB : LdOk .rowMajor ldB (opRows tB k c) (opCols tB k c)) (hld : (c : Int) ≤ ldC) {v : Nat → K}
    (hy : VecAt m (C + l) ldC r v)
    (hdA : StDisj (matAd A .rowMajor ldA) (full (opRows tA r k) (opCols tA r k)) (matAd C .rowMajor ldC) (full r c))
    (hdB : StDisj (matAd B .rowMajor ldB) (full (opRows tB k c) (opCols tB k c)) (matAd C .rowMajor ldC) (full r c)) :
    Yields (gemmPass tA tB r k alpha A ldA B ldB C ldC l) m (C + l) ldC r fun i =>
      v i + alpha * ∑ j ∈ range k, opM (gemmCase tA tB).1 QA i j * opM ⟨(gemmCase tA tB).2, tB.trans⟩ QB j l := by
  have h0 : 0 ≤ ldC := by omega
  have hl0 : ldC ≠ 0 := by omega
  have ht := gemmCase_trans tA tB
  have eR := opRows_stored tA _ ht r k
  have eC := opCols_stored tA _ ht r k
  have base : ∀ (x incX : Int) (xv : Nat → K), VecAt m x incX k xv → VecDisj x incX k (C + l) ldC r →
      Yields (gemv .rowMajor (gemmCase tA tB).1 (gemmCase tA tB).2 (opRows tA r k) (opCols tA r k) alpha A ldA x incX 1 (C + l) ldC)
        m (C + l) ldC r fun i =>
        v i + alpha * ∑ j ∈ range k, opM (gemmCase tA tB).1 QA i j * cj (gemmCase tA tB).2 (xv j) := by
    intro x incX xv hx hdx
    by_cases hk : k = 0
    · subst hk
      refine ⟨m, C74_gemv_empty ?_, fun i hi => ?_, fun _ _ => rfl⟩
      · unfold opRows opCols; cases tA.trans <;> simp
      · rw [hy i hi]; simp
    · have := C74_gemv (t := (gemmCase tA tB).1) (conjX := (gemmCase tA tB).2) (alpha := alpha) (beta := 1) (x := x) (incX := incX)
        (xv := xv) (y := C + l) (incY := ldC) (yv := v)
        (by unfold opRows; cases tA.trans <;> simp <;> omega) (by unfold opCols; cases tA.trans <;> simp <;> omega) hA
        (by rw [eC]; exact hx) (by rw [eR]; intro i hi; rw [hy i hi]; simp) (fun _ => by rw [eR]; exact hy)
        hl0 (by rw [eR]; exact disj_col hdA h0 hl) (by rw [eR, eC]; exact hdx)
      rw [eR, eC] at this
      refine this.congr fun i _ => ?_
      rw [one_mul]
  have hBc : tB.trans = false → Yields _ _ _ _ _ _ := fun h => by
    have e1 : opRows tB k c = k := by simp [opRows, h]
    have e2 : opCols tB k c = c := by simp [opCols, h]
    rw [e1, e2] at hB hldB hdB
    exact base (B + l) ldB (fun j => QB j l) (vecAt_col hB (by have : (c : Int) ≤ ldB := hldB; omega) hl)
      (disj_colVec (disj_col hdB h0 hl) (by have : (c : Int) ≤ ldB := hldB; omega) hl)
  have hBr : tB.trans = true → Yields _ _ _ _ _ _ := fun h => by
    have e1 : opRows tB k c = c := by simp [opRows, h]
    have e2 : opCols tB k c = k := by simp [opCols, h]
    rw [e1, e2] at hB hldB hdB
    exact base (B + l * ldB) 1 (fun j => QB l j) (vecAt_row hB hl) (disj_rowVec (disj_col hdB h0 hl) hl)
  unfold gemmPass
  cases hB' : tB.trans
  · have := hBc hB'
    unfold opRows opCols at this
    cases hA' : tA.trans <;> rw [hA'] at this <;> exact this
  · have := hBr hB'
    unfold opRows opCols at this
    cases hA' : tA.trans <;> rw [hA'] at this <;> exact this

theorem gemmRow_run (hr : r ≠ 0)
    (hA : alpha ≠ 0 → MatAt m A .rowMajor ldA (full (opRows tA r k) (opCols tA r k)) QA)
    (hB : alpha ≠ 0 → MatAt m B .rowMajor ldB (full (opRows tB k c) (opCols tB k c)) QB)
    (hC : MatMem m C .rowMajor ldC (full r c)) (hb : beta ≠ 0 → MatAt m C .rowMajor ldC (full r c) QC)
    (hldB : LdOk .rowMajor ldB (opRows tB k c) (opCols tB k c)) (hld : (c : Int) ≤ ldC)
    (hdA : StDisj (matAd A .rowMajor ldA) (full (opRows tA r k) (opCols tA r k)) (matAd C .rowMajor ldC) (full r c))
    (hdB : StDisj (matAd B .rowMajor ldB) (full (opRows tB k c) (opCols tB k c)) (matAd C .rowMajor ldC) (full r c)) :
    YieldsMat (gemmRow tA tB r c k alpha A ldA B ldB beta C ldC) m C .rowMajor ldC (full r c) fun i j =>
      beta * QC i j + alpha * ∑ l ∈ range k, opM (gemmCase tA tB).1 QA i l * opM ⟨(gemmCase tA tB).2, tB.trans⟩ QB l j := by
  refine (gescalInit_row hC hb hld).bind fun m' hV ho => ?_
  by_cases ha : alpha = 0
  · rw [if_pos ha]
    refine ⟨m', rfl, fun i j hp => ?_, fun _ _ => rfl⟩
    rw [hV i j hp]; simp [ha]
  · rw [if_neg ha]
    have hA' : StAt m' (matAd A .rowMajor ldA) _ QA := StAt.only (hA ha) ho hdA
    have hB' : StAt m' (matAd B .rowMajor ldB) _ QB := StAt.only (hB ha) ho hdB
    refine cols_run hld _ fun l hl m'' ho' => ?_
    have ho2 := ho'.mono (P' := full r c) fun i j hp => ⟨hp.1, hp.2.trans hl⟩
    exact gemmPass_run hr hl (hA'.only ho2 hdA) (hB'.only ho2 hdB) hldB hld (vecAt_col' hV hld hl ho') hdA hdB

/-- `op(A) op(B)`, the inner extent being `k`. -/
def prodM (tA tB : Trans) (k : Nat) (QA QB : Nat → Nat → K) (i j : Nat) : K := ∑ l ∈ range k, opM tA QA i l * opM tB QB l j

/-- `C := beta C + alpha op(A) op(B)`, nothing else being touched. -/
def GemmOk (tA' tB' : Trans) (o : Order) (tA tB : Trans) (r c k : Nat) (alpha beta : K) : Prop :=
  ∀ (A ldA B ldB C ldC : Int) (m : Mem K) (QA QB QC : Nat → Nat → K),
    (alpha ≠ 0 → MatAt m A o ldA (full (opRows tA r k) (opCols tA r k)) QA) →
    (alpha ≠ 0 → MatAt m B o ldB (full (opRows tB k c) (opCols tB k c)) QB) →
    MatMem m C o ldC (full r c) → (beta ≠ 0 → MatAt m C o ldC (full r c) QC) →
    LdOk o ldA (opRows tA r k) (opCols tA r k) → LdOk o ldB (opRows tB k c) (opCols tB k c) → LdOk o ldC r c →
    StDisj (matAd A o ldA) (full (opRows tA r k) (opCols tA r k)) (matAd C o ldC) (full r c) →
    StDisj (matAd B o ldB) (full (opRows tB k c) (opCols tB k c)) (matAd C o ldC) (full r c) →
    YieldsMat (gemm o tA tB r c k alpha A ldA B ldB beta C ldC) m C o ldC (full r c) fun i j =>
      beta * QC i j + alpha * prodM tA' tB' k QA QB i j

theorem yieldsMat_empty {m : Mem K} {C : Int} {o : Order} {ld : Int} {V : Nat → Nat → K} (h : r = 0 ∨ c = 0) :
    YieldsMat (pure ()) m C o ld (full r c) V :=
  ⟨m, rfl, fun i j hp => by have := hp.1; have := hp.2; omega, fun _ _ => rfl⟩

theorem sw_op (t : Trans) (r c : Nat) : sw (full (opRows t r c) (opCols t r c)) = full (opRows t c r) (opCols t c r) := by
  rw [sw_full]; unfold opRows opCols; cases t.trans <;> rfl

theorem ldOk_op (t : Trans) (ld : Int) (r c : Nat) (h : LdOk .colMajor ld (opRows t r c) (opCols t r c)) :
    LdOk .rowMajor ld (opRows t c r) (opCols t c r) := by
  revert h; unfold opRows opCols LdOk; cases t.trans <;> exact id

/-- The transposition and conjugation that `gemm` applies, given `transA` and `transB` of a row-major call. -/
theorem gemm_case (tA tB : Trans) :
    (tA = conjNoTrans ∧ tB = noTrans ∧ gemmCase tA tB = (noTrans, false)) ∨
    (tA = conjTrans ∧ tB = conjNoTrans ∧ gemmCase tA tB = (conjTrans, false)) ∨
    (¬(tA = conjNoTrans ∧ tB = noTrans) ∧ ¬(tA = conjTrans ∧ tB = conjNoTrans) ∧ gemmCase tA tB = (tA, tB.conj)) := by
  obtain ⟨a, b⟩ := tA; obtain ⟨a', b'⟩ := tB
  cases a <;> cases b <;> cases a' <;> cases b' <;> simp [gemmCase, noTrans, conjNoTrans, doTrans, conjTrans]

theorem gemm_row (tA tB : Trans) (r c k : Nat) (alpha beta : K) :
    GemmOk (gemmCase tA tB).1 ⟨(gemmCase tA tB).2, tB.trans⟩ .rowMajor tA tB r c k alpha beta := by
  intro A ldA B ldB C ldC m QA QB QC hA hB hC hb _ hlB hlC hdA hdB
  unfold gemm
  by_cases h : r = 0 ∨ c = 0
  · rw [if_pos h]; exact yieldsMat_empty h
  · rw [if_neg h]
    exact gemmRow_run (by omega) hA hB hC hb hlB hlC hdA hdB

theorem prodM_sw (tA tB : Trans) (k : Nat) (QA QB : Nat → Nat → K) (i j : Nat) :
    prodM tB tA k (sw QB) (sw QA) i j = prodM tA tB k QA QB j i := by
  unfold prodM
  refine sum_congr rfl fun l _ => ?_
  rw [sw_opM, sw_opM, mul_comm]; rfl

theorem gemm_col (tA tB : Trans) (r c k : Nat) (alpha beta : K) :
    GemmOk ⟨(gemmCase tB tA).2, tA.trans⟩ (gemmCase tB tA).1 .colMajor tA tB r c k alpha beta := by
  intro A ldA B ldB C ldC m QA QB QC hA hB hC hb hlA hlB hlC hdA hdB
  have hC' := matMem_col.1 hC
  have hdA' := stDisj_col hdA
  have hdB' := stDisj_col hdB
  rw [sw_full] at hC'
  rw [sw_op, sw_full] at hdA' hdB'
  have := gemm_row tB tA c r k alpha beta B ldB A ldA C ldC m (sw QB) (sw QA) (sw QC)
    (fun h => by have := matAt_col.1 (hB h); rwa [sw_op] at this) (fun h => by have := matAt_col.1 (hA h); rwa [sw_op] at this)
    hC' (fun h => by have := matAt_col.1 (hb h); rwa [sw_full] at this) (ldOk_op _ _ _ _ hlB) (ldOk_op _ _ _ _ hlA) hlC
    hdB' hdA'
  refine yieldsMat_col ?_
  rw [sw_full]
  have e : gemm .colMajor tA tB r c k alpha A ldA B ldB beta C ldC = gemm .rowMajor tB tA c r k alpha B ldB A ldA beta C ldC := by
    unfold gemm; simp only [or_comm]
  rw [e]
  refine this.congr fun i j _ => ?_
  rw [prodM_sw]; rfl

end gemm

/-- **C82** as BLAS has it: `gemm` computes `C := beta C + alpha op(A) op(B)`. -/
def C82Claim : Prop :=
  ∀ (K : Type) [CommRing K] [StarRing K] [DecidableEq K] (o : Order) (tA tB : Trans) (r c k : Nat) (alpha beta : K),
    GemmOk tA tB o tA tB r c k alpha beta

/-- The pairs of `transA` and `transB` for which a conjugation is forgotten. -/
def gemmWrong (o : Order) (tA tB : Trans) : Prop :=
  match o with
  | .rowMajor => tA = conjNoTrans ∧ tB = noTrans ∨ tA = conjTrans ∧ tB = conjNoTrans
  | .colMajor => tB = conjNoTrans ∧ tA = noTrans ∨ tB = conjTrans ∧ tA = conjNoTrans

/-- **C82** (except for two pairs of `transA` and `transB`) `gemm` computes `C := beta C + alpha op(A) op(B)`, for either order;
with `alpha = 0` neither `A` nor `B` is read, with `beta = 0` the old `C` may be uninitialised. -/
theorem C82_gemm_partial [CommRing K] [StarRing K] [DecidableEq K] {o : Order} {tA tB : Trans} (h : ¬gemmWrong o tA tB)
    (r c k : Nat) (alpha beta : K) : GemmOk tA tB o tA tB r c k alpha beta := by
  cases o
  · have h' : ¬(tA = conjNoTrans ∧ tB = noTrans ∨ tA = conjTrans ∧ tB = conjNoTrans) := h
    have := gemm_row tA tB r c k alpha beta
    rcases gemm_case tA tB with e | e | e
    · exact absurd (Or.inl ⟨e.1, e.2.1⟩) h'
    · exact absurd (Or.inr ⟨e.1, e.2.1⟩) h'
    · rw [e.2.2] at this; exact this
  · have h' : ¬(tB = conjNoTrans ∧ tA = noTrans ∨ tB = conjTrans ∧ tA = conjNoTrans) := h
    have := gemm_col tA tB r c k alpha beta
    rcases gemm_case tB tA with e | e | e
    · exact absurd (Or.inl ⟨e.1, e.2.1⟩) h'
    · exact absurd (Or.inr ⟨e.1, e.2.1⟩) h'
    · rw [e.2.2] at this; exact this

/-- **C82** In the other pairs the operand marked only for conjugation is multiplied without conjugation. -/
theorem C82_gemm_wrong [CommRing K] [StarRing K] [DecidableEq K] (r c k : Nat) (alpha beta : K) :
    GemmOk noTrans noTrans .rowMajor conjNoTrans noTrans r c k alpha beta ∧
    GemmOk conjTrans noTrans .rowMajor conjTrans conjNoTrans r c k alpha beta ∧
    GemmOk noTrans noTrans .colMajor noTrans conjNoTrans r c k alpha beta ∧
    GemmOk noTrans conjTrans .colMajor conjNoTrans conjTrans r c k alpha beta :=
  ⟨gemm_row conjNoTrans noTrans r c k alpha beta, gemm_row conjTrans conjNoTrans r c k alpha beta,
    gemm_col noTrans conjNoTrans r c k alpha beta, gemm_col conjNoTrans conjTrans r c k alpha beta⟩

theorem opM_trivial [CommRing K] [StarRing K] [TrivialStar K] (t t' : Trans) (h : t.trans = t'.trans) (Q : Nat → Nat → K) :
    opM t Q = opM t' Q := by
  funext i j
  unfold opM cj
  rw [h]
  cases t.conj <;> cases t'.conj <;> simp

/-- **C82** For real scalars, where conjugation does nothing, `gemm` is right for all pairs. -/
theorem C82_gemm_real [CommRing K] [StarRing K] [TrivialStar K] [DecidableEq K] (o : Order) (tA tB : Trans) (r c k : Nat)
    (alpha beta : K) : GemmOk tA tB o tA tB r c k alpha beta := by
  have key : ∀ tA' tB' : Trans, tA'.trans = tA.trans → tB'.trans = tB.trans → GemmOk tA' tB' o tA tB r c k alpha beta →
      GemmOk tA tB o tA tB r c k alpha beta := by
    intro tA' tB' e1 e2 h A ldA B ldB C ldC m QA QB QC
    have := h A ldA B ldB C ldC m QA QB QC
    unfold prodM at this ⊢
    rw [opM_trivial _ _ e1, opM_trivial _ _ e2] at this
    exact this
  cases o
  · exact key (gemmCase tA tB).1 ⟨(gemmCase tA tB).2, tB.trans⟩ (gemmCase_trans tA tB) rfl (gemm_row tA tB r c k alpha beta)
  · exact key ⟨(gemmCase tB tA).2, tA.trans⟩ (gemmCase tB tA).1 rfl (gemmCase_trans tB tA) (gemm_col tA tB r c k alpha beta)

/-- Scalars with a conjugation: the Gaussian integers. -/
abbrev Gi : Type := Zsqrtd (-1)

/-- A memory for the refutation: the number `i` at 0, `1` at 1, an uninitialised cell at 2. -/
def exGi : Mem Gi := fun a => if a = 0 then .val ⟨0, 1⟩ else if a = 1 then .val 1 else if a = 2 then .raw else .out

/-- **C82** `gemm` with `transA = Conj`, `transB = NoTrans` does not conjugate `A`. -/
theorem C82_false : ¬C82Claim := by
  intro h
  have h1 : ∀ i j, full 1 1 i j → i = 0 ∧ j = 0 := fun i j hp => by have := hp.1; have := hp.2; omega
  obtain ⟨m', e1, e2, -⟩ := h Gi .rowMajor conjNoTrans noTrans 1 1 1 1 0 0 1 1 1 2 1 exGi (fun _ _ => ⟨0, 1⟩) (fun _ _ => 1) (fun _ _ => 0)
    (fun _ i j hp => by obtain ⟨rfl, rfl⟩ := h1 i j hp; decide) (fun _ i j hp => by obtain ⟨rfl, rfl⟩ := h1 i j hp; decide)
    (fun i j hp => by obtain ⟨rfl, rfl⟩ := h1 i j hp; decide) (fun h => absurd rfl h) (Int.le_refl 1) (Int.le_refl 1) (Int.le_refl 1)
    (fun i j k l hp hq => by obtain ⟨rfl, rfl⟩ := h1 i j hp; obtain ⟨rfl, rfl⟩ := h1 k l hq; decide)
    (fun i j k l hp hq => by obtain ⟨rfl, rfl⟩ := h1 i j hp; obtain ⟨rfl, rfl⟩ := h1 k l hq; decide)
  have e3 := e2 0 0 ⟨by decide, by decide⟩
  have e4 : (peek (gemm (K := Gi) .rowMajor conjNoTrans noTrans 1 1 1 1 0 1 1 1 0 2 1 exGi) fun _ m => m 2) = .ok (.val ⟨0, 1⟩) := by
    decide
  rw [e1] at e4
  have e5 : m' 2 = .val ⟨0, 1⟩ := by simpa [peek] using e4
  rw [show (2 : Int) + idx .rowMajor 1 0 0 = 2 by decide, e5] at e3
  revert e3
  decide

/-- A memory for the examples: 2x3 at 0 with leading dimension 4 and gaps, 3x2 at 10, room for 2x2 at 20 with leading
dimension 3. -/
def exMul : Mem Int := fun a =>
  if a = 3 ∨ a = 7 then .out
  else if 0 ≤ a ∧ a < 7 then .val (a + 1)
  else if 10 ≤ a ∧ a < 16 then .val (a - 10)
  else if a = 20 ∨ a = 21 ∨ a = 23 ∨ a = 24 then .raw
  else .out

example : MatAt exMul 0 .rowMajor 4 (full 2 3) (fun i j => 4 * (i : Int) + j + 1) ∧
    MatAt exMul 10 .rowMajor 2 (full 3 2) (fun i j => 2 * (i : Int) + j) ∧ MatMem exMul 20 .rowMajor 3 (full 2 2) ∧
    StDisj (matAd 0 .rowMajor 4) (full 2 3) (matAd 20 .rowMajor 3) (full 2 2) ∧
    StDisj (matAd 10 .rowMajor 2) (full 3 2) (matAd 20 .rowMajor 3) (full 2 2) := by
  refine ⟨fun i j h => ?_, fun i j h => ?_, fun i j h => ?_, fun i j k l h h' => ?_, fun i j k l h h' => ?_⟩
  · obtain ⟨h1, h2⟩ := h
    interval_cases i <;> interval_cases j <;> decide
  · obtain ⟨h1, h2⟩ := h
    interval_cases i <;> interval_cases j <;> decide
  · obtain ⟨h1, h2⟩ := h
    interval_cases i <;> interval_cases j <;> decide
  · obtain ⟨h1, h2⟩ := h
    obtain ⟨h3, h4⟩ := h'
    interval_cases i <;> interval_cases j <;> interval_cases k <;> interval_cases l <;> decide
  · obtain ⟨h1, h2⟩ := h
    obtain ⟨h3, h4⟩ := h'
    interval_cases i <;> interval_cases j <;> interval_cases k <;> interval_cases l <;> decide

example : (peek (gemm (K := Int) .rowMajor noTrans noTrans 2 2 3 10 0 4 10 2 0 20 3 exMul) fun _ m => (m 20, m 21, m 23, m 24, m 22)) =
    .ok (.val 160, .val 220, .val 400, .val 580, .out) := by decide

/-! ### C83: products with symmetric and hermitian matrices -/

section symm
variable [CommRing K] [StarRing K] [DecidableEq K] {o : Order} {s : Side} {u : UpLo} {r c : Nat} {alpha beta : K}
  {A ldA B ldB C ldC : Int} {m : Mem K} {QA QB QC : Nat → Nat → K}

theorem symM_comm (u : UpLo) (Q : Nat → Nat → K) (i j : Nat) : symM u Q i j = symM u Q j i := by
  rcases lt_trichotomy i j with h | h | h
  · cases u <;> simp [symM, h.le, not_le.2 h]
  · subst h; rfl
  · cases u <;> simp [symM, h.le, not_le.2 h]

/-- `gescal_init` and then one pass per column or row with `beta = 1`, for the product with a matrix of order `sideDim s r c`. -/
theorem side_run (fL fR : Nat → M K Unit) (S : Nat → Nat → K) {ad : Nat → Nat → Int} {P : Nat → Nat → Prop}
    (hA : StAt m ad P QA) (hB : MatAt m B .rowMajor ldB (full r c) QB)
    (hC : MatMem m C .rowMajor ldC (full r c)) (hb : beta ≠ 0 → MatAt m C .rowMajor ldC (full r c) QC)
    (hlB : (c : Int) ≤ ldB) (hlC : (c : Int) ≤ ldC) (hdA : StDisj ad P (matAd C .rowMajor ldC) (full r c))
    (hdB : StDisj (matAd B .rowMajor ldB) (full r c) (matAd C .rowMajor ldC) (full r c))
    (hL : s = .left → ∀ l, l < c → ∀ m' v w, StAt m' ad P QA → VecAt m' (B + l) ldB r v → VecAt m' (C + l) ldC r w → ldC ≠ 0 →
      StVecDisj ad P (C + l) ldC r → VecDisj (B + l) ldB r (C + l) ldC r →
      Yields (fL l) m' (C + l) ldC r fun i => w i + alpha * ∑ j ∈ range r, S i j * v j)
    (hR : s = .right → ∀ l, l < r → ∀ m' v w, StAt m' ad P QA → VecAt m' (B + l * ldB) 1 c v → VecAt m' (C + l * ldC) 1 c w →
      StVecDisj ad P (C + l * ldC) 1 c → VecDisj (B + l * ldB) 1 c (C + l * ldC) 1 c →
      Yields (fR l) m' (C + l * ldC) 1 c fun i => w i + alpha * ∑ j ∈ range c, S j i * v j) :
    YieldsMat (do
        gescalInit .rowMajor r c beta C ldC
        match s with
        | .right => loop r fR
        | .left => loop c fL) m C .rowMajor ldC (full r c) fun i j => beta * QC i j + alpha * sideMul s r c S QB i j := by
  refine (gescalInit_row hC hb hlC).bind fun m' hV ho => ?_
  have hA' := hA.only ho hdA
  have hB' : StAt m' (matAd B .rowMajor ldB) _ QB := StAt.only hB ho hdB
  cases s
  · refine cols_run hlC _ fun l hl m'' ho' => ?_
    have ho2 := ho'.mono (P' := full r c) fun i j hp => ⟨hp.1, hp.2.trans hl⟩
    have hB2 : MatAt m'' B .rowMajor ldB (full r c) QB := hB'.only ho2 hdB
    exact hL rfl l hl m'' (fun j => QB j l) _ (hA'.only ho2 hdA) (vecAt_col hB2 (by omega) hl)
      (vecAt_col' hV hlC hl ho') (by omega) (disj_col hdA (by omega) hl) (disj_colVec (disj_col hdB (by omega) hl) (by omega) hl)
  · refine lines_run hlC _ fun l hl m'' ho' => ?_
    have ho2 := ho'.mono (P' := full r c) fun i j hp => ⟨hp.1.trans hl, hp.2⟩
    have hB2 : MatAt m'' B .rowMajor ldB (full r c) QB := hB'.only ho2 hdB
    refine (hR rfl l hl m'' (fun j => QB l j) _ (hA'.only ho2 hdA) (vecAt_row hB2 hl) (vecAt_row' hV hlC hl ho')
      (disj_row hdA hl) (disj_rowVec (disj_row hdB hl) hl)).congr fun i _ => ?_
    simp only [sideMul]
    congr 2
    exact sum_congr rfl fun j _ => mul_comm _ _

theorem vecMem_of_at {x inc : Int} {n : Nat} {v : Nat → K} (h : VecAt m x inc n v) : VecMem m x inc n :=
  fun i hi => by rw [h i hi]; simp

theorem symmRow_run (hA : MatAt m A .rowMajor ldA (tri u (sideDim s r c)) QA) (hB : MatAt m B .rowMajor ldB (full r c) QB)
    (hC : MatMem m C .rowMajor ldC (full r c)) (hb : beta ≠ 0 → MatAt m C .rowMajor ldC (full r c) QC)
    (hlB : (c : Int) ≤ ldB) (hlC : (c : Int) ≤ ldC)
    (hdA : StDisj (matAd A .rowMajor ldA) (tri u (sideDim s r c)) (matAd C .rowMajor ldC) (full r c))
    (hdB : StDisj (matAd B .rowMajor ldB) (full r c) (matAd C .rowMajor ldC) (full r c)) :
    YieldsMat (symmRow s u r c alpha A ldA B ldB beta C ldC) m C .rowMajor ldC (full r c) fun i j =>
      beta * QC i j + alpha * sideMul s r c (symM u QA) QB i j := by
  refine side_run _ _ (symM u QA) (ad := matAd A .rowMajor ldA) hA hB hC hb hlB hlC hdA hdB ?_ ?_
  · rintro rfl l hl m' v w h1 h2 h3 h0 h4 h5
    refine (C76_symv (beta := 1) h1 h2 (vecMem_of_at h3) (fun _ => h3) h0 h4 h5).congr fun i _ => ?_
    rw [one_mul]; rfl
  · rintro rfl l hl m' v w h1 h2 h3 h4 h5
    refine (C76_symv (beta := 1) h1 h2 (vecMem_of_at h3) (fun _ => h3) (by decide) h4 h5).congr fun i _ => ?_
    rw [one_mul]
    congr 2
    exact sum_congr rfl fun j _ => by rw [symM_comm]

omit [StarRing K] [DecidableEq K] in
theorem sideMul_sw (s : Side) (r c : Nat) (S B : Nat → Nat → K) (i j : Nat) :
    sideMul s.flip c r (sw S) (sw B) i j = sideMul s r c S B j i := by
  cases s <;> exact sum_congr rfl fun k _ => mul_comm _ _

theorem sideDim_flip (s : Side) (r c : Nat) : sideDim s.flip c r = sideDim s r c := by cases s <;> rfl

/-- **C83** `symm`: `C := beta C + alpha S B` or `beta C + alpha B S` for the symmetric matrix `S` with the stored triangle; the
other triangle is not read, and with `beta = 0` the old `C` may be uninitialised. -/
theorem C83_symm (hA : MatAt m A o ldA (tri u (sideDim s r c)) QA) (hB : MatAt m B o ldB (full r c) QB)
    (hC : MatMem m C o ldC (full r c)) (hb : beta ≠ 0 → MatAt m C o ldC (full r c) QC)
    (hlB : LdOk o ldB r c) (hlC : LdOk o ldC r c)
    (hdA : StDisj (matAd A o ldA) (tri u (sideDim s r c)) (matAd C o ldC) (full r c))
    (hdB : StDisj (matAd B o ldB) (full r c) (matAd C o ldC) (full r c)) :
    YieldsMat (symm o s u r c alpha A ldA B ldB beta C ldC) m C o ldC (full r c) fun i j =>
      beta * QC i j + alpha * sideMul s r c (symM u QA) QB i j := by
  cases o
  · exact symmRow_run hA hB hC hb hlB hlC hdA hdB
  · have hC' := matMem_col.1 hC
    have hdA' := stDisj_col hdA
    have hdB' := stDisj_col hdB
    rw [matAt_col, sw_tri, ← sideDim_flip] at hA
    rw [matAt_col, sw_full] at hB
    rw [sw_full] at hC'
    rw [sw_tri, sw_full, ← sideDim_flip] at hdA'
    rw [sw_full] at hdB'
    refine yieldsMat_col ?_
    rw [sw_full]
    refine (symmRow_run hA hB hC' (fun h => by have := matAt_col.1 (hb h); rwa [sw_full] at this) hlB hlC hdA' hdB').congr
      fun i j _ => ?_
    have e : symM u QA = sw (symM u QA) := by funext i j; exact symM_comm u QA i j
    rw [sw_symM]
    refine (congrArg (fun S => beta * sw QC i j + alpha * sideMul s.flip c r S (sw QB) i j) e).trans ?_
    beta_reduce
    rw [sideMul_sw]
    rfl

theorem star_herM {re : K → K} (hre : ∀ v, star (re v) = re v) (u : UpLo) (Q : Nat → Nat → K) (i j : Nat) :
    star (herM re u Q i j) = herM re u Q j i := by
  rcases lt_trichotomy i j with h | h | h
  · cases u <;> simp [herM, h.ne, h.ne', h, h.le, not_lt.2 h.le]
  · subst h; simp [herM, hre]
  · cases u <;> simp [herM, h.ne, h.ne', h, h.le, not_lt.2 h.le]

theorem hemmRow_run {re : K → K} (hre : ∀ v, star (re v) = re v) (hA : MatAt m A .rowMajor ldA (tri u (sideDim s r c)) QA)
    (hB : MatAt m B .rowMajor ldB (full r c) QB)
    (hC : MatMem m C .rowMajor ldC (full r c)) (hb : beta ≠ 0 → MatAt m C .rowMajor ldC (full r c) QC)
    (hlB : (c : Int) ≤ ldB) (hlC : (c : Int) ≤ ldC)
    (hdA : StDisj (matAd A .rowMajor ldA) (tri u (sideDim s r c)) (matAd C .rowMajor ldC) (full r c))
    (hdB : StDisj (matAd B .rowMajor ldB) (full r c) (matAd C .rowMajor ldC) (full r c)) :
    YieldsMat (hemmRow re s u r c alpha A ldA B ldB beta C ldC) m C .rowMajor ldC (full r c) fun i j =>
      beta * QC i j + alpha * sideMul s r c (herM re u QA) QB i j := by
  refine side_run _ _ (herM re u QA) (ad := matAd A .rowMajor ldA) hA hB hC hb hlB hlC hdA hdB ?_ ?_
  · rintro rfl l hl m' v w h1 h2 h3 h0 h4 h5
    refine (C76_hemv (beta := 1) (conj := false) hre h1 h2 (vecMem_of_at h3) (fun _ => h3) h0 h4 h5).congr fun i _ => ?_
    rw [one_mul]; rfl
  · rintro rfl l hl m' v w h1 h2 h3 h4 h5
    refine (C76_hemv (beta := 1) (conj := true) hre h1 h2 (vecMem_of_at h3) (fun _ => h3) (by decide) h4 h5).congr fun i _ => ?_
    rw [one_mul]
    congr 2
    exact sum_congr rfl fun j _ => by rw [cj, if_pos rfl, star_herM hre]

theorem herM_sw (re : K → K) (u : UpLo) (Q : Nat → Nat → K) :
    herM re u.flip (sw Q) = sw (herM re u Q) := by
  funext i j
  rcases lt_trichotomy i j with h | h | h
  · cases u <;> simp [herM, UpLo.flip, sw, h.ne, h.ne', h, h.le, not_lt.2 h.le]
  · subst h; simp [herM, sw]
  · cases u <;> simp [herM, UpLo.flip, sw, h.ne, h.ne', h, h.le, not_lt.2 h.le]

/-- **C83** `hemm`: the same for the hermitian matrix with the stored triangle; the imaginary part of the diagonal does not
matter. -/
theorem C83_hemm {re : K → K} (hre : ∀ v, star (re v) = re v) (hA : MatAt m A o ldA (tri u (sideDim s r c)) QA)
    (hB : MatAt m B o ldB (full r c) QB)
    (hC : MatMem m C o ldC (full r c)) (hb : beta ≠ 0 → MatAt m C o ldC (full r c) QC)
    (hlB : LdOk o ldB r c) (hlC : LdOk o ldC r c)
    (hdA : StDisj (matAd A o ldA) (tri u (sideDim s r c)) (matAd C o ldC) (full r c))
    (hdB : StDisj (matAd B o ldB) (full r c) (matAd C o ldC) (full r c)) :
    YieldsMat (hemm re o s u r c alpha A ldA B ldB beta C ldC) m C o ldC (full r c) fun i j =>
      beta * QC i j + alpha * sideMul s r c (herM re u QA) QB i j := by
  cases o
  · exact hemmRow_run hre hA hB hC hb hlB hlC hdA hdB
  · have hC' := matMem_col.1 hC
    have hdA' := stDisj_col hdA
    have hdB' := stDisj_col hdB
    rw [matAt_col, sw_tri, ← sideDim_flip] at hA
    rw [matAt_col, sw_full] at hB
    rw [sw_full] at hC'
    rw [sw_tri, sw_full, ← sideDim_flip] at hdA'
    rw [sw_full] at hdB'
    refine yieldsMat_col ?_
    rw [sw_full]
    refine (hemmRow_run hre hA hB hC' (fun h => by have := matAt_col.1 (hb h); rwa [sw_full] at this) hlB hlC hdA' hdB').congr
      fun i j _ => ?_
    rw [herM_sw re, sideMul_sw]
    rfl

end symm

/-- The upper triangle of a 2x2 matrix at 0, the lower one missing; a 2x1 matrix at 10 and room for another at 20. -/
def exSy3 : Mem Int := fun a =>
  if a = 0 then .val 1 else if a = 1 then .val 2 else if a = 3 then .val 4
  else if a = 10 then .val 5 else if a = 11 then .val 6 else if a = 20 ∨ a = 21 then .raw else .out

example : MatAt exSy3 0 .rowMajor 2 (tri .upper (sideDim .left 2 1)) (fun i j => if i = 1 then 4 else if j = 1 then 2 else 1) ∧
    MatAt exSy3 10 .rowMajor 1 (full 2 1) (fun i _ => (i : Int) + 5) ∧ MatMem exSy3 20 .rowMajor 1 (full 2 1) ∧
    StDisj (matAd 0 .rowMajor 2) (tri .upper (sideDim .left 2 1)) (matAd 20 .rowMajor 1) (full 2 1) ∧
    StDisj (matAd 10 .rowMajor 1) (full 2 1) (matAd 20 .rowMajor 1) (full 2 1) := by
  refine ⟨fun i j h => ?_, fun i j h => ?_, fun i j h => ?_, fun i j k l h h' => ?_, fun i j k l h h' => ?_⟩
  · obtain ⟨h1, h2, h3⟩ := h
    change i < 2 at h1
    change j < 2 at h2
    interval_cases i <;> interval_cases j <;> first | decide | (exact absurd h3 (by decide))
  · obtain ⟨h1, h2⟩ := h
    interval_cases i <;> interval_cases j <;> decide
  · obtain ⟨h1, h2⟩ := h
    interval_cases i <;> interval_cases j <;> decide
  · obtain ⟨h1, h2, h5⟩ := h
    change i < 2 at h1
    change j < 2 at h2
    obtain ⟨h3, h4⟩ := h'
    interval_cases i <;> interval_cases j <;> interval_cases k <;> interval_cases l <;> decide
  · obtain ⟨h1, h2⟩ := h
    obtain ⟨h3, h4⟩ := h'
    interval_cases i <;> interval_cases j <;> interval_cases k <;> interval_cases l <;> decide

example : (peek (symm (K := Int) .rowMajor .left .upper 2 1 1 0 2 10 1 0 20 1 exSy3) fun _ m => (m 20, m 21)) =
    .ok (.val 17, .val 34) := by decide

/-! ### C84: rank-k updates -/

section rankk
variable [CommRing K] [StarRing K] [DecidableEq K] {o : Order} {u : UpLo} {t : Trans} {n k : Nat} {alpha beta : K}
  {A ldA B ldB C ldC : Int} {m : Mem K} {QA QB QC : Nat → Nat → K}

theorem triScal_eq (sc : Nat → Int → Int → M K Unit) (u : UpLo) (n : Nat) (A ld : Int) :
    triScal sc u n A ld = loop n fun i => sc (triLen u n i) (A + i * ld + triS u i) 1 := by
  cases u
  · simp only [triScal, triLen, triS, triRow_upper]
  · simp only [triScal, triLen, triS, Nat.cast_zero, add_zero]

theorem syscalInit_row [Nontrivial K] (hC : MatMem m C .rowMajor ldC (tri u n))
    (hb : beta ≠ 0 → MatAt m C .rowMajor ldC (tri u n) QC) (hld : (n : Int) ≤ ldC) :
    YieldsMat (syscalInit .rowMajor u n beta C ldC) m C .rowMajor ldC (tri u n) fun i j => beta * QC i j := by
  unfold syscalInit
  by_cases h : beta = 1
  · rw [if_pos h]
    have := hb (by rw [h]; exact one_ne_zero)
    refine ⟨m, rfl, fun i j hp => ?_, fun _ _ => rfl⟩
    rw [this i j hp, h]; simp
  · rw [if_neg h, show effUpLo .rowMajor u = u from rfl, triScal_eq]
    refine tri_run hld _ fun l hl m' ho => ?_
    exact yields_scalInit ⟨vecMem_tri' hC hld hl ho, fun h => vecAt_tri' (hb h) hld hl ho⟩ (by decide)

/-- Row or column `l` of the operand: column `l` of `op(A)`. -/
theorem op_vec (t : Trans) (n k : Nat) (hA : MatAt m A .rowMajor ldA (full (opRows t n k) (opCols t n k)) QA)
    (hl : LdOk .rowMajor ldA (opRows t n k) (opCols t n k))
    {ad : Nat → Nat → Int} {P : Nat → Nat → Prop}
    (hd : StDisj (matAd A .rowMajor ldA) (full (opRows t n k) (opCols t n k)) ad P) {l : Nat} (hlk : l < k) :
    (t.trans = false → VecAt m (A + l) ldA n (fun i => QA i l) ∧ StVecDisj ad P (A + l) ldA n) ∧
    (t.trans = true → VecAt m (A + l * ldA) 1 n (fun i => QA l i) ∧ StVecDisj ad P (A + l * ldA) 1 n) := by
  constructor
  · intro h
    have e1 : opRows t n k = n := by simp [opRows, h]
    have e2 : opCols t n k = k := by simp [opCols, h]
    rw [e1, e2] at hA hl hd
    have h0 : 0 ≤ ldA := by have : (k : Int) ≤ ldA := hl; omega
    refine ⟨vecAt_col hA h0 hlk, fun i j q hp hq e => ?_⟩
    rw [elem_col h0] at e
    exact hd q l i j ⟨hq, hlk⟩ hp e.symm
  · intro h
    have e1 : opRows t n k = k := by simp [opRows, h]
    have e2 : opCols t n k = n := by simp [opCols, h]
    rw [e1, e2] at hA hl hd
    refine ⟨vecAt_row hA hlk, fun i j q hp hq e => ?_⟩
    rw [elem_row] at e
    exact hd l q i j ⟨hlk, hq⟩ hp e.symm

/-- `transpose` without conjugation. -/
def Trans.noConj (t : Trans) : Trans := ⟨false, t.trans⟩

theorem opM_noConj (t : Trans) (Q : Nat → Nat → K) (i j : Nat) : opM t.noConj Q i j = if t.trans then Q j i else Q i j := by
  unfold opM Trans.noConj cj; cases t.trans <;> rfl

theorem syrkRow_run [Nontrivial K] (hA : MatAt m A .rowMajor ldA (full (opRows t n k) (opCols t n k)) QA)
    (hC : MatMem m C .rowMajor ldC (tri u n)) (hb : beta ≠ 0 → MatAt m C .rowMajor ldC (tri u n) QC)
    (hlA : LdOk .rowMajor ldA (opRows t n k) (opCols t n k)) (hlC : (n : Int) ≤ ldC)
    (hdA : StDisj (matAd A .rowMajor ldA) (full (opRows t n k) (opCols t n k)) (matAd C .rowMajor ldC) (tri u n)) :
    YieldsMat (syrkRow u t n k alpha A ldA beta C ldC) m C .rowMajor ldC (tri u n) fun i j =>
      beta * QC i j + alpha * ∑ l ∈ range k, opM t.noConj QA i l * opM t.noConj QA j l := by
  refine (syscalInit_row hC hb hlC).bind fun m' hV ho => ?_
  have hA' : StAt m' (matAd A .rowMajor ldA) _ QA := StAt.only hA ho hdA
  have step : ∀ (f : Nat → M K Unit), (∀ l, l < k → ∀ m'' W, StAt m'' (matAd A .rowMajor ldA)
        (full (opRows t n k) (opCols t n k)) QA → MatAt m'' C .rowMajor ldC (tri u n) W →
        YieldsMat (f l) m'' C .rowMajor ldC (tri u n) fun i j => W i j + alpha * (opM t.noConj QA i l * opM t.noConj QA j l)) →
      YieldsMat (loop k f) m' C .rowMajor ldC (tri u n) fun i j =>
        beta * QC i j + alpha * ∑ l ∈ range k, opM t.noConj QA i l * opM t.noConj QA j l := by
    intro f hf
    refine YieldsMat.loop (fun q i j => beta * QC i j + alpha * ∑ l ∈ range q, opM t.noConj QA i l * opM t.noConj QA j l)
      (by simpa using hV) k fun l hl m'' hW ho' => ?_
    refine (hf l hl m'' _ (hA'.only ho' hdA) hW).congr fun i j _ => ?_
    beta_reduce
    rw [sum_range_succ]; ring
  cases ht : t.trans
  · refine step _ fun l hl m'' W h1 hW => ?_
    obtain ⟨h2, h3⟩ := (op_vec t n k h1 hlA hdA hl).1 ht
    refine (C75_syr hW h2 hlC h3).congr fun i j _ => ?_
    simp only [opM_noConj, ht]; rfl
  · refine step _ fun l hl m'' W h1 hW => ?_
    obtain ⟨h2, h3⟩ := (op_vec t n k h1 hlA hdA hl).2 ht
    refine (C75_syr hW h2 hlC h3).congr fun i j _ => ?_
    simp only [opM_noConj, ht]; rfl

theorem opRows_flip (t : Trans) (r c : Nat) : opRows t.flip r c = opCols t r c := by
  unfold opRows opCols Trans.flip; cases t.trans <;> rfl

theorem opCols_flip (t : Trans) (r c : Nat) : opCols t.flip r c = opRows t r c := by
  unfold opRows opCols Trans.flip; cases t.trans <;> rfl

/-- **C84** `syrk`: the triangle of `beta C + alpha op(A) op(A)ᵀ`, with `op(A)` one of `A` and `Aᵀ` (a conjugation asked for is
ignored); the other triangle is not touched, and with `beta = 0` the old triangle may be uninitialised. -/
theorem C84_syrk [Nontrivial K] (hA : MatAt m A o ldA (full (opRows t n k) (opCols t n k)) QA)
    (hC : MatMem m C o ldC (tri u n)) (hb : beta ≠ 0 → MatAt m C o ldC (tri u n) QC)
    (hlA : LdOk o ldA (opRows t n k) (opCols t n k)) (hlC : (n : Int) ≤ ldC)
    (hdA : StDisj (matAd A o ldA) (full (opRows t n k) (opCols t n k)) (matAd C o ldC) (tri u n)) :
    YieldsMat (syrk o u t n k alpha A ldA beta C ldC) m C o ldC (tri u n) fun i j =>
      beta * QC i j + alpha * ∑ l ∈ range k, opM t.noConj QA i l * opM t.noConj QA j l := by
  cases o
  · exact syrkRow_run hA hC hb hlA hlC hdA
  · have hC' := matMem_col.1 hC
    have hdA' := stDisj_col hdA
    rw [matAt_col, sw_full, ← opCols_flip, ← opRows_flip t] at hA
    rw [sw_tri] at hC'
    rw [sw_tri, sw_full, ← opCols_flip, ← opRows_flip t] at hdA'
    have hlA' : LdOk .rowMajor ldA (opRows t.flip n k) (opCols t.flip n k) := by
      rw [opCols_flip]; exact hlA
    refine yieldsMat_col ?_
    rw [sw_tri]
    refine (syrkRow_run (t := t.flip) hA hC' (fun h => by have := matAt_col.1 (hb h); rwa [sw_tri] at this) hlA' hlC hdA').congr
      fun i j _ => ?_
    have e : opM t.flip.noConj (sw QA) = opM t.noConj QA := opM_flip t.noConj QA
    rw [e]
    simp only [sw]
    congr 2
    exact sum_congr rfl fun l _ => mul_comm _ _

theorem syr2kRow_run [Nontrivial K] (hA : MatAt m A .rowMajor ldA (full (opRows t n k) (opCols t n k)) QA)
    (hB : MatAt m B .rowMajor ldB (full (opRows t n k) (opCols t n k)) QB)
    (hC : MatMem m C .rowMajor ldC (tri u n)) (hb : beta ≠ 0 → MatAt m C .rowMajor ldC (tri u n) QC)
    (hlA : LdOk .rowMajor ldA (opRows t n k) (opCols t n k)) (hlB : LdOk .rowMajor ldB (opRows t n k) (opCols t n k))
    (hlC : (n : Int) ≤ ldC)
    (hdA : StDisj (matAd A .rowMajor ldA) (full (opRows t n k) (opCols t n k)) (matAd C .rowMajor ldC) (tri u n))
    (hdB : StDisj (matAd B .rowMajor ldB) (full (opRows t n k) (opCols t n k)) (matAd C .rowMajor ldC) (tri u n)) :
    YieldsMat (syr2kRow u t n k alpha A ldA B ldB beta C ldC) m C .rowMajor ldC (tri u n) fun i j =>
      beta * QC i j + alpha * ∑ l ∈ range k,
        (opM t.noConj QA i l * opM t.noConj QB j l + opM t.noConj QB i l * opM t.noConj QA j l) := by
  refine (syscalInit_row hC hb hlC).bind fun m' hV ho => ?_
  have hA' : StAt m' (matAd A .rowMajor ldA) _ QA := StAt.only hA ho hdA
  have hB' : StAt m' (matAd B .rowMajor ldB) _ QB := StAt.only hB ho hdB
  have step : ∀ (f : Nat → M K Unit), (∀ l, l < k → ∀ m'' W, StAt m'' (matAd A .rowMajor ldA)
        (full (opRows t n k) (opCols t n k)) QA → StAt m'' (matAd B .rowMajor ldB)
        (full (opRows t n k) (opCols t n k)) QB → MatAt m'' C .rowMajor ldC (tri u n) W →
        YieldsMat (f l) m'' C .rowMajor ldC (tri u n) fun i j => W i j + alpha *
          (opM t.noConj QA i l * opM t.noConj QB j l + opM t.noConj QB i l * opM t.noConj QA j l)) →
      YieldsMat (loop k f) m' C .rowMajor ldC (tri u n) fun i j =>
        beta * QC i j + alpha * ∑ l ∈ range k,
          (opM t.noConj QA i l * opM t.noConj QB j l + opM t.noConj QB i l * opM t.noConj QA j l) := by
    intro f hf
    refine YieldsMat.loop (fun q i j => beta * QC i j + alpha * ∑ l ∈ range q,
        (opM t.noConj QA i l * opM t.noConj QB j l + opM t.noConj QB i l * opM t.noConj QA j l))
      (by simpa using hV) k fun l hl m'' hW ho' => ?_
    refine (hf l hl m'' _ (hA'.only ho' hdA) (hB'.only ho' hdB) hW).congr fun i j _ => ?_
    beta_reduce
    rw [sum_range_succ]; ring
  cases ht : t.trans
  · refine step _ fun l hl m'' W h1 h2 hW => ?_
    obtain ⟨h3, h4⟩ := (op_vec t n k h1 hlA hdA hl).1 ht
    obtain ⟨h5, h6⟩ := (op_vec t n k h2 hlB hdB hl).1 ht
    refine (C75_syr2 hW h3 h5 hlC h4 h6).congr fun i j _ => ?_
    simp only [opM_noConj, ht]; rfl
  · refine step _ fun l hl m'' W h1 h2 hW => ?_
    obtain ⟨h3, h4⟩ := (op_vec t n k h1 hlA hdA hl).2 ht
    obtain ⟨h5, h6⟩ := (op_vec t n k h2 hlB hdB hl).2 ht
    refine (C75_syr2 hW h3 h5 hlC h4 h6).congr fun i j _ => ?_
    simp only [opM_noConj, ht]; rfl

/-- **C84** `syr2k`: the triangle of `beta C + alpha (op(A) op(B)ᵀ + op(B) op(A)ᵀ)`. -/
theorem C84_syr2k [Nontrivial K] (hA : MatAt m A o ldA (full (opRows t n k) (opCols t n k)) QA)
    (hB : MatAt m B o ldB (full (opRows t n k) (opCols t n k)) QB)
    (hC : MatMem m C o ldC (tri u n)) (hb : beta ≠ 0 → MatAt m C o ldC (tri u n) QC)
    (hlA : LdOk o ldA (opRows t n k) (opCols t n k)) (hlB : LdOk o ldB (opRows t n k) (opCols t n k)) (hlC : (n : Int) ≤ ldC)
    (hdA : StDisj (matAd A o ldA) (full (opRows t n k) (opCols t n k)) (matAd C o ldC) (tri u n))
    (hdB : StDisj (matAd B o ldB) (full (opRows t n k) (opCols t n k)) (matAd C o ldC) (tri u n)) :
    YieldsMat (syr2k o u t n k alpha A ldA B ldB beta C ldC) m C o ldC (tri u n) fun i j =>
      beta * QC i j + alpha * ∑ l ∈ range k,
        (opM t.noConj QA i l * opM t.noConj QB j l + opM t.noConj QB i l * opM t.noConj QA j l) := by
  cases o
  · exact syr2kRow_run hA hB hC hb hlA hlB hlC hdA hdB
  · have hC' := matMem_col.1 hC
    have hdA' := stDisj_col hdA
    have hdB' := stDisj_col hdB
    rw [matAt_col, sw_full, ← opCols_flip, ← opRows_flip t] at hA hB
    rw [sw_tri] at hC'
    rw [sw_tri, sw_full, ← opCols_flip, ← opRows_flip t] at hdA' hdB'
    have e2 : opCols t.flip n k = opRows t n k := opCols_flip t n k
    refine yieldsMat_col ?_
    rw [sw_tri]
    refine (syr2kRow_run (t := t.flip) hA hB hC' (fun h => by have := matAt_col.1 (hb h); rwa [sw_tri] at this)
      (by rw [e2]; exact hlA) (by rw [e2]; exact hlB) hlC hdA' hdB').congr fun i j _ => ?_
    have e : ∀ Q : Nat → Nat → K, opM t.flip.noConj (sw Q) = opM t.noConj Q := fun Q => opM_flip t.noConj Q
    rw [e, e]
    simp only [sw]
    congr 2
    exact sum_congr rfl fun l _ => by ring

/-! Hermitian updates. -/

variable {re : K → K}

theorem hescal_row (hC : MatAt m C .rowMajor ldC (tri u n) QC) (hld : (n : Int) ≤ ldC) (h1 : beta ≠ 1) :
    YieldsMat (hescal re .rowMajor u n beta C ldC) m C .rowMajor ldC (tri u n) (realD re fun i j => beta * QC i j) := by
  unfold hescal
  rw [if_neg h1, show effUpLo .rowMajor u = u from rfl, triScal_eq]
  have hs : YieldsMat (loop n fun i => scal (triLen u n i) beta (C + i * ldC + triS u i) 1) m C .rowMajor ldC (tri u n)
      fun i j => beta * QC i j := tri_run hld _ fun l hl m' ho => yields_scal (vecAt_tri' hC hld hl ho) (by decide)
  refine hs.bind fun m' hV _ => ?_
  have hd : ∀ i, i < n → tri u n i i := fun i hi => ⟨hi, hi, by cases u <;> exact Nat.le_refl i⟩
  have hdia : ∀ q, q ≤ n → YieldsMat (loop q fun i => do
        let a ← load (C + i * (ldC + 1))
        store (C + i * (ldC + 1)) (re a)) m' C .rowMajor ldC (tri u n)
      fun i j => if i = j ∧ i < q then re (beta * QC i i) else beta * QC i j := by
    intro q hq
    refine YieldsMat.loop (fun q i j => if i = j ∧ i < q then re (beta * QC i i) else beta * QC i j) (by simpa using hV) q
      fun l hl m'' hW _ => ?_
    have hln : l < n := by omega
    have hval := hW l l (hd l hln)
    simp only [lt_irrefl, and_false, if_false] at hval
    have ead : C + (l : Int) * (ldC + 1) = C + idx .rowMajor ldC l l := by simp only [idx]; ring
    have hrun : (do
        let a ← load (C + (l : Int) * (ldC + 1))
        store (C + (l : Int) * (ldC + 1)) (re a) : M K Unit) m'' =
        .ok ((), set m'' (C + idx .rowMajor ldC l l) (re (beta * QC l l))) := by
      rw [ead]
      exact (bind_ok (load_ok hval)).trans (store_ok (by rw [hval]; simp))
    refine ⟨_, hrun, fun i j hp => ?_, fun a ha => set_ne _ _ (ha l l (hd l hln))⟩
    by_cases e : i = l ∧ j = l
    · obtain ⟨rfl, rfl⟩ := e
      rw [set_same]; simp
    · rw [set_ne, hW i j hp]
      · congr 1
        refine if_congr ?_ rfl rfl
        constructor
        · exact fun h => ⟨h.1, by omega⟩
        · exact fun h => ⟨h.1, by omega⟩
      · intro h
        have h2 := hp.2.1
        exact e (matAd_inj (by omega) (by omega) h)
  refine (hdia n (Nat.le_refl n)).congr fun i j hp => ?_
  by_cases e : i = j
  · subst e; rw [if_pos ⟨rfl, hp.1⟩]; simp [realD]
  · rw [if_neg fun h => e h.1]; simp [realD, e]

theorem realD_absorb (hre : ∀ a b, re (re a + b) = re (a + b)) (V W : Nat → Nat → K) :
    realD re (fun i j => realD re V i j + W i j) = realD re fun i j => V i j + W i j := by
  funext i j
  by_cases e : i = j
  · subst e; simp [realD, hre]
  · simp [realD, e]

/-- Updates `her`/`her2` after `hescal`: either nothing has happened, or the diagonal is real. -/
theorem herk_loop (hre : ∀ a b, re (re a + b) = re (a + b)) (f : Nat → M K Unit) (W : Nat → Nat → Nat → K)
    (hV : MatAt m C .rowMajor ldC (tri u n) (if beta = 1 then QC else realD re fun i j => beta * QC i j))
    (hk : k ≠ 0 ∨ beta ≠ 1)
    (hf : ∀ l, l < k → ∀ m' V, MatAt m' C .rowMajor ldC (tri u n) V → OnlyMat m m' C .rowMajor ldC (tri u n) →
      YieldsMat (f l) m' C .rowMajor ldC (tri u n) (realD re fun i j => V i j + W l i j)) :
    YieldsMat (loop k f) m C .rowMajor ldC (tri u n) (realD re fun i j => beta * QC i j + ∑ l ∈ range k, W l i j) := by
  have h := YieldsMat.loop (f := f) (m := m) (A := C) (o := .rowMajor) (ld := ldC) (P := tri u n)
    (fun q => if q = 0 then (if beta = 1 then QC else realD re fun i j => beta * QC i j)
      else realD re fun i j => beta * QC i j + ∑ l ∈ range q, W l i j) (by simpa using hV) k fun l hl m' hm ho => ?_
  · refine h.congr fun i j _ => ?_
    by_cases h0 : k = 0
    · subst h0
      simp only [if_true, range_zero, sum_empty, add_zero]
      rw [if_neg (by tauto)]
    · rw [if_neg h0]
  · refine (hf l hl m' _ hm ho).congr fun i j _ => ?_
    rw [if_neg (Nat.succ_ne_zero l)]
    by_cases h0 : l = 0
    · subst h0
      simp only [if_true, zero_add, range_one, sum_singleton]
      by_cases hb : beta = 1
      · subst hb; simp only [if_true, one_mul]
      · rw [if_neg hb, realD_absorb hre]
    · rw [if_neg h0, realD_absorb hre]
      congr 1
      funext i j
      rw [sum_range_succ]; ring

/-- The updates that `herk` and `her2k` know. -/
def Trans.herk (t : Trans) : Prop := t = noTrans ∨ t = conjTrans

theorem herk_alpha0 (hre : ∀ a b, re (re a + b) = re (a + b)) (W : Nat → Nat → K) (hW : ∀ i j, W i j = 0)
    (hC : MatAt m C .rowMajor ldC (tri u n) QC) (hlC : (n : Int) ≤ ldC) (h1 : beta ≠ 1) :
    YieldsMat (hescal re .rowMajor u n beta C ldC) m C .rowMajor ldC (tri u n) (realD re fun i j => beta * QC i j + W i j) := by
  simp only [hW, add_zero]
  exact hescal_row hC hlC h1

/-- `hescal` in front of the loop. -/
theorem hescal_first (hC : MatAt m C .rowMajor ldC (tri u n) QC) (hlC : (n : Int) ≤ ldC) :
    YieldsMat (hescal re .rowMajor u n beta C ldC) m C .rowMajor ldC (tri u n)
      (if beta = 1 then QC else realD re fun i j => beta * QC i j) := by
  by_cases h : beta = 1
  · rw [if_pos h]; unfold hescal; rw [if_pos h]
    exact ⟨m, rfl, hC, fun _ _ => rfl⟩
  · rw [if_neg h]; exact hescal_row hC hlC h

theorem yieldsMat_tri0 {V : Nat → Nat → K} {o : Order} (h : n = 0) : YieldsMat (pure ()) m C o ldC (tri u n) V :=
  ⟨m, rfl, fun i j hp => by have := hp.1; omega, fun _ _ => rfl⟩

theorem herkRow_run (hre : ∀ a b, re (re a + b) = re (a + b)) (ht : t.herk)
    (hA : alpha ≠ 0 → MatAt m A .rowMajor ldA (full (opRows t n k) (opCols t n k)) QA)
    (hC : MatAt m C .rowMajor ldC (tri u n) QC) (hlA : LdOk .rowMajor ldA (opRows t n k) (opCols t n k)) (hlC : (n : Int) ≤ ldC)
    (hdA : StDisj (matAd A .rowMajor ldA) (full (opRows t n k) (opCols t n k)) (matAd C .rowMajor ldC) (tri u n))
    (hq : ¬((alpha = 0 ∨ k = 0) ∧ beta = 1)) :
    YieldsMat (herkRow re u t n k alpha A ldA beta C ldC) m C .rowMajor ldC (tri u n)
      (realD re fun i j => beta * QC i j + alpha * ∑ l ∈ range k, opM t QA i l * star (opM t QA j l)) := by
  unfold herkRow
  by_cases h0 : n = 0
  · rw [if_pos (Or.inl h0)]; exact yieldsMat_tri0 h0
  rw [if_neg (by tauto)]
  refine (hescal_first hC hlC).bind fun m' hV ho => ?_
  by_cases ha : alpha = 0
  · rw [if_pos ha]
    refine ⟨m', rfl, fun i j hp => ?_, fun _ _ => rfl⟩
    rw [hV i j hp, if_neg (by tauto)]
    simp [ha]
  rw [if_neg ha]
  have hA' : StAt m' (matAd A .rowMajor ldA) _ QA := StAt.only (hA ha) ho hdA
  simp only [mul_sum]
  have hk : k ≠ 0 ∨ beta ≠ 1 := by tauto
  rcases ht with rfl | rfl
  · refine herk_loop hre _ (fun l i j => alpha * (opM noTrans QA i l * star (opM noTrans QA j l))) hV hk
      fun l hl m'' V hW ho' => ?_
    obtain ⟨h2, h3⟩ := (op_vec noTrans n k (hA'.only ho' hdA) hlA hdA hl).1 rfl
    exact (C75_her (re := re) (conj := false) hW h2 hlC h3).2 ha
  · refine herk_loop hre _ (fun l i j => alpha * (opM conjTrans QA i l * star (opM conjTrans QA j l))) hV hk
      fun l hl m'' V hW ho' => ?_
    obtain ⟨h2, h3⟩ := (op_vec conjTrans n k (hA'.only ho' hdA) hlA hdA hl).2 rfl
    have := (C75_her (re := re) (conj := true) hW h2 hlC h3).2 ha
    simpa [opM, conjTrans, cj] using this

theorem opRows_flipConj (t : Trans) (r c : Nat) : opRows t.flipConj r c = opCols t r c := by
  unfold opRows opCols Trans.flipConj; cases t.trans <;> rfl

theorem opCols_flipConj (t : Trans) (r c : Nat) : opCols t.flipConj r c = opRows t r c := by
  unfold opRows opCols Trans.flipConj; cases t.trans <;> rfl

theorem opM_flipConj (ht : t.herk) (Q : Nat → Nat → K) (i j : Nat) : opM t.flipConj (sw Q) i j = star (opM t Q i j) := by
  rcases ht with rfl | rfl <;> simp [opM, Trans.flipConj, noTrans, conjTrans, cj, sw]

theorem herk_flipConj (ht : t.herk) : t.flipConj.herk := by
  rcases ht with rfl | rfl
  · exact Or.inr rfl
  · exact Or.inl rfl

theorem realD_sw (V : Nat → Nat → K) : realD re (sw V) = sw (realD re V) := by
  funext i j
  by_cases e : i = j
  · subst e; simp [realD, sw]
  · have e' : j ≠ i := fun h => e h.symm
    simp [realD, sw, e, e']

/-- **C84** (for an initialised `C`) `herk` with `NoTrans` or `ConjTrans`: the triangle of `beta C + alpha op(A) op(A)ᴴ` with the
real part of the diagonal; if `alpha` or `k` is zero and `beta` is one, nothing is done. With `alpha = 0` the matrix `A` is not
read. -/
theorem C84_herk_partial (hre : ∀ a b, re (re a + b) = re (a + b)) (ht : t.herk)
    (hA : alpha ≠ 0 → MatAt m A o ldA (full (opRows t n k) (opCols t n k)) QA)
    (hC : MatAt m C o ldC (tri u n) QC) (hlA : LdOk o ldA (opRows t n k) (opCols t n k)) (hlC : (n : Int) ≤ ldC)
    (hdA : StDisj (matAd A o ldA) (full (opRows t n k) (opCols t n k)) (matAd C o ldC) (tri u n)) :
    ((alpha = 0 ∨ k = 0) ∧ beta = 1 → herk re o u t n k alpha A ldA beta C ldC m = .ok ((), m)) ∧
    (¬((alpha = 0 ∨ k = 0) ∧ beta = 1) → YieldsMat (herk re o u t n k alpha A ldA beta C ldC) m C o ldC (tri u n)
      (realD re fun i j => beta * QC i j + alpha * ∑ l ∈ range k, opM t QA i l * star (opM t QA j l))) := by
  refine ⟨fun h => by cases o <;> simp only [herk, herkRow, if_pos (Or.inr h)] <;> rfl, fun h => ?_⟩
  cases o
  · exact herkRow_run hre ht hA hC hlA hlC hdA h
  · have hdA' := stDisj_col hdA
    rw [matAt_col, sw_tri] at hC
    rw [sw_tri, sw_full, ← opCols_flipConj, ← opRows_flipConj t] at hdA'
    refine yieldsMat_col ?_
    rw [sw_tri]
    refine (herkRow_run (t := t.flipConj) hre (herk_flipConj ht) (fun h => by
      have := matAt_col.1 (hA h); rwa [sw_full, ← opCols_flipConj, ← opRows_flipConj t] at this) hC
      (by rw [opCols_flipConj]; exact hlA) hlC hdA' h).congr fun i j _ => ?_
    rw [← realD_sw]
    congr 1
    funext i j
    simp only [sw]
    congr 2
    refine sum_congr rfl fun l _ => ?_
    have := opM_flipConj ht QA
    rw [this, this, star_star, mul_comm]

theorem her2kRow_run (hre : ∀ a b, re (re a + b) = re (a + b)) (ht : t.herk)
    (hA : alpha ≠ 0 → MatAt m A .rowMajor ldA (full (opRows t n k) (opCols t n k)) QA)
    (hB : alpha ≠ 0 → MatAt m B .rowMajor ldB (full (opRows t n k) (opCols t n k)) QB)
    (hC : MatAt m C .rowMajor ldC (tri u n) QC) (hlA : LdOk .rowMajor ldA (opRows t n k) (opCols t n k))
    (hlB : LdOk .rowMajor ldB (opRows t n k) (opCols t n k)) (hlC : (n : Int) ≤ ldC)
    (hdA : StDisj (matAd A .rowMajor ldA) (full (opRows t n k) (opCols t n k)) (matAd C .rowMajor ldC) (tri u n))
    (hdB : StDisj (matAd B .rowMajor ldB) (full (opRows t n k) (opCols t n k)) (matAd C .rowMajor ldC) (tri u n))
    (hq : ¬((alpha = 0 ∨ k = 0) ∧ beta = 1)) :
    YieldsMat (her2kRow re u t n k alpha A ldA B ldB beta C ldC) m C .rowMajor ldC (tri u n)
      (realD re fun i j => beta * QC i j + ∑ l ∈ range k, (alpha * (opM t QA i l * star (opM t QB j l)) +
        star alpha * (opM t QB i l * star (opM t QA j l)))) := by
  unfold her2kRow
  by_cases h0 : n = 0
  · rw [if_pos (Or.inl h0)]; exact yieldsMat_tri0 h0
  rw [if_neg (by tauto)]
  refine (hescal_first hC hlC).bind fun m' hV ho => ?_
  by_cases ha : alpha = 0
  · rw [if_pos ha]
    refine ⟨m', rfl, fun i j hp => ?_, fun _ _ => rfl⟩
    rw [hV i j hp, if_neg (by tauto)]
    simp [ha]
  rw [if_neg ha]
  have ha' : star alpha ≠ 0 := fun h => ha (by rw [← star_star alpha, h, star_zero])
  have hA' : StAt m' (matAd A .rowMajor ldA) _ QA := StAt.only (hA ha) ho hdA
  have hB' : StAt m' (matAd B .rowMajor ldB) _ QB := StAt.only (hB ha) ho hdB
  have hk : k ≠ 0 ∨ beta ≠ 1 := by tauto
  rcases ht with rfl | rfl
  · refine herk_loop hre _ (fun l i j => alpha * (opM noTrans QA i l * star (opM noTrans QB j l)) +
        star alpha * (opM noTrans QB i l * star (opM noTrans QA j l))) hV hk fun l hl m'' V hW ho' => ?_
    obtain ⟨h2, h3⟩ := (op_vec noTrans n k (hA'.only ho' hdA) hlA hdA hl).1 rfl
    obtain ⟨h4, h5⟩ := (op_vec noTrans n k (hB'.only ho' hdB) hlB hdB hl).1 rfl
    exact (C75_her2 (re := re) (conj := false) hW h2 h4 hlC h3 h5).2 ha
  · refine herk_loop hre _ (fun l i j => alpha * (opM conjTrans QA i l * star (opM conjTrans QB j l)) +
        star alpha * (opM conjTrans QB i l * star (opM conjTrans QA j l))) hV hk fun l hl m'' V hW ho' => ?_
    obtain ⟨h2, h3⟩ := (op_vec conjTrans n k (hA'.only ho' hdA) hlA hdA hl).2 rfl
    obtain ⟨h4, h5⟩ := (op_vec conjTrans n k (hB'.only ho' hdB) hlB hdB hl).2 rfl
    refine ((C75_her2 (re := re) (conj := true) hW h2 h4 hlC h3 h5).2 ha').congr fun i j _ => ?_
    congr 1
    funext i j
    simp only [opM, conjTrans, cj, if_true, star_add, star_mul', star_star]

/-- **C84** (for an initialised `C`) `her2k`: the triangle of `beta C + alpha op(A) op(B)ᴴ + conj(alpha) op(B) op(A)ᴴ` with the
real part of the diagonal. -/
theorem C84_her2k_partial (hre : ∀ a b, re (re a + b) = re (a + b)) (ht : t.herk)
    (hA : alpha ≠ 0 → MatAt m A o ldA (full (opRows t n k) (opCols t n k)) QA)
    (hB : alpha ≠ 0 → MatAt m B o ldB (full (opRows t n k) (opCols t n k)) QB)
    (hC : MatAt m C o ldC (tri u n) QC) (hlA : LdOk o ldA (opRows t n k) (opCols t n k))
    (hlB : LdOk o ldB (opRows t n k) (opCols t n k)) (hlC : (n : Int) ≤ ldC)
    (hdA : StDisj (matAd A o ldA) (full (opRows t n k) (opCols t n k)) (matAd C o ldC) (tri u n))
    (hdB : StDisj (matAd B o ldB) (full (opRows t n k) (opCols t n k)) (matAd C o ldC) (tri u n)) :
    ((alpha = 0 ∨ k = 0) ∧ beta = 1 → her2k re o u t n k alpha A ldA B ldB beta C ldC m = .ok ((), m)) ∧
    (¬((alpha = 0 ∨ k = 0) ∧ beta = 1) → YieldsMat (her2k re o u t n k alpha A ldA B ldB beta C ldC) m C o ldC (tri u n)
      (realD re fun i j => beta * QC i j + ∑ l ∈ range k, (alpha * (opM t QA i l * star (opM t QB j l)) +
        star alpha * (opM t QB i l * star (opM t QA j l))))) := by
  have hs : star alpha = 0 ↔ alpha = 0 := star_eq_zero
  refine ⟨fun h => ?_, fun h => ?_⟩
  · cases o
    · simp only [her2k, her2kRow, if_pos (Or.inr h)]; rfl
    · simp only [her2k, her2kRow, hs, if_pos (Or.inr h)]; rfl
  cases o
  · exact her2kRow_run hre ht hA hB hC hlA hlB hlC hdA hdB h
  · have hdA' := stDisj_col hdA
    have hdB' := stDisj_col hdB
    rw [matAt_col, sw_tri] at hC
    rw [sw_tri, sw_full, ← opCols_flipConj, ← opRows_flipConj t] at hdA' hdB'
    refine yieldsMat_col ?_
    rw [sw_tri]
    refine (her2kRow_run (t := t.flipConj) (alpha := star alpha) hre (herk_flipConj ht)
      (fun h => by
        have := matAt_col.1 (hA fun e => h (hs.2 e)); rwa [sw_full, ← opCols_flipConj, ← opRows_flipConj t] at this)
      (fun h => by
        have := matAt_col.1 (hB fun e => h (hs.2 e)); rwa [sw_full, ← opCols_flipConj, ← opRows_flipConj t] at this) hC
      (by rw [opCols_flipConj]; exact hlA) (by rw [opCols_flipConj]; exact hlB) hlC hdA' hdB' (by rwa [hs])).congr fun i j _ => ?_
    rw [← realD_sw]
    congr 1
    funext i j
    simp only [sw]
    congr 1
    refine sum_congr rfl fun l _ => ?_
    have e1 := opM_flipConj ht QA
    have e2 := opM_flipConj ht QB
    rw [e1, e1, e2, e2, star_star, star_star, star_star]
    ring

/-- **C84** The other two values of the transposition end in a failed assertion, after `C` has been scaled. -/
theorem C84_herk_assert (ht : ¬t.herk) (hn : n ≠ 0) (ha : alpha ≠ 0) (hk : k ≠ 0) (hC : MatAt m C o ldC (tri u n) QC)
    (hlC : (n : Int) ≤ ldC) : herk re o u t n k alpha A ldA beta C ldC m = .throw .assertion := by
  have row : ∀ (u : UpLo) (t : Trans) (Q : Nat → Nat → K), ¬t.herk → MatAt m C .rowMajor ldC (tri u n) Q →
      herkRow re u t n k alpha A ldA beta C ldC m = .throw .assertion := by
    intro u t Q ht hC
    obtain ⟨m', h1, -, -⟩ := hescal_first (re := re) (beta := beta) hC hlC
    unfold herkRow
    rw [if_neg (by tauto)]
    refine (bind_ok h1).trans ?_
    rw [if_neg ha]
    obtain ⟨a, b⟩ := t
    cases a <;> cases b
    · exact absurd (Or.inl rfl) ht
    · rfl
    · rfl
    · exact absurd (Or.inr rfl) ht
  cases o
  · exact row u t QC ht hC
  · rw [matAt_col, sw_tri] at hC
    refine row u.flip t.flipConj _ (fun h => ht ?_) hC
    have := herk_flipConj h
    simpa [Trans.flipConj] using this

end rankk

/-- **C84** as for `syrk`: with `beta = 0` the old triangle may be uninitialised. -/
def C84Claim : Prop :=
  ∀ (K : Type) [CommRing K] [StarRing K] [DecidableEq K] (re : K → K) (o : Order) (u : UpLo) (t : Trans) (n k : Nat)
    (alpha beta : K) (A ldA C ldC : Int) (m : Mem K) (QA QC : Nat → Nat → K), (∀ a b, re (re a + b) = re (a + b)) → t.herk →
    MatAt m A o ldA (full (opRows t n k) (opCols t n k)) QA → MatMem m C o ldC (tri u n) →
    (beta ≠ 0 → MatAt m C o ldC (tri u n) QC) → LdOk o ldA (opRows t n k) (opCols t n k) → (n : Int) ≤ ldC →
    StDisj (matAd A o ldA) (full (opRows t n k) (opCols t n k)) (matAd C o ldC) (tri u n) →
    ¬((alpha = 0 ∨ k = 0) ∧ beta = 1) →
    YieldsMat (herk re o u t n k alpha A ldA beta C ldC) m C o ldC (tri u n)
      (realD re fun i j => beta * QC i j + alpha * ∑ l ∈ range k, opM t QA i l * star (opM t QA j l))

/-- **C84** `herk` (and `her2k`, which begins in the same way) reads `C` even with `beta = 0`. -/
theorem C84_false : ¬C84Claim := by
  intro h
  have h1 : ∀ i j, full 1 1 i j → i = 0 ∧ j = 0 := fun i j hp => by have := hp.1; have := hp.2; omega
  have h2 : ∀ i j, tri .upper 1 i j → i = 0 ∧ j = 0 := fun i j hp => by have := hp.1; have := hp.2.1; omega
  obtain ⟨m', e1, -, -⟩ := h Int id .rowMajor .upper noTrans 1 1 1 0 0 1 1 1
    (fun a => if a = 0 then .val 5 else if a = 1 then .raw else .out) (fun _ _ => 5) (fun _ _ => 0) (fun _ _ => rfl) (Or.inl rfl)
    (fun i j hp => by obtain ⟨rfl, rfl⟩ := h1 i j hp; decide) (fun i j hp => by obtain ⟨rfl, rfl⟩ := h2 i j hp; decide)
    (fun h => absurd rfl h) (Int.le_refl 1) (by decide)
    (fun i j k l hp hq => by obtain ⟨rfl, rfl⟩ := h1 i j hp; obtain ⟨rfl, rfl⟩ := h2 k l hq; decide) (by decide)
  have e2 : (peek (herk (K := Int) id .rowMajor .upper noTrans 1 1 1 0 1 0 1 1
      (fun a => if a = 0 then .val 5 else if a = 1 then .raw else .out)) fun _ _ => ()) = .ub := by decide
  rw [e1] at e2
  exact absurd e2 (by simp [peek])

/-- The hypotheses hold for a 2x1 matrix and the lower triangle at 10, the upper one missing. -/
def exRk : Mem Int := fun a =>
  if a = 0 then .val 3 else if a = 1 then .val 4 else if a = 10 ∨ a = 12 ∨ a = 13 then .val a else .out

example : MatAt exRk 0 .rowMajor 1 (full (opRows noTrans 2 1) (opCols noTrans 2 1)) (fun i _ => (i : Int) + 3) ∧
    MatAt exRk 10 .rowMajor 2 (tri .lower 2) (fun i j => 2 * (i : Int) + j + 10) ∧
    StDisj (matAd 0 .rowMajor 1) (full (opRows noTrans 2 1) (opCols noTrans 2 1)) (matAd 10 .rowMajor 2) (tri .lower 2) := by
  refine ⟨fun i j h => ?_, fun i j h => ?_, fun i j k l h h' => ?_⟩
  · obtain ⟨h1, h2⟩ := h
    change i < 2 at h1
    change j < 1 at h2
    interval_cases i <;> interval_cases j <;> decide
  · obtain ⟨h1, h2, h3⟩ := h
    interval_cases i <;> interval_cases j <;> first | decide | (exact absurd h3 (by decide))
  · obtain ⟨h1, h2⟩ := h
    change i < 2 at h1
    change j < 1 at h2
    obtain ⟨h3, h4, -⟩ := h'
    interval_cases i <;> interval_cases j <;> interval_cases k <;> interval_cases l <;> decide

example : (peek (syrk (K := Int) .rowMajor .lower noTrans 2 1 1 0 1 1 10 2 exRk) fun _ m => (m 10, m 12, m 13, m 11)) =
    .ok (.val 19, .val 24, .val 29, .out) := by decide

end Verif.Blas
