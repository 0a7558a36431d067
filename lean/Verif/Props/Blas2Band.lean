import Verif.Lemmas.Blas2BandOrder
import Verif.Props.Blas2

/-! Property theorems for the generic level-2 routines of cxxblas on banded and packed matrices (C78 to C81). Banded and packed
matrices in memory are those of `Spec/BlasBand.lean`; the scalars are any commutative ring with conjugation (a field for the
solves), in exact arithmetic. Everything outside of the positions named is arbitrary: it need not be initialised, nor exist. -/

namespace Verif.Blas

open Finset

variable {K : Type}

theorem yields_of_snap {c : M K Unit} {m : Mem K} {y incY : Int} {n : Nat} {v : Nat → K} (hi : incY ≠ 0)
    (h : c m = .ok ((), snap m y incY n v)) : Yields c m y incY n v := yields_of_over hi h

/-! ### C78: products with banded matrices -/

section gb
variable [CommRing K] [StarRing K] [DecidableEq K] {o : Order} {t : Trans} {conjX : Bool} {r c kl ku : Nat}
  {alpha beta : K} {A ld x incX y incY : Int} {m : Mem K} {Q : Nat → Nat → K} {xv yv : Nat → K}

theorem gb_row {r c kl ku : Nat} (hA : StAt m (bandAd A .rowMajor ld kl ku) (inBand kl ku r c) Q)
    (hx : VecAt m x incX (opCols t r c) xv) (hy : InitAt beta m y incY (opRows t r c) yv) (hi : incY ≠ 0)
    (hdA : StVecDisj (bandAd A .rowMajor ld kl ku) (inBand kl ku r c) y incY (opRows t r c))
    (hdx : VecDisj x incX (opCols t r c) y incY (opRows t r c)) :
    Yields (gbmvRow (gbRows c kl ku A ld) t conjX r c alpha x incX beta y incY) m y incY (opRows t r c) fun i =>
      beta * yv i + alpha * ∑ j ∈ range (opCols t r c), opM t (bandM kl ku Q) i j * cj conjX (xv j) := by
  have hin := gbRows_in r c kl ku A ld
  have := gbmvRow_run (t := t) (conjX := conjX) (alpha := alpha) (fun i _ h => gbRows_le h) (hin.at hA) hx hy hi
    (hin.disj hdA) hdx
  refine (yields_of_snap hi this).congr fun i hi' => ?_
  congr 2
  refine sum_congr rfl fun j hj => ?_
  rw [mem_range] at hj
  congr 1
  unfold opRows at hi'
  unfold opCols at hj
  cases h : t.trans <;> simp only [opM, h, Bool.false_eq_true, if_false, if_true] at hi' hj ⊢
  · rw [gbRows_M hj]
  · rw [gbRows_M hi']

/-- **C78** `gbmv`: `y := beta y + alpha op(A) x` for the banded matrix `A` with `kl` diagonals below and `ku` above the main
diagonal, in the extended form with `x` or its conjugate. The cells of the array that belong to no element are not read. -/
theorem C78_gbmv (hr : r ≠ 0) (hc : c ≠ 0) (hA : StAt m (bandAd A o ld kl ku) (inBand kl ku r c) Q)
    (hx : VecAt m x incX (opCols t r c) xv) (hy : VecMem m y incY (opRows t r c))
    (hb : beta ≠ 0 → VecAt m y incY (opRows t r c) yv) (hi : incY ≠ 0)
    (hdA : StVecDisj (bandAd A o ld kl ku) (inBand kl ku r c) y incY (opRows t r c))
    (hdx : VecDisj x incX (opCols t r c) y incY (opRows t r c)) :
    Yields (gbmv o t conjX r c kl ku alpha A ld x incX beta y incY) m y incY (opRows t r c) fun i =>
      beta * yv i + alpha * ∑ j ∈ range (opCols t r c), opM t (bandM kl ku Q) i j * cj conjX (xv j) := by
  have hne : ¬(r = 0 ∨ c = 0) := by omega
  unfold gbmv
  rw [if_neg hne]
  cases o
  swap
  · rw [← stAt_sw, bandAd_sw, inBand_sw] at hA
    rw [← stVecDisj_sw, bandAd_sw, inBand_sw] at hdA
    have e1 : opRows t r c = opRows t.flip c r := by cases h : t.trans <;> simp [opRows, Trans.flip, h]
    have e2 : opCols t r c = opCols t.flip c r := by cases h : t.trans <;> simp [opCols, Trans.flip, h]
    rw [e1] at hy hb hdA hdx ⊢
    rw [e2] at hx hdx ⊢
    have := gb_row (alpha := alpha) (conjX := conjX) hA hx ⟨hy, hb⟩ hi hdA hdx
    rw [bandM_sw, opM_flip] at this
    exact this
  · exact gb_row hA hx ⟨hy, hb⟩ hi hdA hdx

/-- **C78** For a matrix without rows or columns nothing is done; in particular `y` is not multiplied by `beta`. -/
theorem C78_gbmv_empty (h : r = 0 ∨ c = 0) : gbmv o t conjX r c kl ku alpha A ld x incX beta y incY m = .ok ((), m) := by
  simp only [gbmv, if_pos h]; rfl

end gb

/-- A memory for the examples: a 3x2 matrix with one diagonal on either side at 0, leading dimension 3, with the unused first and
last cells missing; vectors at 20 and 30. -/
def exBand : Mem Int := fun a =>
  if a = 1 then .val 2 else if a = 2 then .val 3 else if a = 3 then .val 4 else if a = 4 then .val 5 else if a = 6 then .val 6
  else if a = 20 then .val 1 else if a = 21 then .val 10 else if 30 ≤ a ∧ a < 33 then .raw
  else .out

example : StAt exBand (bandAd 0 .rowMajor 3 1 1) (inBand 1 1 3 2)
      (fun i j => if i = 0 then (if j = 0 then 2 else 3) else if i = 1 then (if j = 0 then 4 else 5) else 6) ∧
    VecAt exBand 20 1 2 (fun i => if i = 0 then 1 else 10) ∧ VecMem exBand 30 1 3 ∧
    StVecDisj (bandAd 0 .rowMajor 3 1 1) (inBand 1 1 3 2) 30 1 3 ∧ VecDisj 20 1 2 30 1 3 := by
  refine ⟨fun i j h => ?_, fun i h => ?_, fun i h => ?_, fun i j k h hk => ?_, fun i j h hk => ?_⟩
  · obtain ⟨h1, h2, h3, h4⟩ := h
    interval_cases i <;> interval_cases j <;> first | omega | decide
  · interval_cases i <;> decide
  · interval_cases i <;> decide
  · obtain ⟨h1, h2, h3, h4⟩ := h
    interval_cases i <;> interval_cases j <;> interval_cases k <;> decide
  · interval_cases i <;> interval_cases j <;> decide

example : (peek (gbmv (K := Int) .rowMajor noTrans false 3 2 1 1 1 0 3 20 1 0 30 1 exBand) fun _ m => (m 30, m 31, m 32)) =
    .ok (.val 32, .val 54, .val 60) := by decide

/-! ### C79: products with symmetric and hermitian matrices -/

section sym
variable [CommRing K] [StarRing K] [DecidableEq K] {o : Order} {u : UpLo} {n k : Nat} {alpha beta : K}
  {A ld x incX y incY : Int} {m : Mem K} {Q : Nat → Nat → K} {xv yv : Nat → K}

theorem sbmv_row (hA : StAt m (bandAd A .rowMajor ld (lowerK u k) (upperK u k)) (inBand (lowerK u k) (upperK u k) n n) Q)
    (hx : VecAt m x incX n xv) (hy : InitAt beta m y incY n yv) (hi : incY ≠ 0)
    (hdA : StVecDisj (bandAd A .rowMajor ld (lowerK u k) (upperK u k)) (inBand (lowerK u k) (upperK u k) n n) y incY n)
    (hdx : VecDisj x incX n y incY n) :
    Yields (sbmv .rowMajor u n k alpha A ld x incX beta y incY) m y incY n fun i =>
      beta * yv i + alpha * ∑ j ∈ range n, symM u (bandM (lowerK u k) (upperK u k) Q) i j * xv j := by
  have hin := tbRows_in u n k A ld
  have hR := tbRows_tri u n k A ld
  have key := sbmvRows_run (alpha := alpha) hR (hin.at hA) hx hy hi (hin.disj hdA) hdx
  have conv : ∀ c : M K Unit, c m = .ok ((), snap m y incY n fun i =>
        beta * yv i + alpha * ∑ j ∈ range n, symM u (rowM (tbRows u n k A ld) Q) i j * xv j) →
      Yields c m y incY n fun i =>
        beta * yv i + alpha * ∑ j ∈ range n, symM u (bandM (lowerK u k) (upperK u k) Q) i j * xv j := by
    intro c hc
    refine (yields_of_snap hi hc).congr fun i hi' => ?_
    congr 2
    refine sum_congr rfl fun j hj => ?_
    rw [mem_range] at hj
    rw [symM_congr hi' hj fun i j h => tbRows_M h.2.1 Q]
  unfold sbmv
  by_cases h0 : n = 0
  · subst h0
    simp only [if_true]
    exact conv _ (congrArg (fun z => Out.ok ((), z)) (snap_eq hi fun i h => absurd h (Nat.not_lt_zero i)))
  · simp only [if_neg h0, effUpLo, axpyAtR_eq]
    cases u
    · exact conv _ (key _ fun i _ => rfl)
    · exact conv _ (key _ fun i _ => rfl)

/-- **C79** `sbmv`: `y := beta y + alpha S x` for the symmetric banded matrix `S` with `k` diagonals beside the main diagonal, of
which one side is stored. -/
theorem C79_sbmv (hA : StAt m (bandAd A o ld (lowerK u k) (upperK u k)) (inBand (lowerK u k) (upperK u k) n n) Q)
    (hx : VecAt m x incX n xv) (hy : VecMem m y incY n) (hb : beta ≠ 0 → VecAt m y incY n yv) (hi : incY ≠ 0)
    (hdA : StVecDisj (bandAd A o ld (lowerK u k) (upperK u k)) (inBand (lowerK u k) (upperK u k) n n) y incY n)
    (hdx : VecDisj x incX n y incY n) :
    Yields (sbmv o u n k alpha A ld x incX beta y incY) m y incY n fun i =>
      beta * yv i + alpha * ∑ j ∈ range n, symM u (bandM (lowerK u k) (upperK u k) Q) i j * xv j := by
  cases o
  swap
  · rw [← stAt_sw, bandAd_sw, inBand_sw, show upperK u k = lowerK u.flip k by rw [lowerK_flip],
      show lowerK u k = upperK u.flip k by rw [upperK_flip]] at hA
    rw [← stVecDisj_sw, bandAd_sw, inBand_sw, show upperK u k = lowerK u.flip k by rw [lowerK_flip],
      show lowerK u k = upperK u.flip k by rw [upperK_flip]] at hdA
    have := sbmv_row (alpha := alpha) hA hx ⟨hy, hb⟩ hi hdA hdx
    rw [lowerK_flip, upperK_flip, bandM_sw, sw_symM] at this
    exact this
  · exact sbmv_row hA hx ⟨hy, hb⟩ hi hdA hdx

theorem spmv_row (hA : StAt m (packAd A .rowMajor u n) (tri u n) Q)
    (hx : VecAt m x incX n xv) (hy : InitAt beta m y incY n yv) (hi : incY ≠ 0)
    (hdA : StVecDisj (packAd A .rowMajor u n) (tri u n) y incY n) (hdx : VecDisj x incX n y incY n) :
    Yields (spmv .rowMajor u n alpha A x incX beta y incY) m y incY n fun i =>
      beta * yv i + alpha * ∑ j ∈ range n, symM u Q i j * xv j := by
  have hin := tpRows_in u n A
  have hR := tpRows_tri u n A
  have conv : ∀ c : M K Unit, c m = .ok ((), snap m y incY n fun i =>
        beta * yv i + alpha * ∑ j ∈ range n, symM u (rowM (tpRows u n A) Q) i j * xv j) →
      Yields c m y incY n fun i => beta * yv i + alpha * ∑ j ∈ range n, symM u Q i j * xv j := by
    intro c hc
    refine (yields_of_snap hi hc).congr fun i hi' => ?_
    congr 2
    refine sum_congr rfl fun j hj => ?_
    rw [mem_range] at hj
    rw [symM_congr hi' hj fun i j h => tpRows_M h Q]
  unfold spmv
  cases u
  · exact conv _ (sbmvRows_run (alpha := alpha) hR (hin.at hA) hx hy hi (hin.disj hdA) hdx _ fun i _ => rfl)
  · refine conv _ (spmvLower_run (alpha := alpha) hR (hin.at hA) hx hy hi (hin.disj hdA) hdx _ fun i _ => ?_)
    simp [tpRows, effUpLo]

/-- **C79** `spmv`: the same for a packed symmetric matrix. -/
theorem C79_spmv (hA : StAt m (packAd A o u n) (tri u n) Q) (hx : VecAt m x incX n xv) (hy : VecMem m y incY n)
    (hb : beta ≠ 0 → VecAt m y incY n yv) (hi : incY ≠ 0) (hdA : StVecDisj (packAd A o u n) (tri u n) y incY n)
    (hdx : VecDisj x incX n y incY n) :
    Yields (spmv o u n alpha A x incX beta y incY) m y incY n fun i =>
      beta * yv i + alpha * ∑ j ∈ range n, symM u Q i j * xv j := by
  cases o
  swap
  · rw [← stAt_sw, packAd_sw, sw_tri] at hA
    rw [← stVecDisj_sw, packAd_sw, sw_tri] at hdA
    have := spmv_row (alpha := alpha) hA hx ⟨hy, hb⟩ hi hdA hdx
    rw [sw_symM] at this
    exact this
  · exact spmv_row hA hx ⟨hy, hb⟩ hi hdA hdx

variable {re : K → K}

theorem bandM_diag (kl ku i : Nat) : bandM kl ku Q i i = Q i i := by unfold bandM; rw [if_pos (by omega)]

theorem hbmv_row {c : Bool}
    (hA : StAt m (bandAd A .rowMajor ld (lowerK u k) (upperK u k)) (inBand (lowerK u k) (upperK u k) n n) Q)
    (hx : VecAt m x incX n xv) (hy : InitAt beta m y incY n yv) (hi : incY ≠ 0)
    (hdA : StVecDisj (bandAd A .rowMajor ld (lowerK u k) (upperK u k)) (inBand (lowerK u k) (upperK u k) n n) y incY n)
    (hdx : VecDisj x incX n y incY n) :
    Yields (do
      scalInitGeneric n beta (start n y incY) incY
      loop n (hrowsBody re (tbRows u n k A ld) u c alpha (start n x incX) incX (start n y incY) incY)) m y incY n fun i =>
      beta * yv i + alpha * ∑ j ∈ range n,
        (if i = j then re (Q i i) else cj c (herM re u (bandM (lowerK u k) (upperK u k) Q) i j)) * xv j := by
  have hin := tbRows_in u n k A ld
  have := hrows_run (re := re) (c := c) (alpha := alpha) (tbRows_tri u n k A ld) (hin.at hA) hx hy hi (hin.disj hdA) hdx
  refine (yields_of_snap hi this).congr fun i hi' => ?_
  congr 2
  refine sum_congr rfl fun j hj => ?_
  rw [mem_range] at hj
  rw [herM_congr hi' hj fun i j h => tbRows_M h.2.1 Q]

theorem hpmv_row {c : Bool} (hA : StAt m (packAd A .rowMajor u n) (tri u n) Q)
    (hx : VecAt m x incX n xv) (hy : InitAt beta m y incY n yv) (hi : incY ≠ 0)
    (hdA : StVecDisj (packAd A .rowMajor u n) (tri u n) y incY n) (hdx : VecDisj x incX n y incY n) :
    Yields (do
      scalInitGeneric n beta (start n y incY) incY
      loop n (hrowsBody re (tpRows u n A) u c alpha (start n x incX) incX (start n y incY) incY)) m y incY n fun i =>
      beta * yv i + alpha * ∑ j ∈ range n, (if i = j then re (Q i i) else cj c (herM re u Q i j)) * xv j := by
  have hin := tpRows_in u n A
  have := hrows_run (re := re) (c := c) (alpha := alpha) (tpRows_tri u n A) (hin.at hA) hx hy hi (hin.disj hdA) hdx
  refine (yields_of_snap hi this).congr fun i hi' => ?_
  congr 2
  refine sum_congr rfl fun j hj => ?_
  rw [mem_range] at hj
  rw [herM_congr hi' hj fun i j h => tpRows_M h Q]

/-- **C79** `hbmv`: `y := beta y + alpha H x` for the hermitian banded matrix `H` with the stored side; the imaginary part of the
diagonal does not matter. -/
theorem C79_hbmv
    (hA : StAt m (bandAd A o ld (lowerK u k) (upperK u k)) (inBand (lowerK u k) (upperK u k) n n) Q)
    (hx : VecAt m x incX n xv) (hy : VecMem m y incY n) (hb : beta ≠ 0 → VecAt m y incY n yv) (hi : incY ≠ 0)
    (hdA : StVecDisj (bandAd A o ld (lowerK u k) (upperK u k)) (inBand (lowerK u k) (upperK u k) n n) y incY n)
    (hdx : VecDisj x incX n y incY n) :
    Yields (hbmv re o u n k alpha A ld x incX beta y incY) m y incY n fun i =>
      beta * yv i + alpha * ∑ j ∈ range n, herM re u (bandM (lowerK u k) (upperK u k) Q) i j * xv j := by
  have fin : ∀ c : M K Unit, Yields c m y incY n (fun i => beta * yv i + alpha * ∑ j ∈ range n,
        (if i = j then re (Q i i) else herM re u (bandM (lowerK u k) (upperK u k) Q) i j) * xv j) →
      Yields c m y incY n fun i =>
        beta * yv i + alpha * ∑ j ∈ range n, herM re u (bandM (lowerK u k) (upperK u k) Q) i j * xv j := by
    intro c hc
    refine hc.congr fun i _ => ?_
    congr 2
    refine sum_congr rfl fun j _ => ?_
    by_cases e : i = j
    · subst e
      rw [if_pos rfl]
      simp [herM, bandM_diag]
    · rw [if_neg e]
  unfold hbmv
  by_cases h0 : n = 0
  · subst h0
    simp only [if_true]
    exact yields_of_snap hi (congrArg (fun z => Out.ok ((), z)) (snap_eq hi fun i h => absurd h (Nat.not_lt_zero i)))
  rw [if_neg h0]
  cases o
  swap
  · rw [← stAt_sw, bandAd_sw, inBand_sw, show upperK u k = lowerK u.flip k by rw [lowerK_flip],
      show lowerK u k = upperK u.flip k by rw [upperK_flip]] at hA
    rw [← stVecDisj_sw, bandAd_sw, inBand_sw, show upperK u k = lowerK u.flip k by rw [lowerK_flip],
      show lowerK u k = upperK u.flip k by rw [upperK_flip]] at hdA
    have := hbmv_row (re := re) (c := true) (alpha := alpha) hA hx ⟨hy, hb⟩ hi hdA hdx
    refine fin _ (Yields.congr this fun i _ => ?_)
    congr 2
    refine sum_congr rfl fun j _ => ?_
    by_cases e : i = j
    · subst e; rw [if_pos rfl, if_pos rfl]; rfl
    · rw [if_neg e, if_neg e, lowerK_flip, upperK_flip, bandM_sw]
      have := herM_flip (u := u) (Q := bandM (lowerK u k) (upperK u k) Q) re false e
      simp only [Bool.not_false] at this
      rw [this]; rfl
  · have := hbmv_row (re := re) (c := false) (alpha := alpha) hA hx ⟨hy, hb⟩ hi hdA hdx
    exact fin _ (by simpa [effUpLo, cj] using this)

/-- **C79** `hpmv`: the same for a packed hermitian matrix. -/
theorem C79_hpmv (hA : StAt m (packAd A o u n) (tri u n) Q)
    (hx : VecAt m x incX n xv) (hy : VecMem m y incY n) (hb : beta ≠ 0 → VecAt m y incY n yv) (hi : incY ≠ 0)
    (hdA : StVecDisj (packAd A o u n) (tri u n) y incY n) (hdx : VecDisj x incX n y incY n) :
    Yields (hpmv re o u n alpha A x incX beta y incY) m y incY n fun i =>
      beta * yv i + alpha * ∑ j ∈ range n, herM re u Q i j * xv j := by
  have fin : ∀ c : M K Unit, Yields c m y incY n (fun i => beta * yv i + alpha * ∑ j ∈ range n,
        (if i = j then re (Q i i) else herM re u Q i j) * xv j) →
      Yields c m y incY n fun i => beta * yv i + alpha * ∑ j ∈ range n, herM re u Q i j * xv j := by
    intro c hc
    refine hc.congr fun i _ => ?_
    congr 2
    refine sum_congr rfl fun j _ => ?_
    by_cases e : i = j
    · subst e
      rw [if_pos rfl]
      simp [herM]
    · rw [if_neg e]
  unfold hpmv
  cases o
  swap
  · rw [← stAt_sw, packAd_sw, sw_tri] at hA
    rw [← stVecDisj_sw, packAd_sw, sw_tri] at hdA
    have := hpmv_row (re := re) (c := true) (alpha := alpha) hA hx ⟨hy, hb⟩ hi hdA hdx
    refine fin _ (Yields.congr this fun i _ => ?_)
    congr 2
    refine sum_congr rfl fun j _ => ?_
    by_cases e : i = j
    · subst e; rw [if_pos rfl, if_pos rfl]; rfl
    · rw [if_neg e, if_neg e]
      have := herM_flip (u := u) (Q := Q) re false e
      simp only [Bool.not_false] at this
      rw [this]; rfl
  · have := hpmv_row (re := re) (c := false) (alpha := alpha) hA hx ⟨hy, hb⟩ hi hdA hdx
    exact fin _ (by simpa [effUpLo, cj] using this)

end sym

/-- A memory for the examples: a packed triangle of order 2 at 0, vectors at 10 and 12. -/
def exPack : Mem Int := fun a =>
  if 0 ≤ a ∧ a < 3 then .val (a + 1) else if a = 10 then .val 1 else if a = 11 then .val 10 else if a = 12 ∨ a = 13 then .val 7
  else .out

example : StAt exPack (packAd 0 .colMajor .lower 2) (tri .lower 2) (fun i j => if j = 1 then 3 else if i = 0 then 1 else 2) ∧
    VecAt exPack 10 1 2 (fun i => if i = 0 then 1 else 10) ∧
    StVecDisj (packAd 0 .colMajor .lower 2) (tri .lower 2) 12 1 2 ∧ VecDisj 10 1 2 12 1 2 := by
  refine ⟨fun i j h => ?_, fun i h => ?_, fun i j k h hk => ?_, fun i j h hk => ?_⟩
  · obtain ⟨h1, h2, h3⟩ := h
    interval_cases i <;> interval_cases j <;> first | decide | (exact absurd h3 (by decide))
  · interval_cases i <;> decide
  · obtain ⟨h1, h2, h3⟩ := h
    interval_cases i <;> interval_cases j <;> interval_cases k <;> first | decide | (exact absurd h3 (by decide))
  · interval_cases i <;> interval_cases j <;> decide

example : (peek (spmv (K := Int) .colMajor .lower 2 1 0 10 1 2 12 1 exPack) fun _ m => (m 12, m 13)) =
    .ok (.val 35, .val 46) := by decide

/-- The hypotheses of the banded case for the same memory: the packed triangle is not banded, so another one. -/
def exSym : Mem Int := fun a =>
  if a = 0 then .val 1 else if a = 1 then .val 2 else if a = 2 then .val 3
  else if a = 10 then .val 1 else if a = 11 then .val 10 else if a = 12 ∨ a = 13 then .raw
  else .out

example : StAt exSym (bandAd 0 .rowMajor 2 (lowerK .upper 1) (upperK .upper 1))
      (inBand (lowerK .upper 1) (upperK .upper 1) 2 2) (fun i j => (i : Int) + j + 1) := by
  intro i j h
  obtain ⟨h1, h2, h3, h4⟩ := h
  interval_cases i <;> interval_cases j <;> first | decide | (exact absurd h3 (by decide))

example : (peek (sbmv (K := Int) .rowMajor .upper 2 1 1 0 2 10 1 0 12 1 exSym) fun _ m => (m 12, m 13)) =
    .ok (.val 21, .val 32) := by decide

/-! ### C80: rank updates of packed matrices -/

/-- The routine `c` run in memory `m` ends normally, leaves `V` in the positions `P` of the matrix with the addresses `ad`, and
changes nothing else. -/
def YieldsSt (c : M K Unit) (m : Mem K) (ad : Nat → Nat → Int) (P : Nat → Nat → Prop) (V : Nat → Nat → K) : Prop :=
  ∃ m', c m = .ok ((), m') ∧ StAt m' ad P V ∧ OnlySt m m' ad P

theorem yieldsSt_pack {c : M K Unit} {m : Mem K} {A : Int} {u : UpLo} {n : Nat} {V : Nat → Nat → K} {v : Nat × Nat → K}
    (h : c m = .ok ((), over m (packP A u n) v (pos (tri u n)))) (hv : ∀ i j, tri u n i j → v (i, j) = V i j) :
    YieldsSt c m (packAd A .rowMajor u n) (tri u n) V :=
  ⟨_, h, fun i j hp => (over_of_mem (packP_inj A u n) (show (i, j) ∈ pos (tri u n) from hp)).trans (by rw [hv i j hp]),
    fun a ha => over_of_not_mem (S := pos (tri u n)) fun p hp e => ha p.1 p.2 hp e.symm⟩

theorem yieldsSt_sw {c : M K Unit} {m : Mem K} {ad : Nat → Nat → Int} {P : Nat → Nat → Prop} {V : Nat → Nat → K}
    (h : YieldsSt c m (sw ad) (sw P) (sw V)) : YieldsSt c m ad P V :=
  let ⟨m', h1, h2, h3⟩ := h
  ⟨m', h1, stAt_sw.1 h2, onlySt_sw.1 h3⟩

theorem YieldsSt.congr {c : M K Unit} {m : Mem K} {ad : Nat → Nat → Int} {P : Nat → Nat → Prop} {V W : Nat → Nat → K}
    (h : YieldsSt c m ad P V) (e : ∀ i j, P i j → V i j = W i j) : YieldsSt c m ad P W :=
  let ⟨m', h1, h2, h3⟩ := h
  ⟨m', h1, fun i j hp => (h2 i j hp).trans (by rw [e i j hp]), h3⟩

section rank
variable [CommRing K] [StarRing K] {o : Order} {u : UpLo} {n : Nat} {alpha : K} {A x incX y incY : Int} {m : Mem K}
  {Q : Nat → Nat → K} {xv yv : Nat → K}

theorem rank1P {c : Bool} {g : K → K} (hA : StAt m (packAd A .rowMajor u n) (tri u n) Q) (hx : VecAt m x incX n xv)
    (hdx : StVecDisj (packAd A .rowMajor u n) (tri u n) x incX n) (f : Nat → M K Unit)
    (hf : ∀ i, i < n → f i = (do
      let v ← load (start n x incX + i * incX)
      axpyC c ((tpRows u n A).len i) (g v) (start n x incX + (tpRows u n A).first i * incX) incX ((tpRows u n A).row i) 1)) :
    loop n f m = .ok ((), over m (packP A u n) (fun p => Q p.1 p.2 + g (xv p.1) * cj c (xv p.2)) (pos (tri u n))) := by
  have e := tri_packRows u n A
  rw [e] at hA hdx
  rw [e]
  exact rank1G_run (by rw [← e]; exact packP_inj A u n) (fun i k hi hk => tpRows_ad hi hk) hA hx
    (fun i hi => (tpRows_tri u n A).le i hi) hdx f hf

theorem rank2P {c : Bool} {g h : K → K} (hA : StAt m (packAd A .rowMajor u n) (tri u n) Q) (hx : VecAt m x incX n xv)
    (hy : VecAt m y incY n yv) (hdx : StVecDisj (packAd A .rowMajor u n) (tri u n) x incX n)
    (hdy : StVecDisj (packAd A .rowMajor u n) (tri u n) y incY n) (f : Nat → M K Unit)
    (hf : ∀ i, i < n → f i = (do
      let v ← load (start n x incX + i * incX)
      axpyC c ((tpRows u n A).len i) (g v) (start n y incY + (tpRows u n A).first i * incY) incY ((tpRows u n A).row i) 1
      let w ← load (start n y incY + i * incY)
      axpyC c ((tpRows u n A).len i) (h w) (start n x incX + (tpRows u n A).first i * incX) incX ((tpRows u n A).row i) 1)) :
    loop n f m = .ok ((), over m (packP A u n)
      (fun p => Q p.1 p.2 + g (xv p.1) * cj c (yv p.2) + h (yv p.1) * cj c (xv p.2)) (pos (tri u n))) := by
  have e := tri_packRows u n A
  rw [e] at hA hdx hdy
  rw [e]
  exact rank2G_run (by rw [← e]; exact packP_inj A u n) (fun i k hi hk => tpRows_ad hi hk) hA hx hy
    (fun i hi => (tpRows_tri u n A).le i hi) hdx hdy f hf

theorem spr_row (hA : StAt m (packAd A .rowMajor u n) (tri u n) Q) (hx : VecAt m x incX n xv)
    (hdx : StVecDisj (packAd A .rowMajor u n) (tri u n) x incX n) :
    YieldsSt (spr .rowMajor u n alpha x incX A) m (packAd A .rowMajor u n) (tri u n) fun i j =>
      Q i j + alpha * (xv i * xv j) := by
  refine yieldsSt_pack (rank1P (c := false) (g := fun v => alpha * v) hA hx hdx _ fun i _ => rfl) fun i j _ => ?_
  simp only [cj]; simp; ring

/-- **C80** `spr`: the packed triangle of `A + alpha x xᵀ`. -/
theorem C80_spr (hA : StAt m (packAd A o u n) (tri u n) Q) (hx : VecAt m x incX n xv)
    (hdx : StVecDisj (packAd A o u n) (tri u n) x incX n) :
    YieldsSt (spr o u n alpha x incX A) m (packAd A o u n) (tri u n) fun i j => Q i j + alpha * (xv i * xv j) := by
  cases o
  swap
  · rw [← stAt_sw, packAd_sw, sw_tri] at hA
    rw [← stVecDisj_sw, packAd_sw, sw_tri] at hdx
    refine yieldsSt_sw ?_
    rw [packAd_sw, sw_tri]
    refine (show YieldsSt (spr .rowMajor u.flip n alpha x incX A) m _ _ _ from spr_row hA hx hdx).congr fun i j _ => ?_
    simp only [sw]; ring
  · exact spr_row hA hx hdx

theorem spr2_row (hA : StAt m (packAd A .rowMajor u n) (tri u n) Q) (hx : VecAt m x incX n xv) (hy : VecAt m y incY n yv)
    (hdx : StVecDisj (packAd A .rowMajor u n) (tri u n) x incX n)
    (hdy : StVecDisj (packAd A .rowMajor u n) (tri u n) y incY n) :
    YieldsSt (spr2 .rowMajor u n alpha x incX y incY A) m (packAd A .rowMajor u n) (tri u n) fun i j =>
      Q i j + alpha * (xv i * yv j + yv i * xv j) := by
  refine yieldsSt_pack (rank2P (c := false) (g := fun v => alpha * v) (h := fun v => alpha * v) hA hx hy hdx hdy _
    fun i _ => rfl) fun i j _ => ?_
  simp only [cj]; simp; ring

/-- **C80** `spr2`: the packed triangle of `A + alpha (x yᵀ + y xᵀ)`. -/
theorem C80_spr2 (hA : StAt m (packAd A o u n) (tri u n) Q) (hx : VecAt m x incX n xv) (hy : VecAt m y incY n yv)
    (hdx : StVecDisj (packAd A o u n) (tri u n) x incX n) (hdy : StVecDisj (packAd A o u n) (tri u n) y incY n) :
    YieldsSt (spr2 o u n alpha x incX y incY A) m (packAd A o u n) (tri u n) fun i j =>
      Q i j + alpha * (xv i * yv j + yv i * xv j) := by
  cases o
  swap
  · rw [← stAt_sw, packAd_sw, sw_tri] at hA
    rw [← stVecDisj_sw, packAd_sw, sw_tri] at hdx hdy
    refine yieldsSt_sw ?_
    rw [packAd_sw, sw_tri]
    refine (show YieldsSt (spr2 .rowMajor u.flip n alpha x incX y incY A) m _ _ _ from
      spr2_row hA hx hy hdx hdy).congr fun i j _ => ?_
    simp only [sw]; ring
  · exact spr2_row hA hx hy hdx hdy

variable [DecidableEq K] {re : K → K}

theorem hpr_row {c : Bool} (hA : StAt m (packAd A .rowMajor u n) (tri u n) Q) (hx : VecAt m x incX n xv)
    (hdx : StVecDisj (packAd A .rowMajor u n) (tri u n) x incX n) :
    YieldsSt (do
      loop n fun i => herRow c ((tpRows u n A).len i) alpha (start n x incX + i * incX)
        (start n x incX + (tpRows u n A).first i * incX) incX ((tpRows u n A).row i)
      realDiagP re u n A) m (packAd A .rowMajor u n) (tri u n)
      (realD re fun i j => Q i j + alpha * cj c (xv i * star (xv j))) := by
  have h1 := rank1P (c := !c) (g := fun v => alpha * cj c v) hA hx hdx (fun i => herRow c ((tpRows u n A).len i) alpha
    (start n x incX + i * incX) (start n x incX + (tpRows u n A).first i * incX) incX ((tpRows u n A).row i))
    fun i _ => by cases c <;> simp [herRow, cj, axpyC]
  have h2 := realDiagP_run (re := re) (u := u) (n := n) (A := A) (m := m)
    (V := fun i j => Q i j + alpha * cj c (xv i) * cj (!c) (xv j))
  refine yieldsSt_pack ((bind_ok h1).trans h2) fun i j _ => ?_
  by_cases e : i = j
  · subst e; simp only [realD, if_true]; congr 2; cases c <;> simp [cj] <;> ring
  · simp only [realD, e, if_false]; congr 1; cases c <;> simp [cj] <;> ring

/-- **C80** `hpr`: the packed triangle of `A + alpha x xᴴ` with the real part of the diagonal; nothing is done for
`alpha = 0`. -/
theorem C80_hpr (hA : StAt m (packAd A o u n) (tri u n) Q) (hx : VecAt m x incX n xv)
    (hdx : StVecDisj (packAd A o u n) (tri u n) x incX n) :
    (alpha = 0 → hpr re o u n alpha x incX A m = .ok ((), m)) ∧
    (alpha ≠ 0 → YieldsSt (hpr re o u n alpha x incX A) m (packAd A o u n) (tri u n)
      (realD re fun i j => Q i j + alpha * (xv i * star (xv j)))) := by
  refine ⟨fun h => by simp [hpr, h, pure_ok], fun hal => ?_⟩
  unfold hpr
  rw [if_neg hal]
  cases o
  swap
  · rw [← stAt_sw, packAd_sw, sw_tri] at hA
    rw [← stVecDisj_sw, packAd_sw, sw_tri] at hdx
    refine yieldsSt_sw ?_
    rw [packAd_sw, sw_tri]
    refine YieldsSt.congr (hpr_row (re := re) (c := true) (alpha := alpha) hA hx hdx) fun i j _ => ?_
    by_cases e : i = j
    · subst e; simp [sw, realD, cj, mul_comm]
    · have e' : j ≠ i := fun h => e h.symm
      simp [sw, realD, e, e', cj, mul_comm]
  · exact (hpr_row (re := re) (c := false) (alpha := alpha) hA hx hdx)

theorem hpr2_row {c : Bool} (hA : StAt m (packAd A .rowMajor u n) (tri u n) Q) (hx : VecAt m x incX n xv)
    (hy : VecAt m y incY n yv) (hdx : StVecDisj (packAd A .rowMajor u n) (tri u n) x incX n)
    (hdy : StVecDisj (packAd A .rowMajor u n) (tri u n) y incY n) :
    YieldsSt (do
      loop n fun i => her2Row c ((tpRows u n A).len i) alpha (start n x incX + i * incX)
        (start n x incX + (tpRows u n A).first i * incX) incX (start n y incY + i * incY)
        (start n y incY + (tpRows u n A).first i * incY) incY ((tpRows u n A).row i)
      realDiagP re u n A) m (packAd A .rowMajor u n) (tri u n)
      (realD re fun i j => Q i j + cj c (alpha * (xv i * star (yv j)) + star alpha * (yv i * star (xv j)))) := by
  have h1 := rank2P (c := !c) (g := fun v => cj c (alpha * v)) (h := fun v => cj c (star alpha * v)) hA hx hy hdx hdy
    (fun i => her2Row c ((tpRows u n A).len i) alpha (start n x incX + i * incX)
        (start n x incX + (tpRows u n A).first i * incX) incX (start n y incY + i * incY)
        (start n y incY + (tpRows u n A).first i * incY) incY ((tpRows u n A).row i))
    fun i _ => by
      cases c
      · simp [her2Row, cj, axpyC]
      · simp [her2Row, cj, axpyC, mul_comm]
  have h2 := realDiagP_run (re := re) (u := u) (n := n) (A := A) (m := m)
    (V := fun i j => Q i j + cj c (alpha * xv i) * cj (!c) (yv j) + cj c (star alpha * yv i) * cj (!c) (xv j))
  refine yieldsSt_pack ((bind_ok h1).trans h2) fun i j _ => ?_
  by_cases e : i = j
  · subst e; simp only [realD, if_true]; congr 1; cases c <;> simp [cj] <;> ring
  · simp only [realD, e, if_false]; cases c <;> simp [cj] <;> ring

/-- **C80** `hpr2`: the packed triangle of `A + alpha x yᴴ + conj(alpha) y xᴴ` with the real part of the diagonal; nothing is
done for `alpha = 0`. -/
theorem C80_hpr2 (hA : StAt m (packAd A o u n) (tri u n) Q) (hx : VecAt m x incX n xv) (hy : VecAt m y incY n yv)
    (hdx : StVecDisj (packAd A o u n) (tri u n) x incX n) (hdy : StVecDisj (packAd A o u n) (tri u n) y incY n) :
    (alpha = 0 → hpr2 re o u n alpha x incX y incY A m = .ok ((), m)) ∧
    (alpha ≠ 0 → YieldsSt (hpr2 re o u n alpha x incX y incY A) m (packAd A o u n) (tri u n)
      (realD re fun i j => Q i j + (alpha * (xv i * star (yv j)) + star alpha * (yv i * star (xv j))))) := by
  refine ⟨fun h => by simp [hpr2, h, pure_ok], fun hal => ?_⟩
  unfold hpr2
  rw [if_neg hal]
  cases o
  swap
  · rw [← stAt_sw, packAd_sw, sw_tri] at hA
    rw [← stVecDisj_sw, packAd_sw, sw_tri] at hdx hdy
    refine yieldsSt_sw ?_
    rw [packAd_sw, sw_tri]
    refine YieldsSt.congr (hpr2_row (re := re) (c := true) (alpha := alpha) hA hx hy hdx hdy) fun i j _ => ?_
    by_cases e : i = j
    · subst e; simp only [sw, realD, if_true]; congr 2; simp [cj]; ring
    · have e' : j ≠ i := fun h => e h.symm
      simp only [sw, realD, e, e', if_false]; congr 1; simp [cj]; ring
  · exact (hpr2_row (re := re) (c := false) (alpha := alpha) hA hx hy hdx hdy)

end rank

example : (peek (spr (K := Int) .colMajor .lower 2 2 10 1 0 exPack) fun _ m => (m 0, m 1, m 2)) =
    .ok (.val 3, .val 22, .val 203) := by decide

/-! ### C81: products and solves with banded and packed triangular matrices -/

section tri
variable {o : Order} {u : UpLo} {t : Trans} {d : Diag} {n k : Nat} {A ld x incX : Int} {m : Mem K} {Q : Nat → Nat → K}
  {xv b : Nat → K}

/-- **C81** `tbmv`: `x := op(T) x` for the triangular matrix `T` with `k` diagonals beside the main diagonal; with a unit
diagonal the stored diagonal is not read. -/
theorem C81_tbmv [CommRing K] [StarRing K]
    (hA : StAt m (bandAd A o ld (lowerK u k) (upperK u k)) (triBand u d k n) Q) (hx : VecAt m x incX n xv) (hi : incX ≠ 0)
    (hdA : StVecDisj (bandAd A o ld (lowerK u k) (upperK u k)) (triBand u d k n) x incX n) :
    Yields (tbmv o u t d n k A ld x incX) m x incX n fun i =>
      ∑ j ∈ range n, opM t (triM u d (bandM (lowerK u k) (upperK u k) Q)) i j * xv j := by
  rw [← triOp_eq t u d _ (star_zero K) (star_one K)]
  unfold tbmv
  by_cases h0 : n = 0
  · subst h0
    simp only [if_true]
    exact yields_of_snap hi (congrArg (fun z => Out.ok ((), z)) (snap_eq hi fun i h => absurd h (Nat.not_lt_zero i)))
  rw [if_neg h0]
  have key : ∀ (u : UpLo) (trans c : Bool) (Q : Nat → Nat → K),
      StAt m (bandAd A .rowMajor ld (lowerK u k) (upperK u k)) (triBand u d k n) Q →
      StVecDisj (bandAd A .rowMajor ld (lowerK u k) (upperK u k)) (triBand u d k n) x incX n →
      Yields (trowsMv false (tbRows u n k A ld) u trans c d n x incX) m x incX n fun i =>
        ∑ j ∈ range n, triOp u trans c d (bandM (lowerK u k) (upperK u k) Q) i j * xv j := by
    intro u trans c Q hA hdA
    have hin := tbRows_in u n k A ld
    have := trowsMv_run (packed := false) (trans := trans) (c := c) (tbRows_tri u n k A ld) (hin.atD hA) hx hi (hin.disjD hdA)
    refine (yields_of_snap hi this).congr fun i hi' => sum_congr rfl fun j hj => ?_
    rw [mem_range] at hj
    rw [triOp_congr hi' hj fun i j h => tbRows_M h.2.1 Q]
  cases o
  swap
  · rw [← stAt_sw, bandAd_sw, triBand_sw, show upperK u k = lowerK u.flip k by rw [lowerK_flip],
      show lowerK u k = upperK u.flip k by rw [upperK_flip]] at hA
    rw [← stVecDisj_sw, bandAd_sw, triBand_sw, show upperK u k = lowerK u.flip k by rw [lowerK_flip],
      show lowerK u k = upperK u.flip k by rw [upperK_flip]] at hdA
    have := key u.flip t.flip.trans t.flip.conj _ hA hdA
    rw [lowerK_flip, upperK_flip, bandM_sw, triOp_flip] at this
    exact this
  · exact key u t.trans t.conj _ hA hdA

/-- **C81** `tpmv`: the same for a packed triangular matrix. -/
theorem C81_tpmv [CommRing K] [StarRing K] (hA : StAt m (packAd A o u n) (stored u d n) Q) (hx : VecAt m x incX n xv)
    (hi : incX ≠ 0) (hdA : StVecDisj (packAd A o u n) (stored u d n) x incX n) :
    Yields (tpmv o u t d n A x incX) m x incX n fun i => ∑ j ∈ range n, opM t (triM u d Q) i j * xv j := by
  rw [← triOp_eq t u d Q (star_zero K) (star_one K)]
  have key : ∀ (u : UpLo) (trans c : Bool) (Q : Nat → Nat → K),
      StAt m (packAd A .rowMajor u n) (stored u d n) Q → StVecDisj (packAd A .rowMajor u n) (stored u d n) x incX n →
      Yields (trowsMv true (tpRows u n A) u trans c d n x incX) m x incX n fun i =>
        ∑ j ∈ range n, triOp u trans c d Q i j * xv j := by
    intro u trans c Q hA hdA
    have hin := tpRows_in u n A
    have := trowsMv_run (packed := true) (trans := trans) (c := c) (tpRows_tri u n A) (hin.atD hA) hx hi (hin.disjD hdA)
    refine (yields_of_snap hi this).congr fun i hi' => sum_congr rfl fun j hj => ?_
    rw [mem_range] at hj
    rw [triOp_congr hi' hj fun i j h => tpRows_M h Q]
  cases o
  swap
  · rw [← stAt_sw, packAd_sw, sw_stored] at hA
    rw [← stVecDisj_sw, packAd_sw, sw_stored] at hdA
    have := key u.flip t.flip.trans t.flip.conj _ hA hdA
    rw [triOp_flip] at this
    exact this
  · exact key u t.trans t.conj _ hA hdA

/-- **C81** `tbsv`: the solution of `op(T) x = b`, for a banded triangular matrix `T` without zeros on the diagonal. -/
theorem C81_tbsv [Field K] [StarRing K]
    (hA : StAt m (bandAd A o ld (lowerK u k) (upperK u k)) (triBand u d k n) Q) (hx : VecAt m x incX n b) (hi : incX ≠ 0)
    (hdA : StVecDisj (bandAd A o ld (lowerK u k) (upperK u k)) (triBand u d k n) x incX n)
    (hnz : d = .nonUnit → ∀ i, i < n → Q i i ≠ 0) :
    ∃ xv, Yields (tbsv o u t d n k A ld x incX) m x incX n xv ∧
      ∀ i, i < n → ∑ j ∈ range n, opM t (triM u d (bandM (lowerK u k) (upperK u k) Q)) i j * xv j = b i := by
  rw [← triOp_eq t u d _ (star_zero K) (star_one K)]
  unfold tbsv
  by_cases h0 : n = 0
  · subst h0
    simp only [if_true]
    exact ⟨b, yields_of_snap hi (congrArg (fun z => Out.ok ((), z)) (snap_eq hi fun i h => absurd h (Nat.not_lt_zero i))),
      fun i h => absurd h (Nat.not_lt_zero i)⟩
  rw [if_neg h0]
  have key : ∀ (u : UpLo) (trans c : Bool) (Q : Nat → Nat → K), (d = .nonUnit → ∀ i, i < n → Q i i ≠ 0) →
      StAt m (bandAd A .rowMajor ld (lowerK u k) (upperK u k)) (triBand u d k n) Q →
      StVecDisj (bandAd A .rowMajor ld (lowerK u k) (upperK u k)) (triBand u d k n) x incX n →
      ∃ xv, Yields (trowsSv false (tbRows u n k A ld) u trans c d n x incX) m x incX n xv ∧
        ∀ i, i < n → ∑ j ∈ range n, triOp u trans c d (bandM (lowerK u k) (upperK u k) Q) i j * xv j = b i := by
    intro u trans c Q hnz hA hdA
    have hin := tbRows_in u n k A ld
    obtain ⟨xs, h1, h2⟩ := trowsSv_run (packed := false) (trans := trans) (c := c) (tbRows_tri u n k A ld) (hin.atD hA) hx hi
      (hin.disjD hdA) hnz
    refine ⟨xs, yields_of_snap hi h1, fun i hi' => (sum_congr rfl fun j hj => ?_).trans (h2 i hi')⟩
    rw [mem_range] at hj
    rw [triOp_congr hi' hj fun i j h => tbRows_M h.2.1 Q]
  cases o
  swap
  · rw [← stAt_sw, bandAd_sw, triBand_sw, show upperK u k = lowerK u.flip k by rw [lowerK_flip],
      show lowerK u k = upperK u.flip k by rw [upperK_flip]] at hA
    rw [← stVecDisj_sw, bandAd_sw, triBand_sw, show upperK u k = lowerK u.flip k by rw [lowerK_flip],
      show lowerK u k = upperK u.flip k by rw [upperK_flip]] at hdA
    have := key u.flip t.flip.trans t.flip.conj (sw Q) hnz hA hdA
    rw [lowerK_flip, upperK_flip, bandM_sw, triOp_flip] at this
    exact this
  · exact key u t.trans t.conj _ hnz hA hdA

/-- **C81** `tpsv`: the same for a packed triangular matrix. -/
theorem C81_tpsv [Field K] [StarRing K] (hA : StAt m (packAd A o u n) (stored u d n) Q) (hx : VecAt m x incX n b)
    (hi : incX ≠ 0) (hdA : StVecDisj (packAd A o u n) (stored u d n) x incX n)
    (hnz : d = .nonUnit → ∀ i, i < n → Q i i ≠ 0) :
    ∃ xv, Yields (tpsv o u t d n A x incX) m x incX n xv ∧
      ∀ i, i < n → ∑ j ∈ range n, opM t (triM u d Q) i j * xv j = b i := by
  rw [← triOp_eq t u d Q (star_zero K) (star_one K)]
  have key : ∀ (u : UpLo) (trans c : Bool) (Q : Nat → Nat → K), (d = .nonUnit → ∀ i, i < n → Q i i ≠ 0) →
      StAt m (packAd A .rowMajor u n) (stored u d n) Q → StVecDisj (packAd A .rowMajor u n) (stored u d n) x incX n →
      ∃ xv, Yields (trowsSv true (tpRows u n A) u trans c d n x incX) m x incX n xv ∧
        ∀ i, i < n → ∑ j ∈ range n, triOp u trans c d Q i j * xv j = b i := by
    intro u trans c Q hnz hA hdA
    have hin := tpRows_in u n A
    obtain ⟨xs, h1, h2⟩ := trowsSv_run (packed := true) (trans := trans) (c := c) (tpRows_tri u n A) (hin.atD hA) hx hi
      (hin.disjD hdA) hnz
    refine ⟨xs, yields_of_snap hi h1, fun i hi' => (sum_congr rfl fun j hj => ?_).trans (h2 i hi')⟩
    rw [mem_range] at hj
    rw [triOp_congr hi' hj fun i j h => tpRows_M h Q]
  cases o
  swap
  · rw [← stAt_sw, packAd_sw, sw_stored] at hA
    rw [← stVecDisj_sw, packAd_sw, sw_stored] at hdA
    have := key u.flip t.flip.trans t.flip.conj (sw Q) hnz hA hdA
    rw [triOp_flip] at this
    exact this
  · exact key u t.trans t.conj _ hnz hA hdA

theorem inverse_of [Field K] {P : Nat → Nat → Prop} {ad : Nat → Nat → Int} {T : Nat → Nat → K} {sv mv : M K Unit}
    (hx : VecAt m x incX n b) (hA : StAt m ad P Q) (hdA : StVecDisj ad P x incX n)
    (hs : ∃ xv, Yields sv m x incX n xv ∧ ∀ i, i < n → ∑ j ∈ range n, T i j * xv j = b i)
    (hm : ∀ m' xv, StAt m' ad P Q → VecAt m' x incX n xv → Yields mv m' x incX n fun i => ∑ j ∈ range n, T i j * xv j) :
    (do sv; mv : M K Unit) m = .ok ((), m) := by
  obtain ⟨xs, ⟨m', h1, h2, h3⟩, h4⟩ := hs
  have hA' : StAt m' ad P Q := fun i j hp => by
    rw [h3 _ fun k hk => hdA i j k hp hk]; exact hA i j hp
  obtain ⟨m'', g1, g2, g3⟩ := hm m' xs hA' h2
  refine (bind_ok h1).trans (g1.trans ?_)
  refine congrArg (fun z => Out.ok ((), z)) (funext fun a => ?_)
  by_cases ha : ∃ i, i < n ∧ a = elem x incX n i
  · obtain ⟨i, hin, rfl⟩ := ha
    exact (g2 i hin).trans ((congrArg Cell.val (h4 i hin)).trans (hx i hin).symm)
  · have : ∀ i, i < n → a ≠ elem x incX n i := fun i hin e => ha ⟨i, hin, e⟩
    rw [g3 a this, h3 a this]

/-- **C81** Multiplying by a banded triangular matrix after solving gives the memory back as it was. -/
theorem C81_band_inverse [Field K] [StarRing K]
    (hA : StAt m (bandAd A o ld (lowerK u k) (upperK u k)) (triBand u d k n) Q) (hx : VecAt m x incX n b) (hi : incX ≠ 0)
    (hdA : StVecDisj (bandAd A o ld (lowerK u k) (upperK u k)) (triBand u d k n) x incX n)
    (hnz : d = .nonUnit → ∀ i, i < n → Q i i ≠ 0) :
    (do tbsv o u t d n k A ld x incX; tbmv o u t d n k A ld x incX : M K Unit) m = .ok ((), m) :=
  inverse_of hx hA hdA (C81_tbsv hA hx hi hdA hnz) fun _ _ hA' hx' => C81_tbmv hA' hx' hi hdA

/-- **C81** The same for a packed one. -/
theorem C81_pack_inverse [Field K] [StarRing K] (hA : StAt m (packAd A o u n) (stored u d n) Q) (hx : VecAt m x incX n b)
    (hi : incX ≠ 0) (hdA : StVecDisj (packAd A o u n) (stored u d n) x incX n)
    (hnz : d = .nonUnit → ∀ i, i < n → Q i i ≠ 0) :
    (do tpsv o u t d n A x incX; tpmv o u t d n A x incX : M K Unit) m = .ok ((), m) :=
  inverse_of hx hA hdA (C81_tpsv hA hx hi hdA hnz) fun _ _ hA' hx' => C81_tpmv hA' hx' hi hdA

end tri

/-- A memory for the examples over the rationals: a packed upper triangle at 0 of order 2, a vector at 10. -/
def exPackQ : Mem Rat := fun a =>
  if a = 0 then .val 2 else if a = 1 then .val 3 else if a = 2 then .val 4 else if a = 10 then .val 7
  else if a = 12 then .val 8 else .out

example : StAt exPackQ (packAd 0 .rowMajor .upper 2) (stored .upper .nonUnit 2)
      (fun i j => if i = 1 then 4 else if j = 0 then 2 else 3) ∧
    VecAt exPackQ 10 2 2 (fun i => (i : Rat) + 7) ∧ StVecDisj (packAd 0 .rowMajor .upper 2) (stored .upper .nonUnit 2) 10 2 2 := by
  refine ⟨fun i j h => ?_, fun i h => ?_, fun i j k h hk => ?_⟩
  · obtain ⟨⟨h1, h2, h3⟩, -⟩ := h
    interval_cases i <;> interval_cases j <;>
      first | (simp [exPackQ, packAd, packIdx, packRow]; done) | (exact absurd h3 (by decide))
  · interval_cases i <;> simp [exPackQ, elem]; norm_num
  · obtain ⟨⟨h1, h2, h3⟩, -⟩ := h
    interval_cases i <;> interval_cases j <;> interval_cases k <;>
      first | (simp [packAd, packIdx, packRow, elem]; done) | (exact absurd h3 (by decide))

example : (peek (tpsv (K := Rat) .rowMajor .upper noTrans .nonUnit 2 0 10 2 exPackQ) fun _ m => (m 10, m 12)) =
    .ok (.val (1 / 2), .val 2) := by
  decide +kernel

end Verif.Blas
