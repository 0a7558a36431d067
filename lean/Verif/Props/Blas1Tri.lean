import Verif.Props.Blas1Mat

/-! Property theorems for the level-1 routines of cxxblas on triangles and trapezoids (C92). -/

namespace Verif.Blas

variable {K : Type}

/-! ### C92: copies, sums and multiples of trapezoids -/

section tr
variable {o : Order} {u : UpLo} {t : Trans} {d : Diag} {r c : Nat} {A ldA B ldB : Int} {m : Mem K} {QA QB : Nat → Nat → K}

theorem sw_trap (u : UpLo) (d : Diag) (r c : Nat) : sw (trap u d r c) = trap u.flip d c r := by
  funext i j
  cases u <;> simp only [sw, trap, UpLo.flip] <;> apply propext <;> constructor <;> rintro ⟨h1, h2, h3, h4⟩ <;>
    exact ⟨h2, h1, h3, fun e => (h4 e).symm⟩

theorem opAtP {ad : Nat → Nat → Int} {P : Nat → Nat → Prop} (h : StAt m ad (opP t P) QA) : StAt m (opP t ad) P (opP t QA) := by
  intro i j hp
  unfold opP at h ⊢
  cases ht : t.trans <;> simp only [ht, Bool.false_eq_true, if_false, if_true] at h ⊢
  · exact h i j hp
  · exact h j i hp

theorem opDisjP {ad ad' : Nat → Nat → Int} {P P' : Nat → Nat → Prop} (h : StDisj ad (opP t P) ad' P') :
    StDisj (opP t ad) P ad' P' := by
  intro i j k l hp hq
  unfold opP at h ⊢
  cases ht : t.trans <;> simp only [ht, Bool.false_eq_true, if_false, if_true] at h ⊢
  · exact h i j k l hp hq
  · exact h j i k l hp hq

theorem matAd_injC {C ld : Int} {P : Nat → Nat → Prop} (h : ∀ i j, P i j → (i : Int) < ld) (i j k l : Nat) (h1 : P i j)
    (h2 : P k l) (e : matAd C .colMajor ld i j = matAd C .colMajor ld k l) : i = k ∧ j = l := by
  simp only [matAd, idx_col] at e
  obtain ⟨e1, e2⟩ := matAd_inj (C := C) (ld := ld) (h i j h1) (h k l h2) e
  exact ⟨e2, e1⟩

theorem trCol_run {op cop : VecOp K} {g : K → K → K} {need : Prop} (hop : Acts (if t.conj then cop else op) g need)
    (hA : StAt m (opP t (matAd A .colMajor ldA)) (trap u .nonUnit r c) (opP t QA)) (h0 : 0 ≤ ldA)
    (hB : MatMem m B .colMajor ldB (trap u .nonUnit r c)) (hb : need → MatAt m B .colMajor ldB (trap u .nonUnit r c) QB)
    (hld : (r : Int) ≤ ldB)
    (hd : StDisj (opP t (matAd A .colMajor ldA)) (trap u .nonUnit r c) (matAd B .colMajor ldB) (trap u .nonUnit r c)) :
    YieldsSt (trCol op cop u t r c A ldA B ldB) m (matAd B .colMajor ldB) (trap u .nonUnit r c) fun i j =>
      g (QB i j) (opP t QA i j) := by
  have hinj := matAd_injC (C := B) (ld := ldB) (P := trap u .nonUnit r c) fun i j h => by have := h.1; omega
  unfold trCol
  cases u
  · have key : ∀ (x : Nat → Int) (ix : Int), (∀ l k : Nat, l < c → k < min (l + 1) r →
        elem (x l) ix (min (l + 1) r) k = opP t (matAd A .colMajor ldA) k l) →
        YieldsSt (loop c fun l => (if t.conj then cop else op) (min (l + 1) r) (x l) ix (B + l * ldB) 1) m
          (matAd B .colMajor ldB) (trap .upper .nonUnit r c) fun i j => g (QB i j) (opP t QA i j) := by
      intro x ix hx
      refine act_run hop (len := fun l => min (l + 1) r) (ix := fun _ => ix) (iy := fun _ => 1) (fun _ k => k) (fun l _ => l)
        (fun l k hl hk => ⟨by omega, hl, by simp only; omega, by simp⟩) (fun l k hl hk => elem_colC _ l k) hx
        (fun i j h => ⟨j, i, h.2.1, ?_, rfl, rfl⟩) (fun l k l' k' _ _ _ _ _ e => e) hinj (fun _ _ => by decide) hA hd hB hb
      have h1 := h.1
      have h2 := h.2.2.1
      simp only at h2
      omega
    cases ht : t.trans
    · refine key (fun l => A + l * ldA) 1 fun l k _ _ => ?_
      simp only [opP, ht, Bool.false_eq_true, if_false]
      exact elem_colC _ l k
    · refine key (fun l => A + l) ldA fun l k _ _ => ?_
      simp only [opP, ht, if_true]
      exact elem_rowC h0 _ l k
  · have key : ∀ (ix : Int), (∀ l k : Nat, l < min r c → k < r - l →
        elem (A + l * (ldA + 1)) ix (r - l) k = opP t (matAd A .colMajor ldA) (l + k) l) →
        YieldsSt (loop (min r c) fun l => (if t.conj then cop else op) (r - l) (A + l * (ldA + 1)) ix (B + l * (ldB + 1)) 1) m
          (matAd B .colMajor ldB) (trap .lower .nonUnit r c) fun i j => g (QB i j) (opP t QA i j) := by
      intro ix hx
      refine act_run hop (len := fun l => r - l) (ix := fun _ => ix) (iy := fun _ => 1) (fun l k => l + k) (fun l _ => l)
        (fun l k hl hk => ⟨by omega, by omega, by simp only; omega, by simp⟩) (fun l k hl hk => ?_) hx
        (fun i j h => ⟨j, i - j, ?_, ?_, ?_, rfl⟩) (fun l k l' k' _ _ _ _ _ e => e) hinj (fun _ _ => by decide) hA hd hB hb
      · rw [elem_one]; simp only [matAd, idx]; push_cast; ring
      all_goals
        have h1 := h.1
        have h1' := h.2.1
        have h2 := h.2.2.1
        simp only at h2
        omega
    cases ht : t.trans
    · refine key 1 fun l k _ _ => ?_
      simp only [opP, ht, Bool.false_eq_true, if_false]
      rw [elem_one]; simp only [matAd, idx]; push_cast; ring
    · refine key ldA fun l k _ _ => ?_
      simp only [opP, ht, if_true]
      rw [elem_pos h0]; simp only [matAd, idx]; push_cast; ring

/-- The exchange of rows and columns, for a routine on the positions `P` of `op(A)` and `B`. -/
theorem opM_swap (t : Trans) (A ldA : Int) : opP t (matAd A .colMajor ldA) = sw (opP t (matAd A .rowMajor ldA)) := by
  rw [← matAd_sw]; rfl

theorem stAt_opRow {P : Nat → Nat → Prop} (h : StAt m (opP t (matAd A .rowMajor ldA)) P (opP t QA)) :
    StAt m (opP t (matAd A .colMajor ldA)) (sw P) (opP t (sw QA)) := by
  rw [opM_swap]; exact fun i j hp => h j i hp

theorem stDisj_opRow {P : Nat → Nat → Prop}
    (h : StDisj (opP t (matAd A .rowMajor ldA)) P (matAd B .rowMajor ldB) P) :
    StDisj (opP t (matAd A .colMajor ldA)) (sw P) (matAd B .colMajor ldB) (sw P) := by
  rw [opM_swap]
  intro i j k l hp hq e
  refine h j i l k hp hq ?_
  rw [← matAd_sw B]
  exact e

theorem matAt_row {P : Nat → Nat → Prop} (h : MatAt m B .rowMajor ldB P QB) : MatAt m B .colMajor ldB (sw P) (sw QB) := by
  intro i j hp; rw [idx_col]; exact h j i hp

theorem matMem_row {P : Nat → Nat → Prop} (h : MatMem m B .rowMajor ldB P) : MatMem m B .colMajor ldB (sw P) := by
  intro i j hp; rw [idx_col]; exact h j i hp

theorem yieldsSt_row {cm : M K Unit} {P : Nat → Nat → Prop} {V : Nat → Nat → K}
    (h : YieldsSt cm m (matAd B .colMajor ldB) (sw P) (sw V)) : YieldsSt cm m (matAd B .rowMajor ldB) P V := by
  refine yieldsSt_sw ?_
  rw [← matAd_sw]; exact h

theorem trOp_run {op cop : VecOp K} {g : K → K → K} {need : Prop} (hop : Acts (if t.conj then cop else op) g need)
    (hA : MatAt m A o ldA (opP t (trap u .nonUnit r c)) QA) (hldA : LdOk o ldA (opRows t r c) (opCols t r c))
    (hB : MatMem m B o ldB (trap u .nonUnit r c)) (hb : need → MatAt m B o ldB (trap u .nonUnit r c) QB) (hldB : LdOk o ldB r c)
    (hd : StDisj (matAd A o ldA) (opP t (trap u .nonUnit r c)) (matAd B o ldB) (trap u .nonUnit r c)) :
    YieldsMat (trOp op cop o u t .nonUnit r c A ldA B ldB) m B o ldB (trap u .nonUnit r c) fun i j =>
      g (QB i j) (opP t QA i j) := by
  have h0 := ldOk_nonneg hldA
  have hA' : StAt m (opP t (matAd A o ldA)) _ _ := opAtP hA
  have hd' := opDisjP hd
  cases o
  · refine yieldsSt_row ?_
    have h1 := stAt_opRow hA'
    have h2 := stDisj_opRow hd'
    have h3 := matMem_row hB
    have h4 := fun h => matAt_row (hb h)
    rw [sw_trap] at h1 h2 h3 h4 ⊢
    exact trCol_run hop h1 h0 h3 h4 hldB h2
  · exact trCol_run hop hA' h0 hB hb hldB hd'

/-- **C92** `traxpy`: the trapezoid of `B + alpha op(A)`; only the positions of `A` that `op` takes there are read. -/
theorem C92_traxpy [Mul K] [Add K] [Star K] {alpha : K} (hA : MatAt m A o ldA (opP t (trap u .nonUnit r c)) QA)
    (hldA : LdOk o ldA (opRows t r c) (opCols t r c)) (hB : MatAt m B o ldB (trap u .nonUnit r c) QB) (hldB : LdOk o ldB r c)
    (hd : StDisj (matAd A o ldA) (opP t (trap u .nonUnit r c)) (matAd B o ldB) (trap u .nonUnit r c)) :
    YieldsMat (traxpy o u t .nonUnit r c alpha A ldA B ldB) m B o ldB (trap u .nonUnit r c) fun i j =>
      QB i j + alpha * opM t QA i j :=
  trOp_run ((acts_axpy alpha).ite (acts_acxpy alpha) t.conj) hA hldA (fun i j hp => by rw [hB i j hp]; simp) (fun _ => hB) hldB hd

/-- **C92** `traxpby`: the trapezoid of `beta B + alpha op(A)`; with `beta = 0` the old `B` may be uninitialised. -/
theorem C92_traxpby [CommRing K] [Star K] [DecidableEq K] {alpha beta : K}
    (hA : MatAt m A o ldA (opP t (trap u .nonUnit r c)) QA)
    (hldA : LdOk o ldA (opRows t r c) (opCols t r c)) (hB : MatMem m B o ldB (trap u .nonUnit r c))
    (hb : beta ≠ 0 → MatAt m B o ldB (trap u .nonUnit r c) QB) (hldB : LdOk o ldB r c)
    (hd : StDisj (matAd A o ldA) (opP t (trap u .nonUnit r c)) (matAd B o ldB) (trap u .nonUnit r c)) :
    YieldsMat (traxpby o u t .nonUnit r c alpha A ldA beta B ldB) m B o ldB (trap u .nonUnit r c) fun i j =>
      beta * QB i j + alpha * opM t QA i j :=
  trOp_run ((acts_axpby alpha beta).ite (acts_acxpby alpha beta) t.conj) hA hldA hB hb hldB hd

/-- **C92** `traxpy` and `traxpby` of triangles with a unit diagonal fail an assertion. -/
theorem C92_unit_assert [CommRing K] [Star K] [DecidableEq K] {alpha beta : K} :
    traxpy o u t .unit r c alpha A ldA B ldB m = assertFail m ∧
    traxpby o u t .unit r c alpha A ldA beta B ldB m = assertFail m := ⟨rfl, rfl⟩

/-! ### `trcopy` -/

/-- The positions `trcopy` writes. -/
def copied (u : UpLo) (d : Diag) (r c : Nat) (i j : Nat) : Prop :=
  trap u d r c i j ∧ (d = .unit →
    match u with
    | .upper => i + 1 < r
    | .lower => j + 1 < c)

theorem sw_copied (u : UpLo) (d : Diag) (r c : Nat) : sw (copied u d r c) = copied u.flip d c r := by
  funext i j
  have := congrFun (congrFun (sw_trap u d r c) i) j
  simp only [sw] at this
  cases u <;> simp only [sw, copied, UpLo.flip, this]

theorem trcopyCol_run [Star K] (hA : StAt m (opP t (matAd A .colMajor ldA)) (copied u d r c) (opP t QA)) (h0 : 0 ≤ ldA)
    (hB : MatMem m B .colMajor ldB (copied u d r c)) (hld : (r : Int) ≤ ldB)
    (hd : StDisj (opP t (matAd A .colMajor ldA)) (copied u d r c) (matAd B .colMajor ldB) (copied u d r c)) :
    YieldsSt (trcopyCol u t d r c A ldA B ldB) m (matAd B .colMajor ldB) (copied u d r c) (opM t QA) := by
  have hop : Acts (if t.conj then ccopy else copy) (fun w v => cj t.conj v) False := (acts_copy (K := K)).ite acts_ccopy t.conj
  cases d
  · have e1 : ∀ {C ld : Int} (i j : Nat), matAd (C + ld) .colMajor ld i j = matAd C .colMajor ld i (j + 1) := by
      intro C ld i j; simp only [matAd, idx]; push_cast; ring
    have e2 : ∀ {C ld : Int} (i j : Nat), matAd (C + 1) .colMajor ld i j = matAd C .colMajor ld (i + 1) j := by
      intro C ld i j; simp only [matAd, idx]; push_cast; ring
    cases u
    · have hp : ∀ i j, copied .upper .unit r c i j ↔ 0 ≤ i ∧ 1 ≤ j ∧ trap .upper .nonUnit (r - 1) (c - 1) (i - 0) (j - 1) := by
        intro i j
        simp only [copied, trap, forall_true_left, reduceCtorEq, IsEmpty.forall_iff, and_true]
        omega
      have hp' : ∀ {i j}, trap .upper .nonUnit (r - 1) (c - 1) i j → copied .upper .unit r c i (j + 1) :=
        fun {i j} h => (hp i (j + 1)).2 ⟨by omega, by omega, by simpa using h⟩
      have fin : ∀ A' : Int, (∀ i j, opP t (matAd A' .colMajor ldA) i j = opP t (matAd A .colMajor ldA) i (j + 1)) →
          YieldsSt (trCol copy ccopy .upper t (r - 1) (c - 1) A' ldA (B + ldB) ldB) m (matAd B .colMajor ldB)
            (copied .upper .unit r c) (opM t QA) := by
        intro A' hA'
        refine YieldsSt.shift 0 1 ?_ hp
        have := trCol_run (m := m) (t := t) (u := .upper) (r := r - 1) (c := c - 1) (A := A') (ldA := ldA) (B := B + ldB) (ldB := ldB)
          (QA := if t.trans then fun i j => QA (i + 1) j else fun i j => QA i (j + 1)) (QB := QA) hop
          (fun i j h => by
            rw [hA', hA _ _ (hp' h)]
            unfold opP
            cases t.trans <;> rfl)
          h0 (fun i j h => by
            have := hB _ _ (hp' h)
            rwa [show B + idx .colMajor ldB i (j + 1) = B + ldB + idx .colMajor ldB i j from (e1 i j).symm] at this)
          (fun h => h.elim) (by omega)
          (fun i j k l h h' => by rw [hA', e1]; exact hd _ _ _ _ (hp' h) (hp' h'))
        have e3 : matAd (B + ldB) .colMajor ldB = fun i j => matAd B .colMajor ldB (i + 0) (j + 1) := by
          funext i j; exact e1 i j
        rw [e3] at this
        refine this.congr fun i j _ => ?_
        unfold opM opP
        cases t.trans <;> rfl
      unfold trcopyCol
      cases ht : t.trans <;> refine fin _ fun i j => ?_ <;> simp only [opP, ht, Bool.false_eq_true, if_false, if_true]
      · exact e1 i j
      · exact e2 j i
    · have hp : ∀ i j, copied .lower .unit r c i j ↔ 1 ≤ i ∧ 0 ≤ j ∧ trap .lower .nonUnit (r - 1) (c - 1) (i - 1) (j - 0) := by
        intro i j
        simp only [copied, trap, forall_true_left, reduceCtorEq, IsEmpty.forall_iff, and_true]
        omega
      have hp' : ∀ {i j}, trap .lower .nonUnit (r - 1) (c - 1) i j → copied .lower .unit r c (i + 1) j :=
        fun {i j} h => (hp (i + 1) j).2 ⟨by omega, by omega, by simpa using h⟩
      have fin : ∀ A' : Int, (∀ i j, opP t (matAd A' .colMajor ldA) i j = opP t (matAd A .colMajor ldA) (i + 1) j) →
          YieldsSt (trCol copy ccopy .lower t (r - 1) (c - 1) A' ldA (B + 1) ldB) m (matAd B .colMajor ldB)
            (copied .lower .unit r c) (opM t QA) := by
        intro A' hA'
        refine YieldsSt.shift 1 0 ?_ hp
        have := trCol_run (m := m) (t := t) (u := .lower) (r := r - 1) (c := c - 1) (A := A') (ldA := ldA) (B := B + 1) (ldB := ldB)
          (QA := if t.trans then fun i j => QA i (j + 1) else fun i j => QA (i + 1) j) (QB := QA) hop
          (fun i j h => by
            rw [hA', hA _ _ (hp' h)]
            unfold opP
            cases t.trans <;> rfl)
          h0 (fun i j h => by
            have := hB _ _ (hp' h)
            rwa [show B + idx .colMajor ldB (i + 1) j = B + 1 + idx .colMajor ldB i j from (e2 i j).symm] at this)
          (fun h => h.elim) (by omega)
          (fun i j k l h h' => by rw [hA', e2]; exact hd _ _ _ _ (hp' h) (hp' h'))
        have e3 : matAd (B + 1) .colMajor ldB = fun i j => matAd B .colMajor ldB (i + 1) (j + 0) := by
          funext i j; exact e2 i j
        rw [e3] at this
        refine this.congr fun i j _ => ?_
        unfold opM opP
        cases t.trans <;> rfl
      unfold trcopyCol
      cases ht : t.trans <;> refine fin _ fun i j => ?_ <;> simp only [opP, ht, Bool.false_eq_true, if_false, if_true]
      · exact e2 i j
      · exact e1 j i
  · have hp : copied u .nonUnit r c = trap u .nonUnit r c := by
      funext i j; simp [copied]
    rw [hp] at hA hB hd ⊢
    exact trCol_run (QB := QA) hop hA h0 hB (fun h => h.elim) hld hd

/-- **C92** `trcopy` writes `op(A)` to the positions `copied` and nothing else: with a unit diagonal the last row of an upper
trapezoid and the last column of a lower one are left out. -/
theorem C92_trcopy_copied [Star K] (hA : MatAt m A o ldA (opP t (copied u d r c)) QA)
    (hldA : LdOk o ldA (opRows t r c) (opCols t r c)) (hB : MatMem m B o ldB (copied u d r c)) (hldB : LdOk o ldB r c)
    (hd : StDisj (matAd A o ldA) (opP t (copied u d r c)) (matAd B o ldB) (copied u d r c)) :
    YieldsMat (trcopy o u t d r c A ldA B ldB) m B o ldB (copied u d r c) (opM t QA) := by
  have h0 := ldOk_nonneg hldA
  have hA' : StAt m (opP t (matAd A o ldA)) _ _ := opAtP hA
  have hd' := opDisjP hd
  cases o
  · refine yieldsSt_row ?_
    have h1 := stAt_opRow hA'
    have h2 := stDisj_opRow hd'
    have h3 := matMem_row hB
    rw [sw_copied] at h1 h2 h3 ⊢
    exact trcopyCol_run h1 h0 h3 hldB h2
  · exact trcopyCol_run hA' h0 hB hldB hd'

/-- The property for `trcopy`: the stored positions of `B` get those of `op(A)`; nothing else is touched. -/
def TrcopyOk (K : Type) [Star K] (o : Order) (u : UpLo) (t : Trans) (d : Diag) (r c : Nat) : Prop :=
  ∀ (A ldA B ldB : Int) (m : Mem K) (QA : Nat → Nat → K), MatAt m A o ldA (opP t (trap u d r c)) QA →
    LdOk o ldA (opRows t r c) (opCols t r c) → MatMem m B o ldB (trap u d r c) → LdOk o ldB r c →
    StDisj (matAd A o ldA) (opP t (trap u d r c)) (matAd B o ldB) (trap u d r c) →
    YieldsMat (trcopy o u t d r c A ldA B ldB) m B o ldB (trap u d r c) (opM t QA)

/-- **C92** (missing: unit diagonals of trapezoids that are longer than their triangle) `trcopy`: the trapezoid of `op(A)`. -/
theorem C92_trcopy_partial [Star K]
    (h : d = .unit → match u with
      | .upper => c ≤ r
      | .lower => r ≤ c) : TrcopyOk K o u t d r c := by
  have e : copied u d r c = trap u d r c := by
    funext i j
    refine propext ⟨fun q => q.1, fun q => ⟨q, fun hu => ?_⟩⟩
    have hs := h hu
    obtain ⟨q1, q2, q3, q4⟩ := q
    have q5 := q4 hu
    cases u <;> simp only at hs q3 ⊢ <;> omega
  intro A ldA B ldB m QA hA hldA hB hldB hd
  rw [← e] at hA hB hd ⊢
  exact C92_trcopy_copied hA hldA hB hldB hd

/-- The property **C92** of `trcopy`. -/
def C92Claim : Prop := ∀ (o : Order) (u : UpLo) (t : Trans) (d : Diag) (r c : Nat), TrcopyOk Int o u t d r c

/-- **C92** `trcopy` does not copy the last row of the strict upper triangle of a matrix with 1 row and 2 columns. -/
theorem C92_false : ¬C92Claim := by
  intro h
  obtain ⟨m', h1, h2, _⟩ := h .rowMajor .upper noTrans .unit 1 2 0 2 20 2 exTwo (fun _ j => 10 + j)
    (by rintro i j ⟨hi, hj, _⟩; interval_cases i <;> interval_cases j <;> decide)
    (by simp [LdOk, opCols, noTrans])
    (by rintro i j ⟨hi, hj, _⟩; interval_cases i <;> interval_cases j <;> decide) (by simp [LdOk])
    (by
      rintro i j k l ⟨hi, hj, _⟩ ⟨hk, hl, _⟩
      interval_cases i <;> interval_cases j <;> interval_cases k <;> interval_cases l <;> decide)
  have e : peek (trcopy .rowMajor .upper noTrans .unit 1 2 0 2 20 2 exTwo) (fun _ m => m 21) = .ok (.val 41) := by decide
  rw [h1] at e
  have e2 : m' 21 = .val 11 := h2 0 1 ⟨by decide, by decide, by decide, by decide⟩
  have : m' 21 = .val 41 := by simpa [peek, bind, Out.bind] using e
  rw [this] at e2
  exact absurd e2 (by decide)

/-! ### `trscal` -/

theorem trscalRow_run [CommRing K] {alpha : K} {u : UpLo} (hA : MatAt m A .rowMajor ldA (trap u .nonUnit r c) QA)
    (hld : (c : Int) ≤ ldA) :
    YieldsSt (match u with
      | .upper => loop (min r c) fun i => scal (c - i) alpha (A + i * (ldA + 1)) 1
      | .lower => loop r fun i => scal (min (i + 1) c) alpha (A + i * ldA) 1) m (matAd A .rowMajor ldA) (trap u .nonUnit r c)
      fun i j => alpha * QA i j := by
  have hinj := matAd_inj' (C := A) (ld := ldA) (P := trap u .nonUnit r c) fun i j h => by have := h.2.1; omega
  cases u
  · refine scal_loop (len := fun l => c - l) (iy := fun _ => 1) (fun l _ => l) (fun l k => l + k)
      (fun l k hl hk => ⟨by omega, by omega, by simp only; omega, by simp⟩) (fun l k hl hk => ?_)
      (fun i j h => ⟨i, j - i, ?_, ?_, rfl, ?_⟩) (fun l k l' k' _ _ _ _ e _ => e) hinj (fun _ _ => by decide) hA
    · rw [elem_one]; simp only [matAd, idx]; push_cast; ring
    all_goals
      have h1 := h.1
      have h1' := h.2.1
      have h2 := h.2.2.1
      simp only at h2
      omega
  · refine scal_loop (len := fun l => min (l + 1) c) (iy := fun _ => 1) (fun l _ => l) (fun _ k => k)
      (fun l k hl hk => ⟨hl, by omega, by simp only; omega, by simp⟩) (fun l k hl hk => elem_row _ _ _ l k)
      (fun i j h => ⟨i, j, h.1, ?_, rfl, rfl⟩) (fun l k l' k' _ _ _ _ e _ => e) hinj (fun _ _ => by decide) hA
    have h1' := h.2.1
    have h2 := h.2.2.1
    simp only at h2
    omega

theorem yieldsSt_skip [CommRing K] {ad : Nat → Nat → Int} {P : Nat → Nat → Prop} {alpha : K} (h1 : alpha = 1)
    (h : StAt m ad P QA) : YieldsSt (pure ()) m ad P fun i j => alpha * QA i j :=
  ⟨m, rfl, fun i j hp => by rw [h i j hp, h1]; simp, fun _ _ => rfl⟩

/-- **C92** `trscal` of a row-major matrix: the trapezoid of `alpha A`. -/
theorem C92_trscal_row [CommRing K] [DecidableEq K] {alpha : K} (hA : MatAt m A .rowMajor ldA (trap u .nonUnit r c) QA)
    (hld : (c : Int) ≤ ldA) :
    YieldsMat (trscal .rowMajor u r c alpha A ldA) m A .rowMajor ldA (trap u .nonUnit r c) fun i j => alpha * QA i j := by
  unfold trscal
  by_cases h : alpha = 1
  · rw [if_pos h]; exact yieldsSt_skip h hA
  · rw [if_neg h]
    have := trscalRow_run (alpha := alpha) hA hld
    cases u <;> exact this

/-- **C92** `trscal` of a column-major matrix works on the trapezoid of a matrix with `c` rows and `r` columns. -/
theorem C92_trscal_col [CommRing K] [DecidableEq K] {alpha : K} (hA : MatAt m A .colMajor ldA (trap u .nonUnit c r) QA)
    (hld : (c : Int) ≤ ldA) :
    YieldsMat (trscal .colMajor u r c alpha A ldA) m A .colMajor ldA (trap u .nonUnit c r) fun i j => alpha * QA i j := by
  unfold trscal
  by_cases h : alpha = 1
  · rw [if_pos h]; exact yieldsSt_skip h hA
  · rw [if_neg h]
    rw [matAt_col, sw_trap] at hA
    have := trscalRow_run (alpha := alpha) hA hld
    rw [← sw_trap, ← matAd_sw] at this
    refine yieldsSt_sw ?_
    cases u <;> exact this

/-- **C92** (missing: column-major matrices that are not square) `trscal`: the trapezoid of `alpha A`. -/
theorem C92_trscal_partial [CommRing K] [DecidableEq K] {alpha : K} (h : o = .rowMajor ∨ r = c)
    (hA : MatAt m A o ldA (trap u .nonUnit r c) QA) (hld : LdOk o ldA r c) :
    YieldsMat (trscal o u r c alpha A ldA) m A o ldA (trap u .nonUnit r c) fun i j => alpha * QA i j := by
  cases o
  · exact C92_trscal_row hA hld
  · rcases h with h | h
    · cases h
    · subst h; exact C92_trscal_col hA hld

/-- **C92** `trscal` of a column-major matrix with 1 row and 2 columns changes a cell outside of it. -/
theorem C92_trscal_false : ¬∀ (o : Order) (u : UpLo) (r c : Nat) (alpha : Int) (A ldA : Int) (m : Mem Int) (QA : Nat → Nat → Int),
    MatAt m A o ldA (trap u .nonUnit r c) QA → LdOk o ldA r c →
    YieldsMat (trscal o u r c alpha A ldA) m A o ldA (trap u .nonUnit r c) fun i j => alpha * QA i j := by
  intro h
  obtain ⟨m', h1, h2, _⟩ := h .colMajor .upper 1 2 2 0 3 exTwo (fun _ j => 10 + 3 * j)
    (by rintro i j ⟨hi, hj, _⟩; interval_cases i <;> interval_cases j <;> decide) (by simp [LdOk])
  have e : peek (trscal .colMajor .upper 1 2 2 0 3 exTwo) (fun _ m => m 3) = .ok (.val 13) := by decide
  rw [h1] at e
  have e2 : m' 3 = .val 26 := h2 0 1 ⟨by decide, by decide, by decide, by decide⟩
  have : m' 3 = .val 13 := by simpa [peek, bind, Out.bind] using e
  rw [this] at e2
  exact absurd e2 (by decide)

/-- The hypotheses hold for the lower trapezoid of the transpose of a matrix with 2 rows and 3 columns. -/
example : MatAt exTwo 0 .rowMajor 3 (opP doTrans (trap .lower .unit 3 2)) (fun i j => 10 + (3 * i + j : Int)) ∧
    MatMem exTwo 20 .rowMajor 2 (trap .lower .nonUnit 3 2) ∧
    StDisj (matAd 0 .rowMajor 3) (opP doTrans (trap .lower .nonUnit 3 2)) (matAd 20 .rowMajor 2) (trap .lower .nonUnit 3 2) ∧
    opP doTrans (trap .lower .unit 3 2) 1 2 := by
  refine ⟨?_, ?_, ?_, ?_⟩
  · rintro i j ⟨hi, hj, _⟩
    replace hi : j < 3 := hi
    replace hj : i < 2 := hj
    interval_cases i <;> interval_cases j <;> decide
  · rintro i j ⟨hi, hj, _⟩
    interval_cases i <;> interval_cases j <;> decide
  · rintro i j k l ⟨hi, hj, _⟩ ⟨hk, hl, _⟩
    replace hi : j < 3 := hi
    replace hj : i < 2 := hj
    simp only [matAd, idx]
    omega
  · exact ⟨by decide, by decide, by decide, by decide⟩

example : (peek (trcopy (K := Int) .rowMajor .lower doTrans .nonUnit 3 2 0 3 20 2 exTwo) fun _ m => (m 20, m 21, m 22, m 23, m 25)) =
    .ok (.val 10, .val 41, .val 11, .val 14, .val 15) := by decide

end tr

end Verif.Blas
