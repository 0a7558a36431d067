import Verif.Lemmas.Blas1Mat

/-! Property theorems for the level-1 routines of cxxblas on dense matrices and their triangles (C91, C92). Matrices in memory are
those of `Spec/Blas.lean`; the scalars are any commutative ring with conjugation, in exact arithmetic. -/

namespace Verif.Blas

variable {K : Type}

/-! ### C91: copies, sums, multiples and exchanges of matrices -/

section ge
variable {o : Order} {t : Trans} {r c : Nat} {A ldA B ldB : Int} {m : Mem K} {QA QB : Nat → Nat → K}

theorem geRow_run {op cop : VecOp K} {g : K → K → K} {need : Prop} (hop : Acts (if t.conj then cop else op) g need)
    (hA : StAt m (opP t (matAd A .rowMajor ldA)) (full r c) (opP t QA)) (h0 : 0 ≤ ldA)
    (hB : MatMem m B .rowMajor ldB (full r c)) (hb : need → MatAt m B .rowMajor ldB (full r c) QB) (hld : (c : Int) ≤ ldB)
    (hd : StDisj (opP t (matAd A .rowMajor ldA)) (full r c) (matAd B .rowMajor ldB) (full r c)) :
    YieldsSt (geRow op cop t r c A ldA B ldB) m (matAd B .rowMajor ldB) (full r c) fun i j => g (QB i j) (opP t QA i j) := by
  have hinj := matAd_inj' (C := B) (ld := ldB) (P := full r c) fun i j h => by have := h.2; omega
  have rows : ∀ ix : Int, (∀ l k : Nat, l < r → k < c →
      elem (if t.trans then A + l else A + l * ldA) ix c k = opP t (matAd A .rowMajor ldA) l k) →
      YieldsSt (loop r fun l => (if t.conj then cop else op) c (if t.trans then A + l else A + l * ldA) ix (B + l * ldB) 1) m
        (matAd B .rowMajor ldB) (full r c) fun i j => g (QB i j) (opP t QA i j) := by
    intro ix hx
    exact act_run hop (len := fun _ => c) (ix := fun _ => ix) (iy := fun _ => 1) (fun l _ => l) (fun _ k => k)
      (fun l k hl hk => ⟨hl, hk⟩) (fun l k hl hk => elem_row B ldB c l k) hx
      (fun i j h => ⟨i, j, h.1, h.2, rfl, rfl⟩) (fun l k l' k' _ _ _ _ e _ => e) hinj (fun _ _ => by decide) hA hd hB hb
  have flat : t.trans = false → ldA = c → ldB = c → YieldsSt ((if t.conj then cop else op) (r * c) A 1 B 1) m
      (matAd B .rowMajor ldB) (full r c) fun i j => g (QB i j) (opP t QA i j) := by
    intro ht e1 e2
    subst e1 e2
    refine YieldsSt.one ?_
    refine act_run hop (c := 1) (len := fun _ => r * c) (x := fun _ => A) (y := fun _ => B) (ix := fun _ => 1)
      (iy := fun _ => 1) (fun _ k => k / c) (fun _ k => k % c)
      (fun l k _ hk => (flat_full hk).2) (fun l k _ hk => ?_) (fun l k _ hk => ?_)
      (fun i j h => ⟨0, i * c + j, by decide, (full_flat h).1, (full_flat h).2.1, (full_flat h).2.2⟩)
      (fun l k l' k' _ _ _ _ _ _ => by omega) hinj (fun _ _ => by decide) hA hd hB hb
    · rw [elem_one]; exact matAd_flat (flat_full hk).1
    · rw [elem_one]
      simp only [opP, ht, Bool.false_eq_true, if_false]
      exact matAd_flat (flat_full hk).1
  obtain ⟨b, b'⟩ := t
  cases b'
  · have h1 := rows 1 fun l k _ _ => elem_row A ldA c l k
    cases b
    · unfold geRow
      by_cases h : ldA = c ∧ ldB = c
      · simp only [h, and_self, if_true]
        have := flat rfl h.1 h.2
        rw [h.2] at this
        exact this
      · simp only [h, if_false]
        exact h1
    · unfold geRow
      by_cases h : ldA = c ∧ ldB = c
      · simp only [h, and_self, if_true]
        have := flat rfl h.1 h.2
        rw [h.2] at this
        exact this
      · simp only [h, if_false]
        exact h1
  · have h1 := rows ldA fun l k _ _ => elem_col h0 c l k
    cases b <;> exact h1

/-- The matrix `A` with `op(A)` of `r` rows and `c` columns, seen from `op(A)`. -/
theorem opAt (h : MatAt m A o ldA (full (opRows t r c) (opCols t r c)) QA) :
    StAt m (opP t (matAd A o ldA)) (full r c) (opP t QA) := by
  intro i j hp
  unfold opRows opCols at h
  unfold opP
  cases ht : t.trans <;> simp only [ht, Bool.false_eq_true, if_false, if_true] at h ⊢
  · exact h i j hp
  · exact h j i ⟨hp.2, hp.1⟩

theorem opDisj {ad : Nat → Nat → Int} {P : Nat → Nat → Prop}
    (h : StDisj (matAd A o ldA) (full (opRows t r c) (opCols t r c)) ad P) :
    StDisj (opP t (matAd A o ldA)) (full r c) ad P := by
  intro i j k l hp hq
  unfold opRows opCols at h
  unfold opP
  cases ht : t.trans <;> simp only [ht, Bool.false_eq_true, if_false, if_true] at h ⊢
  · exact h i j k l hp hq
  · exact h j i k l ⟨hp.2, hp.1⟩ hq

theorem ldOk_nonneg (h : LdOk o ldA r c) : 0 ≤ ldA := by cases o <;> simp only [LdOk] at h <;> omega

theorem geOp_run {op cop : VecOp K} {g : K → K → K} {need : Prop} (hop : Acts (if t.conj then cop else op) g need)
    (hA : MatAt m A o ldA (full (opRows t r c) (opCols t r c)) QA) (hldA : LdOk o ldA (opRows t r c) (opCols t r c))
    (hB : MatMem m B o ldB (full r c)) (hb : need → MatAt m B o ldB (full r c) QB) (hldB : LdOk o ldB r c)
    (hd : StDisj (matAd A o ldA) (full (opRows t r c) (opCols t r c)) (matAd B o ldB) (full r c)) :
    YieldsMat (geOp op cop o t r c A ldA B ldB) m B o ldB (full r c) fun i j => g (QB i j) (opP t QA i j) := by
  have h0 := ldOk_nonneg hldA
  have hA' := opAt hA
  have hd' := opDisj hd
  cases o
  · exact geRow_run hop hA' h0 hB hb hldB hd'
  · rw [← stAt_sw, sw_full] at hA'
    rw [← stDisj_sw1, ← stDisj_sw2, sw_full, matAd_sw] at hd'
    rw [matMem_col, sw_full] at hB
    simp only [matAt_col, sw_full] at hb
    have := geRow_run (QA := sw QA) (QB := sw QB) (A := A) (ldA := ldA) hop
      (by have e : sw (opP t (matAd A .colMajor ldA)) = opP t (matAd A .rowMajor ldA) := by
            rw [← matAd_sw]; rfl
          rw [e] at hA'; exact hA') h0 hB hb hldB
      (by have e : sw (opP t (matAd A .colMajor ldA)) = opP t (matAd A .rowMajor ldA) := by
            rw [← matAd_sw]; rfl
          rw [e] at hd'; exact hd')
    rw [← matAd_sw, ← sw_full] at this
    exact yieldsSt_sw this

/-- **C91** `gecopy`: `B := op(A)`; the old `B` may be uninitialised. -/
theorem C91_gecopy [Star K] (hA : MatAt m A o ldA (full (opRows t r c) (opCols t r c)) QA)
    (hldA : LdOk o ldA (opRows t r c) (opCols t r c)) (hB : MatMem m B o ldB (full r c)) (hldB : LdOk o ldB r c)
    (hd : StDisj (matAd A o ldA) (full (opRows t r c) (opCols t r c)) (matAd B o ldB) (full r c)) :
    YieldsMat (gecopy o t r c A ldA B ldB) m B o ldB (full r c) (opM t QA) :=
  geOp_run (QB := QA) (acts_copy.ite acts_ccopy t.conj) hA hldA hB (fun h => h.elim) hldB hd

/-- **C91** `geaxpy`: `B := B + alpha op(A)`. -/
theorem C91_geaxpy [Mul K] [Add K] [Star K] {alpha : K} (hA : MatAt m A o ldA (full (opRows t r c) (opCols t r c)) QA)
    (hldA : LdOk o ldA (opRows t r c) (opCols t r c)) (hB : MatAt m B o ldB (full r c) QB) (hldB : LdOk o ldB r c)
    (hd : StDisj (matAd A o ldA) (full (opRows t r c) (opCols t r c)) (matAd B o ldB) (full r c)) :
    YieldsMat (geaxpy o t r c alpha A ldA B ldB) m B o ldB (full r c) fun i j => QB i j + alpha * opM t QA i j :=
  geOp_run ((acts_axpy alpha).ite (acts_acxpy alpha) t.conj) hA hldA (fun i j hp => by rw [hB i j hp]; simp) (fun _ => hB) hldB hd

/-- **C91** `geaxpby`: `B := beta B + alpha op(A)`; with `beta = 0` the old `B` may be uninitialised. -/
theorem C91_geaxpby [CommRing K] [Star K] [DecidableEq K] {alpha beta : K}
    (hA : MatAt m A o ldA (full (opRows t r c) (opCols t r c)) QA)
    (hldA : LdOk o ldA (opRows t r c) (opCols t r c)) (hB : MatMem m B o ldB (full r c))
    (hb : beta ≠ 0 → MatAt m B o ldB (full r c) QB) (hldB : LdOk o ldB r c)
    (hd : StDisj (matAd A o ldA) (full (opRows t r c) (opCols t r c)) (matAd B o ldB) (full r c)) :
    YieldsMat (geaxpby o t r c alpha A ldA beta B ldB) m B o ldB (full r c) fun i j => beta * QB i j + alpha * opM t QA i j :=
  geOp_run ((acts_axpby alpha beta).ite (acts_acxpby alpha beta) t.conj) hA hldA hB hb hldB hd

/-- **C91** `geraxpy`: `B := B + op(A) / alpha` for `A` and `Aᵀ`. -/
theorem C91_geraxpy [Div K] [Add K] [Star K] {alpha : K} (ht : t.conj = false)
    (hA : MatAt m A o ldA (full (opRows t r c) (opCols t r c)) QA)
    (hldA : LdOk o ldA (opRows t r c) (opCols t r c)) (hB : MatAt m B o ldB (full r c) QB) (hldB : LdOk o ldB r c)
    (hd : StDisj (matAd A o ldA) (full (opRows t r c) (opCols t r c)) (matAd B o ldB) (full r c)) :
    YieldsMat (geraxpy o t r c alpha A ldA B ldB) m B o ldB (full r c) fun i j => QB i j + opM t QA i j / alpha := by
  have := geOp_run (cop := fun _ _ _ _ _ => assertFail) (by rw [ht]; exact acts_raxpy alpha) hA hldA
    (fun i j hp => by rw [hB i j hp]; simp) (fun _ => hB) hldB hd
  refine this.congr fun i j _ => ?_
  simp only [opM, cj, ht, opP, Bool.false_eq_true, if_false]

/-- **C91** `geraxpy` with a conjugation fails an assertion (unless there is nothing to do). -/
theorem C91_geraxpy_assert [Div K] [Add K] {alpha : K} (ht : t.conj = true) (hr : r ≠ 0) (hc : c ≠ 0) :
    geraxpy o t r c alpha A ldA B ldB m = assertFail m := by
  obtain ⟨b, b'⟩ := t
  simp only at ht
  subst ht
  have key : ∀ k, k ≠ 0 → loop k (fun _ => (assertFail : M K Unit)) m = assertFail m := by
    intro k hk
    induction k with
    | zero => exact absurd rfl hk
    | succ k ih =>
      rcases Nat.eq_zero_or_pos k with h | h
      · subst h; exact loop_one _ m
      · have := ih (by omega)
        show (loop k _ >>= fun _ => assertFail) m = _
        simp only [bind, StateT.bind, this]
        rfl
  unfold geraxpy geOp geRow
  cases o <;> cases b' <;> simp only <;> (try split) <;> first | rfl | exact key _ hr | exact key _ hc

/-- **C91** `gerscal`: `A := A / alpha`. -/
theorem C91_gerscal [Field K] {alpha : K} (hA : MatAt m A o ldA (full r c) QA) (hldA : LdOk o ldA r c) :
    YieldsMat (gerscal o r c alpha A ldA) m A o ldA (full r c) fun i j => QA i j / alpha := by
  have row : ∀ (r c : Nat) (QA : Nat → Nat → K), MatAt m A .rowMajor ldA (full r c) QA → (c : Int) ≤ ldA →
      YieldsMat (gescalRow (fun n => rscal n alpha) r c A ldA) m A .rowMajor ldA (full r c) fun i j => QA i j / alpha := by
    intro r c QA hA hld
    refine gescalRow_run (sc := fun n => rscal n alpha) hld (fun h => ?_) fun i hi m' ho => ?_
    · subst h
      exact (C71_scal (vecAt_full hA) (by decide)).2
    · exact (C71_scal (vecAt_row' hA hld hi ho) (by decide)).2
  cases o
  · exact row r c QA hA hldA
  · rw [matAt_col, sw_full] at hA
    have := row c r (sw QA) hA hldA
    rw [← sw_full] at this
    obtain ⟨m', h1, h2, h3⟩ := this
    exact ⟨m', h1, matAt_col.2 h2, onlyMat_col.2 h3⟩

end ge

section swap
variable {r c : Nat} {A ldA B ldB : Int} {m : Mem K} {QA QB : Nat → Nat → K}

theorem elem_colC {C ld : Int} (n l k : Nat) : elem (C + l * ld) 1 n k = matAd C .colMajor ld k l := by
  rw [elem_one]; simp only [matAd, idx]; ring

theorem elem_rowC {C ld : Int} (h : 0 ≤ ld) (n l k : Nat) : elem (C + l) ld n k = matAd C .colMajor ld l k := by
  rw [elem_pos h]; simp only [matAd, idx]; ring

theorem matAd_injO {C ld : Int} {o : Order} (h : LdOk o ld r c) (i j k l : Nat) (h1 : full r c i j) (h2 : full r c k l)
    (e : matAd C o ld i j = matAd C o ld k l) : i = k ∧ j = l := by
  have := h1.1; have := h1.2; have := h2.1; have := h2.2
  cases o <;> simp only [LdOk] at h
  · exact matAd_inj (by omega) (by omega) e
  · simp only [matAd, idx_col] at e
    obtain ⟨e1, e2⟩ := matAd_inj (C := C) (ld := ld) (by omega) (by omega) e
    exact ⟨e2, e1⟩

/-- The sizes `geswap` works with: for a row-major `A` and a column-major `B` those of the transposes. -/
def swapDims (oA oB : Order) (r c : Nat) : Nat × Nat :=
  match oA, oB with
  | .rowMajor, .colMajor => (c, r)
  | _, _ => (r, c)

theorem geswap_run {oA oB : Order} {r' c' : Nat} (hdim : swapDims oA oB r c = (r', c'))
    (hA : MatAt m A oA ldA (full r' c') QA) (hB : MatAt m B oB ldB (full r' c') QB) (hldA : LdOk oA ldA r' c')
    (hldB : LdOk oB ldB r' c') (hd : StDisj (matAd A oA ldA) (full r' c') (matAd B oB ldB) (full r' c')) :
    Swaps (geswap oA oB r c A ldA B ldB) m (matAd A oA ldA) (matAd B oB ldB) (full r' c') QA QB := by
  have h0A := ldOk_nonneg hldA
  have h0B := ldOk_nonneg hldB
  have iA := matAd_injO (C := A) hldA
  have iB := matAd_injO (C := B) hldB
  cases oA <;> cases oB <;> simp only [swapDims, Prod.mk.injEq] at hdim <;> obtain ⟨e1, e2⟩ := hdim <;> subst e1 e2 <;>
    simp only [LdOk] at hldA hldB <;> unfold geswap
  · simp only
    by_cases h : (c : Int) = ldA ∧ (c : Int) = ldB
    · rw [if_pos h]
      obtain ⟨e1, e2⟩ := h
      subst e1 e2
      refine Swaps.one ?_
      exact swap_loop (c := 1) (len := fun _ => r * c) (x := fun _ => A) (y := fun _ => B) (ix := fun _ => 1)
        (iy := fun _ => 1) (fun _ k => k / c) (fun _ k => k % c)
        (fun l k _ hk => (flat_full hk).2) (fun l k _ hk => by rw [elem_one]; exact matAd_flat (flat_full hk).1)
        (fun l k _ hk => by rw [elem_one]; exact matAd_flat (flat_full hk).1)
        (fun i j h => ⟨0, i * c + j, by decide, (full_flat h).1, (full_flat h).2.1, (full_flat h).2.2⟩)
        (fun l k l' k' _ _ _ _ _ _ => by omega) iA iB (fun _ _ => by decide) (fun _ _ => by decide) hA hB hd
    · rw [if_neg h]
      exact swap_loop (len := fun _ => c) (ix := fun _ => 1) (iy := fun _ => 1) (fun l _ => l) (fun _ k => k)
        (fun l k hl hk => ⟨hl, hk⟩) (fun l k _ _ => elem_row A ldA c l k) (fun l k _ _ => elem_row B ldB c l k)
        (fun i j h => ⟨i, j, h.1, h.2, rfl, rfl⟩) (fun l k l' k' _ _ _ _ e _ => e) iA iB (fun _ _ => by decide)
        (fun _ _ => by decide) hA hB hd
  · refine swap_loop (len := fun _ => c) (ix := fun _ => ldA) (iy := fun _ => 1) (fun _ k => k) (fun l _ => l)
      (fun l k hl hk => ⟨hk, hl⟩) (fun l k _ _ => elem_col h0A c l k) (fun l k _ _ => elem_colC c l k)
      (fun i j h => ⟨j, i, h.2, h.1, rfl, rfl⟩) (fun l k l' k' _ _ _ _ _ e => e) iA iB (fun l hl => ?_)
      (fun _ _ => by decide) hA hB hd
    omega
  · refine swap_loop (len := fun _ => r) (ix := fun _ => 1) (iy := fun _ => ldB) (fun _ k => k) (fun l _ => l)
      (fun l k hl hk => ⟨hk, hl⟩) (fun l k _ _ => elem_colC r l k) (fun l k _ _ => elem_col h0B r l k)
      (fun i j h => ⟨j, i, h.2, h.1, rfl, rfl⟩) (fun l k l' k' _ _ _ _ _ e => e) iA iB
      (fun _ _ => by decide) (fun l hl => ?_) hA hB hd
    omega
  · simp only
    by_cases h : (r : Int) = ldA ∧ (r : Int) = ldB
    · rw [if_pos h]
      obtain ⟨e1, e2⟩ := h
      subst e1 e2
      refine Swaps.one ?_
      have flip : ∀ {C : Int} {k : Nat}, k < r * c → elem C 1 (r * c) k = matAd C .colMajor r (k % r) (k / r) := by
        intro C k hk
        rw [Nat.mul_comm] at hk
        rw [elem_one, matAd_flat (flat_full hk).1, ← matAd_sw]; rfl
      exact swap_loop (c := 1) (len := fun _ => r * c) (x := fun _ => A) (y := fun _ => B) (ix := fun _ => 1)
        (iy := fun _ => 1) (fun _ k => k % r) (fun _ k => k / r)
        (fun l k _ hk => by rw [Nat.mul_comm] at hk; exact ⟨(flat_full hk).2.2, (flat_full hk).2.1⟩)
        (fun l k _ hk => flip hk) (fun l k _ hk => flip hk)
        (fun i j h => ⟨0, j * r + i, by decide, by rw [Nat.mul_comm r c]; exact (full_flat ⟨h.2, h.1⟩).1,
          (full_flat ⟨h.2, h.1⟩).2.2, (full_flat ⟨h.2, h.1⟩).2.1⟩)
        (fun l k l' k' _ _ _ _ _ _ => by omega) iA iB (fun _ _ => by decide) (fun _ _ => by decide) hA hB hd
    · rw [if_neg h]
      exact swap_loop (len := fun _ => r) (ix := fun _ => 1) (iy := fun _ => 1) (fun _ k => k) (fun l _ => l)
        (fun l k hl hk => ⟨hk, hl⟩) (fun l k _ _ => elem_colC r l k) (fun l k _ _ => elem_colC r l k)
        (fun i j h => ⟨j, i, h.2, h.1, rfl, rfl⟩) (fun l k l' k' _ _ _ _ _ e => e) iA iB (fun _ _ => by decide)
        (fun _ _ => by decide) hA hB hd

/-- The property for `geswap`: `A` and `B`, both with `r` rows and `c` columns, are exchanged; nothing else is touched. -/
def SwapOk (K : Type) (oA oB : Order) (r c : Nat) : Prop :=
  ∀ (A ldA B ldB : Int) (m : Mem K) (QA QB : Nat → Nat → K), MatAt m A oA ldA (full r c) QA → MatAt m B oB ldB (full r c) QB →
    LdOk oA ldA r c → LdOk oB ldB r c → StDisj (matAd A oA ldA) (full r c) (matAd B oB ldB) (full r c) →
    ∃ m', geswap oA oB r c A ldA B ldB m = .ok ((), m') ∧ MatAt m' A oA ldA (full r c) QB ∧ MatAt m' B oB ldB (full r c) QA ∧
      ∀ a, (∀ i j, full r c i j → a ≠ A + idx oA ldA i j ∧ a ≠ B + idx oB ldB i j) → m' a = m a

/-- **C91** (missing: a row-major `A` and a column-major `B` that are not square) `geswap` exchanges two matrices. -/
theorem C91_geswap_partial {oA oB : Order} (h : r = c ∨ ¬(oA = .rowMajor ∧ oB = .colMajor)) : SwapOk K oA oB r c := by
  intro A ldA B ldB m QA QB hA hB hldA hldB hd
  refine geswap_run ?_ hA hB hldA hldB hd
  rcases h with rfl | h
  · cases oA <;> cases oB <;> rfl
  · cases oA <;> cases oB <;> first | rfl | exact absurd ⟨rfl, rfl⟩ h

/-- **C91** For a row-major `A` and a column-major `B` the matrices exchanged have `c` rows and `r` columns. -/
theorem C91_geswap_wrong (hA : MatAt m A .rowMajor ldA (full c r) QA) (hB : MatAt m B .colMajor ldB (full c r) QB)
    (hldA : (r : Int) ≤ ldA) (hldB : (c : Int) ≤ ldB)
    (hd : StDisj (matAd A .rowMajor ldA) (full c r) (matAd B .colMajor ldB) (full c r)) :
    ∃ m', geswap .rowMajor .colMajor r c A ldA B ldB m = .ok ((), m') ∧ MatAt m' A .rowMajor ldA (full c r) QB ∧
      MatAt m' B .colMajor ldB (full c r) QA ∧
      ∀ a, (∀ i j, full c r i j → a ≠ A + idx .rowMajor ldA i j ∧ a ≠ B + idx .colMajor ldB i j) → m' a = m a :=
  geswap_run (r := r) (c := c) rfl hA hB hldA hldB hd

/-- The property **C91** of `geswap`, for all orders and sizes. -/
def C91Claim : Prop := ∀ (oA oB : Order) (r c : Nat), SwapOk Int oA oB r c

/-- A memory with the cells 0, …, 9 set to 10, …, 19 and the cells 20, …, 29 set to 40, …, 49. -/
def exTwo : Mem Int := fun a => if 0 ≤ a ∧ a < 10 then .val (10 + a) else if 20 ≤ a ∧ a < 30 then .val (20 + a) else .out

/-- **C91** `geswap` of a row-major and a column-major matrix, each with 2 rows and 1 column, exchanges other cells. -/
theorem C91_false : ¬C91Claim := by
  intro h
  obtain ⟨m', h1, h2, _⟩ := h .rowMajor .colMajor 2 1 0 3 20 2 exTwo (fun i _ => 10 + 3 * i) (fun i _ => 40 + i)
    (by rintro i j ⟨hi, hj⟩; interval_cases i <;> interval_cases j <;> decide)
    (by rintro i j ⟨hi, hj⟩; interval_cases i <;> interval_cases j <;> decide) (by simp [LdOk]) (by simp [LdOk])
    (by rintro i j k l ⟨hi, hj⟩ ⟨hk, hl⟩; interval_cases i <;> interval_cases j <;> interval_cases k <;> interval_cases l <;> decide)
  have e : peek (geswap .rowMajor .colMajor 2 1 0 3 20 2 exTwo) (fun _ m => m 3) = .ok (.val 13) := by decide
  rw [h1] at e
  have e2 : m' 3 = .val 41 := h2 1 0 ⟨by decide, by decide⟩
  have : m' 3 = .val 13 := by simpa [peek, bind, Out.bind] using e
  rw [this] at e2
  exact absurd e2 (by decide)

/-- The hypotheses hold for a conjugated transpose, of a matrix with 2 rows and 3 columns stored by columns. -/
example : MatAt exTwo 0 .colMajor 3 (full (opRows conjTrans 3 2) (opCols conjTrans 3 2)) (fun i j => 10 + (i + 3 * j : Int)) ∧
    MatMem exTwo 20 .colMajor 4 (full 3 2) ∧
    StDisj (matAd 0 .colMajor 3) (full (opRows conjTrans 3 2) (opCols conjTrans 3 2)) (matAd 20 .colMajor 4) (full 3 2) := by
  refine ⟨?_, ?_, ?_⟩
  · rintro i j ⟨hi, hj⟩
    simp only [opRows, opCols, conjTrans, if_true] at hi hj
    interval_cases i <;> interval_cases j <;> decide
  · rintro i j ⟨hi, hj⟩
    interval_cases i <;> interval_cases j <;> decide
  · rintro i j k l ⟨hi, hj⟩ ⟨hk, hl⟩
    simp only [opRows, opCols, conjTrans, if_true] at hi hj
    simp only [matAd, idx]
    omega

example : (peek (geaxpy (K := Int) .colMajor conjTrans 3 2 2 0 3 20 4 exTwo) fun _ m => (m 20, m 21, m 22, m 23, m 24)) =
    .ok (.val (40 + 2 * 10), .val (41 + 2 * 13), .val (42 + 2 * 16), .val 43, .val (44 + 2 * 11)) := by decide

end swap

end Verif.Blas
