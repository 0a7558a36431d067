import Verif.Lemmas.Blas2Order
import Verif.Props.Blas1

/-! Property theorems for the generic level-2 routines of cxxblas on dense matrices (C74 to C77). Vectors and matrices in
memory are those of `Spec/Blas.lean`; the scalars are any commutative ring with conjugation (a field for the solves), in exact
arithmetic. The memory of the matrix outside of the positions named, and everything else, is arbitrary: it need not be
initialised, nor exist. -/

namespace Verif.Blas

open Finset

variable {K : Type}

/-- The routine `c` run in memory `m` ends normally, leaves `V` in the positions `P` of the matrix at `A`, and changes nothing
else. -/
def YieldsMat (c : M K Unit) (m : Mem K) (A : Int) (o : Order) (ld : Int) (P : Nat → Nat → Prop) (V : Nat → Nat → K) : Prop :=
  ∃ m', c m = .ok ((), m') ∧ MatAt m' A o ld P V ∧ OnlyMat m m' A o ld P

theorem yieldsMat_row {c : M K Unit} {m : Mem K} {A ld : Int} {P : Nat → Nat → Prop} {V : Nat → Nat → K} {v : Nat × Nat → K}
    (hld : ∀ i j, P i j → (j : Int) < ld) (h : c m = .ok ((), over m (rowAd A ld) v (pos P)))
    (hv : ∀ i j, P i j → v (i, j) = V i j) : YieldsMat c m A .rowMajor ld P V :=
  ⟨_, h, fun i j hp => (over_of_mem (rowAd_inj hld) (show (i, j) ∈ pos P from hp)).trans (by rw [hv i j hp]),
    onlyMat_overRow⟩

theorem yieldsMat_col {c : M K Unit} {m : Mem K} {A ld : Int} {P : Nat → Nat → Prop} {V : Nat → Nat → K}
    (h : YieldsMat c m A .rowMajor ld (sw P) (sw V)) : YieldsMat c m A .colMajor ld P V :=
  let ⟨m', h1, h2, h3⟩ := h
  ⟨m', h1, matAt_col.2 h2, onlyMat_col.2 h3⟩

theorem YieldsMat.congr {c : M K Unit} {m : Mem K} {A : Int} {o : Order} {ld : Int} {P : Nat → Nat → Prop}
    {V W : Nat → Nat → K} (h : YieldsMat c m A o ld P V) (e : ∀ i j, P i j → V i j = W i j) :
    YieldsMat c m A o ld P W :=
  let ⟨m', h1, h2, h3⟩ := h
  ⟨m', h1, fun i j hp => (h2 i j hp).trans (by rw [e i j hp]), h3⟩

theorem Yields.congr {c : M K Unit} {m : Mem K} {y incY : Int} {n : Nat} {v w : Nat → K} (h : Yields c m y incY n v)
    (e : ∀ i, i < n → v i = w i) : Yields c m y incY n w :=
  let ⟨m', h1, h2, h3⟩ := h
  ⟨m', h1, fun i hi => (h2 i hi).trans (by rw [e i hi]), h3⟩

/-! ### C74: matrix-vector product -/

/-- Rows of `op(A)`. -/
def opRows (t : Trans) (r c : Nat) : Nat := if t.trans then c else r

/-- Columns of `op(A)`. -/
def opCols (t : Trans) (r c : Nat) : Nat := if t.trans then r else c

/-- **C74** `gemv`: `y := beta y + alpha op(A) x`, in the extended form with `x` or its conjugate. With `beta = 0` the old `y`
may be uninitialised. -/
theorem C74_gemv [CommRing K] [StarRing K] [DecidableEq K] {o : Order} {t : Trans} {conjX : Bool} {r c : Nat}
    {alpha beta : K} {A ld x incX y incY : Int} {m : Mem K} {Q : Nat → Nat → K} {xv yv : Nat → K} (hr : r ≠ 0) (hc : c ≠ 0)
    (hA : MatAt m A o ld (full r c) Q) (hx : VecAt m x incX (opCols t r c) xv) (hy : VecMem m y incY (opRows t r c))
    (hb : beta ≠ 0 → VecAt m y incY (opRows t r c) yv) (hi : incY ≠ 0)
    (hdA : MatVecDisj A o ld (full r c) y incY (opRows t r c))
    (hdx : VecDisj x incX (opCols t r c) y incY (opRows t r c)) :
    Yields (gemv o t conjX r c alpha A ld x incX beta y incY) m y incY (opRows t r c) fun i =>
      beta * yv i + alpha * ∑ j ∈ range (opCols t r c), opM t Q i j * cj conjX (xv j) := by
  have hne : ¬(r = 0 ∨ c = 0) := by omega
  cases o
  swap
  · rw [matAt_col, sw_full] at hA
    rw [matVecDisj_col, sw_full] at hdA
    have e1 : opRows t r c = if t.flip.trans then r else c := by cases h : t.trans <;> simp [opRows, Trans.flip, h]
    have e2 : opCols t r c = if t.flip.trans then c else r := by cases h : t.trans <;> simp [opCols, Trans.flip, h]
    rw [e1] at hy hb hdA hdx ⊢
    rw [e2] at hx hdx ⊢
    refine yields_of_over hi ?_
    have := gemvRow_run (t := t.flip) (conjX := conjX) (alpha := alpha) hA hx ⟨hy, hb⟩ hi hdA hdx
    simp only [gemv, if_neg hne, gemvGeneric, this, opM_flip]
  · refine yields_of_over hi ?_
    have := gemvRow_run (t := t) (conjX := conjX) (alpha := alpha) hA hx ⟨hy, hb⟩ hi hdA hdx
    simp only [gemv, if_neg hne, gemvGeneric, this]
    rfl

/-- **C74** For a matrix without rows or columns nothing is done; in particular `y` is not multiplied by `beta`. -/
theorem C74_gemv_empty [CommRing K] [StarRing K] [DecidableEq K] {o : Order} {t : Trans} {conjX : Bool} {r c : Nat}
    {alpha beta : K} {A ld x incX y incY : Int} {m : Mem K} (h : r = 0 ∨ c = 0) :
    gemv o t conjX r c alpha A ld x incX beta y incY m = .ok ((), m) := by
  simp only [gemv, if_pos h]; rfl

/-- A memory for the examples: a 2x3 matrix at 0 with leading dimension 4 and gaps, vectors at 10 and 20. -/
def exMat : Mem Int := fun a =>
  if a = 3 ∨ a = 7 then .out
  else if 0 ≤ a ∧ a < 7 then .val (a + 1)
  else if 10 ≤ a ∧ a < 14 then .val (a - 10)
  else if 20 ≤ a ∧ a < 24 then .raw
  else .out

example : MatAt exMat 0 .rowMajor 4 (full 2 3) (fun i j => 4 * (i : Int) + j + 1) ∧ VecAt exMat 10 1 3 (fun i => (i : Int)) ∧
    VecMem exMat 20 (-1) 2 ∧ MatVecDisj 0 .rowMajor 4 (full 2 3) 20 (-1) 2 ∧ VecDisj 10 1 3 20 (-1) 2 := by
  refine ⟨fun i j h => ?_, fun i h => ?_, fun i h => ?_, fun i j k h hk => ?_, fun i j h hk => ?_⟩
  · obtain ⟨h1, h2⟩ := h
    interval_cases i <;> interval_cases j <;> decide
  · interval_cases i <;> decide
  · interval_cases i <;> decide
  · obtain ⟨h1, h2⟩ := h
    interval_cases i <;> interval_cases j <;> interval_cases k <;> decide
  · interval_cases i <;> interval_cases j <;> decide

example : (peek (gemv (K := Int) .rowMajor noTrans false 2 3 10 0 4 10 1 0 20 (-1) exMat) fun _ m => (m 21, m 20, m 22)) =
    .ok (.val 80, .val 200, .raw) := by decide

/-! ### C75: rank updates -/

section rank
variable [CommRing K] [StarRing K] {o : Order} {u : UpLo} {n : Nat} {alpha : K} {A ld x incX y incY : Int} {m : Mem K}
  {Q : Nat → Nat → K} {xv yv : Nat → K}

theorem ldOk_full {r c : Nat} (h : LdOk .rowMajor ld r c) : ∀ i j, full r c i j → (j : Int) < ld := by
  intro i j hp
  have h1 : (c : Int) ≤ ld := h
  have := hp.2
  omega

theorem ldOk_tri (h : (n : Int) ≤ ld) : ∀ i j, tri u n i j → (j : Int) < ld := by
  intro i j hp
  have := hp.2.1
  omega

theorem ger_row {c c1 : Bool} {r k : Nat} (hA : MatAt m A .rowMajor ld (full r k) Q) (hx : VecAt m x incX r xv)
    (hy : VecAt m y incY k yv) (hld : LdOk .rowMajor ld r k) (hdx : MatVecDisj A .rowMajor ld (full r k) x incX r)
    (hdy : MatVecDisj A .rowMajor ld (full r k) y incY k) (f : Nat → M K Unit) (hf : ∀ i, f i = (do
      let v ← load (start r x incX + i * incX)
      axpyC c k (alpha * cj c1 v) (start k y incY) incY (A + i * ld) 1)) :
    YieldsMat (loop r f) m A .rowMajor ld (full r k) fun i j => Q i j + alpha * cj c1 (xv i) * cj c (yv j) := by
  rw [full_rows] at hA hdx hdy
  have hk : (k : Int) ≤ ld := hld
  have := rank1_run (c := c) (g := fun v => alpha * cj c1 v) (fun i _ => by simpa using hk) hA hx hy
    (Nat.le_refl _) (fun i _ => by simp) hdx hdy f (fun i _ => by rw [hf]; simp)
  rw [← full_rows] at this
  exact yieldsMat_row (ldOk_full hld) this fun i j _ => rfl

/-- **C75** `geru` (and `ger`): `A := A + alpha x yᵀ`. -/
theorem C75_geru {r k : Nat} (hA : MatAt m A o ld (full r k) Q) (hx : VecAt m x incX r xv) (hy : VecAt m y incY k yv)
    (hld : LdOk o ld r k) (hdx : MatVecDisj A o ld (full r k) x incX r) (hdy : MatVecDisj A o ld (full r k) y incY k) :
    YieldsMat (geru o r k alpha x incX y incY A ld) m A o ld (full r k) fun i j => Q i j + alpha * (xv i * yv j) := by
  cases o
  swap
  · rw [matAt_col, sw_full] at hA
    rw [matVecDisj_col, sw_full] at hdx hdy
    refine yieldsMat_col ?_
    rw [sw_full]
    refine (ger_row (alpha := alpha) (c := false) (c1 := false) hA hy hx hld hdy hdx _ fun i => rfl).congr fun i j _ => ?_
    simp only [sw, cj]; simp; ring
  · refine (ger_row (alpha := alpha) (c := false) (c1 := false) hA hx hy hld hdx hdy _ fun i => rfl).congr fun i j _ => ?_
    simp only [cj]; simp; ring

/-- **C75** `gerc`: `A := A + alpha x yᴴ`. -/
theorem C75_gerc {r k : Nat} (hA : MatAt m A o ld (full r k) Q) (hx : VecAt m x incX r xv) (hy : VecAt m y incY k yv)
    (hld : LdOk o ld r k) (hdx : MatVecDisj A o ld (full r k) x incX r) (hdy : MatVecDisj A o ld (full r k) y incY k) :
    YieldsMat (gerc o r k alpha x incX y incY A ld) m A o ld (full r k) fun i j => Q i j + alpha * (xv i * star (yv j)) := by
  cases o
  swap
  · rw [matAt_col, sw_full] at hA
    rw [matVecDisj_col, sw_full] at hdx hdy
    refine yieldsMat_col ?_
    rw [sw_full]
    refine (ger_row (alpha := alpha) (c := false) (c1 := true) hA hy hx hld hdy hdx _ fun i => rfl).congr fun i j _ => ?_
    simp only [sw, cj]; simp; ring
  · refine (ger_row (alpha := alpha) (c := true) (c1 := false) hA hx hy hld hdx hdy _ fun i => rfl).congr fun i j _ => ?_
    simp only [cj]; simp; ring

theorem syr_row (hA : MatAt m A .rowMajor ld (tri u n) Q) (hx : VecAt m x incX n xv) (hld : (n : Int) ≤ ld)
    (hdx : MatVecDisj A .rowMajor ld (tri u n) x incX n) :
    YieldsMat (syr .rowMajor u n alpha x incX A ld) m A .rowMajor ld (tri u n) fun i j => Q i j + alpha * (xv i * xv j) := by
  rw [tri_rows] at hA hdx
  have key : ∀ f : Nat → M K Unit, (∀ i, i < n → f i = (do
      let v ← load (start n x incX + i * incX)
      axpyC false (triLen u n i) (alpha * v) (start n x incX + triS u i * incX) incX (A + i * ld + triS u i) 1)) →
      YieldsMat (loop n f) m A .rowMajor ld (tri u n) fun i j => Q i j + alpha * (xv i * xv j) := by
    intro f hf
    have := rank1_run (c := false) (g := fun v => alpha * v) (fun i hi => by have := (tri_bounds u hi).1; omega) hA hx hx
      (Nat.le_refl _) (fun i hi => (tri_bounds u hi).1) hdx hdx f hf
    rw [← tri_rows] at this
    refine yieldsMat_row (ldOk_tri hld) this fun i j _ => ?_
    simp only [cj]; simp; ring
  cases u
  · exact key _ fun i _ => by simp only [axpyGeneric_eq, triLen, triS]; rw [show A + (i : Int) * (ld + 1) = A + i * ld + i by ring]
  · exact key _ fun i _ => by simp [axpyGeneric_eq, triLen, triS]

/-- **C75** `syr`: the triangle of `A + alpha x xᵀ`; the other triangle is not touched. -/
theorem C75_syr (hA : MatAt m A o ld (tri u n) Q) (hx : VecAt m x incX n xv) (hld : (n : Int) ≤ ld)
    (hdx : MatVecDisj A o ld (tri u n) x incX n) :
    YieldsMat (syr o u n alpha x incX A ld) m A o ld (tri u n) fun i j => Q i j + alpha * (xv i * xv j) := by
  cases o
  swap
  · rw [matAt_col, sw_tri] at hA
    rw [matVecDisj_col, sw_tri] at hdx
    refine yieldsMat_col ?_
    rw [sw_tri]
    refine (show YieldsMat (syr .rowMajor u.flip n alpha x incX A ld) m A .rowMajor ld (tri u.flip n) _ from
      syr_row hA hx hld hdx).congr fun i j _ => ?_
    simp only [sw]; ring
  · exact syr_row hA hx hld hdx

theorem syr2_row (hA : MatAt m A .rowMajor ld (tri u n) Q) (hx : VecAt m x incX n xv) (hy : VecAt m y incY n yv)
    (hld : (n : Int) ≤ ld) (hdx : MatVecDisj A .rowMajor ld (tri u n) x incX n)
    (hdy : MatVecDisj A .rowMajor ld (tri u n) y incY n) :
    YieldsMat (syr2Row u n alpha (start n x incX) incX (start n y incY) incY A ld) m A .rowMajor ld (tri u n) fun i j =>
      Q i j + alpha * (xv i * yv j + yv i * xv j) := by
  rw [tri_rows] at hA hdx hdy
  have key : ∀ f : Nat → M K Unit, (∀ i, i < n → f i = (do
      let v ← load (start n x incX + i * incX)
      axpyC false (triLen u n i) (alpha * v) (start n y incY + triS u i * incY) incY (A + i * ld + triS u i) 1
      let w ← load (start n y incY + i * incY)
      axpyC false (triLen u n i) (alpha * w) (start n x incX + triS u i * incX) incX (A + i * ld + triS u i) 1)) →
      YieldsMat (loop n f) m A .rowMajor ld (tri u n) fun i j => Q i j + alpha * (xv i * yv j + yv i * xv j) := by
    intro f hf
    have := rank2_run (c := false) (g := fun v => alpha * v) (h := fun v => alpha * v)
      (fun i hi => by have := (tri_bounds u hi).1; omega) hA hx hy
      (fun i hi => (tri_bounds u hi).1) hdx hdy (fun i hi => (tri_bounds u hi).2.1) f hf
    rw [← tri_rows] at this
    refine yieldsMat_row (ldOk_tri hld) this fun i j _ => ?_
    simp only [cj]; simp; ring
  cases u
  · exact key _ fun i _ => by simp only [axpyGeneric_eq, triLen, triS]; rw [show A + (i : Int) * (ld + 1) = A + i * ld + i by ring]
  · exact key _ fun i _ => by simp [axpyGeneric_eq, triLen, triS]

/-- **C75** `syr2`: the triangle of `A + alpha (x yᵀ + y xᵀ)`. -/
theorem C75_syr2 (hA : MatAt m A o ld (tri u n) Q) (hx : VecAt m x incX n xv) (hy : VecAt m y incY n yv)
    (hld : (n : Int) ≤ ld) (hdx : MatVecDisj A o ld (tri u n) x incX n) (hdy : MatVecDisj A o ld (tri u n) y incY n) :
    YieldsMat (syr2 o u n alpha x incX y incY A ld) m A o ld (tri u n) fun i j =>
      Q i j + alpha * (xv i * yv j + yv i * xv j) := by
  cases o
  swap
  · rw [matAt_col, sw_tri] at hA
    rw [matVecDisj_col, sw_tri] at hdx hdy
    refine yieldsMat_col ?_
    rw [sw_tri]
    refine (syr2_row (alpha := alpha) hA hy hx hld hdy hdx).congr fun i j _ => ?_
    simp only [sw]; ring
  · exact syr2_row hA hx hy hld hdx hdy

variable [DecidableEq K] {re : K → K} {conj : Bool}

/-- The diagonal with its real part, the rest as it is. -/
def realD (re : K → K) (V : Nat → Nat → K) (i j : Nat) : K := if i = j then re (V i i) else V i j

theorem her_row {c : Bool} (hA : MatAt m A .rowMajor ld (tri u n) Q) (hx : VecAt m x incX n xv) (hld : (n : Int) ≤ ld)
    (hdx : MatVecDisj A .rowMajor ld (tri u n) x incX n) (f : Nat → M K Unit)
    (hf : ∀ i, i < n → f i = herRow c (triLen u n i) alpha (start n x incX + i * incX) (start n x incX + triS u i * incX) incX
      (A + i * ld + triS u i)) :
    YieldsMat (do loop n f; realDiag re n A ld) m A .rowMajor ld (tri u n)
      (realD re fun i j => Q i j + alpha * cj c (xv i * star (xv j))) := by
  have hA' := hA
  rw [tri_rows] at hA hdx
  have h1 : loop n f m = .ok ((), over m (rowAd A ld) (fun p => Q p.1 p.2 + alpha * cj c (xv p.1 * star (xv p.2)))
      (pos (tri u n))) := by
    have := rank1_run (c := !c) (g := fun v => alpha * cj c v) (fun i hi => by have := (tri_bounds u hi).1; omega) hA hx hx
      (Nat.le_refl _) (fun i hi => (tri_bounds u hi).1) hdx hdx f (fun i hi => by
        rw [hf i hi]; cases c <;> simp [herRow, cj, axpyC])
    rw [← tri_rows] at this
    rw [this]
    congr 3
    funext p
    cases c <;> simp [cj] <;> ring
  have h2 := realDiag_run (re := re) (u := u) (m := m) (A := A)
    (V := fun i j => Q i j + alpha * cj c (xv i * star (xv j))) hld
  refine yieldsMat_row (ldOk_tri hld) ((bind_ok h1).trans h2) fun i j _ => ?_
  by_cases e : i = j
  · subst e; simp [realD]
  · simp [realD, e]

theorem triRow_upper (i : Nat) : A + (i : Int) * (ld + 1) = A + i * ld + i := by ring

theorem her_run_row (hal : alpha ≠ 0) (hA : MatAt m A .rowMajor ld (tri u n) Q) (hx : VecAt m x incX n xv)
    (hld : (n : Int) ≤ ld) (hdx : MatVecDisj A .rowMajor ld (tri u n) x incX n) :
    YieldsMat (her re .rowMajor u conj n alpha x incX A ld) m A .rowMajor ld (tri u n)
      (realD re fun i j => Q i j + alpha * cj conj (xv i * star (xv j))) := by
  unfold her
  cases u
  · simpa [hal, effUpLo] using her_row (re := re) (c := conj) (alpha := alpha) hA hx hld hdx _ fun i _ => by
      rw [triRow_upper]; rfl
  · simpa [hal, effUpLo] using her_row (re := re) (c := conj) (alpha := alpha) hA hx hld hdx
      (fun i => herRow conj (i + 1) alpha (start n x incX + i * incX) (start n x incX) incX (A + i * ld))
      fun i _ => by simp [triS, triLen]

/-- **C75** `her`: the triangle of `A + alpha x xᴴ` (of `A + alpha conj(x) xᵀ` in the extended form), with the real part of the
diagonal; nothing is done for `alpha = 0`. -/
theorem C75_her (hA : MatAt m A o ld (tri u n) Q) (hx : VecAt m x incX n xv) (hld : (n : Int) ≤ ld)
    (hdx : MatVecDisj A o ld (tri u n) x incX n) :
    (alpha = 0 → her re o u conj n alpha x incX A ld m = .ok ((), m)) ∧
    (alpha ≠ 0 → YieldsMat (her re o u conj n alpha x incX A ld) m A o ld (tri u n)
      (realD re fun i j => Q i j + alpha * cj conj (xv i * star (xv j)))) := by
  refine ⟨fun h => by simp [her, h, pure_ok], fun hal => ?_⟩
  cases o
  swap
  · rw [matAt_col, sw_tri] at hA
    rw [matVecDisj_col, sw_tri] at hdx
    refine yieldsMat_col ?_
    rw [sw_tri]
    have := her_run_row (re := re) (conj := !conj) hal hA hx hld hdx
    refine (show YieldsMat (her re .colMajor u conj n alpha x incX A ld) m A .rowMajor ld (tri u.flip n) _ from
      this).congr fun i j _ => ?_
    by_cases e : i = j
    · subst e; simp only [sw, realD, if_true]; cases conj <;> simp [cj, mul_comm]
    · have e' : j ≠ i := fun h => e h.symm
      simp only [sw, realD, e, e', if_false]
      cases conj <;> simp [cj, mul_comm]
  · exact her_run_row hal hA hx hld hdx

theorem her2_row {c : Bool} (hA : MatAt m A .rowMajor ld (tri u n) Q) (hx : VecAt m x incX n xv) (hy : VecAt m y incY n yv)
    (hld : (n : Int) ≤ ld) (hdx : MatVecDisj A .rowMajor ld (tri u n) x incX n)
    (hdy : MatVecDisj A .rowMajor ld (tri u n) y incY n) (f : Nat → M K Unit)
    (hf : ∀ i, i < n → f i = her2Row c (triLen u n i) alpha (start n x incX + i * incX) (start n x incX + triS u i * incX) incX
      (start n y incY + i * incY) (start n y incY + triS u i * incY) incY (A + i * ld + triS u i)) :
    YieldsMat (do loop n f; realDiag re n A ld) m A .rowMajor ld (tri u n)
      (realD re fun i j => Q i j + cj c (alpha * (xv i * star (yv j)) + star alpha * (yv i * star (xv j)))) := by
  have hA' := hA
  rw [tri_rows] at hA hdx hdy
  have h1 : loop n f m = .ok ((), over m (rowAd A ld) (fun p => Q p.1 p.2 +
      cj c (alpha * (xv p.1 * star (yv p.2)) + star alpha * (yv p.1 * star (xv p.2)))) (pos (tri u n))) := by
    have := rank2_run (c := !c) (g := fun v => cj c (alpha * v)) (h := fun v => cj c (star alpha * v))
      (fun i hi => by have := (tri_bounds u hi).1; omega) hA hx hy
      (fun i hi => (tri_bounds u hi).1) hdx hdy (fun i hi => (tri_bounds u hi).2.1) f (fun i hi => by
        rw [hf i hi]
        cases c
        · simp [her2Row, cj, axpyC]
        · simp [her2Row, cj, axpyC, mul_comm])
    rw [← tri_rows] at this
    rw [this]
    congr 3
    funext p
    cases c <;> simp [cj] <;> ring
  have h2 := realDiag_run (re := re) (u := u) (m := m) (A := A)
    (V := fun i j => Q i j + cj c (alpha * (xv i * star (yv j)) + star alpha * (yv i * star (xv j)))) hld
  refine yieldsMat_row (ldOk_tri hld) ((bind_ok h1).trans h2) fun i j _ => ?_
  by_cases e : i = j
  · subst e; simp [realD]
  · simp [realD, e]

theorem her2_run_row (hal : alpha ≠ 0) (hA : MatAt m A .rowMajor ld (tri u n) Q) (hx : VecAt m x incX n xv)
    (hy : VecAt m y incY n yv) (hld : (n : Int) ≤ ld) (hdx : MatVecDisj A .rowMajor ld (tri u n) x incX n)
    (hdy : MatVecDisj A .rowMajor ld (tri u n) y incY n) :
    YieldsMat (her2 re .rowMajor u conj n alpha x incX y incY A ld) m A .rowMajor ld (tri u n)
      (realD re fun i j => Q i j + cj conj (alpha * (xv i * star (yv j)) + star alpha * (yv i * star (xv j)))) := by
  unfold her2
  cases u
  · simpa [hal, effUpLo] using her2_row (re := re) (c := conj) (alpha := alpha) hA hx hy hld hdx hdy _ fun i _ => by
      rw [triRow_upper]; rfl
  · simpa [hal, effUpLo] using her2_row (re := re) (c := conj) (alpha := alpha) hA hx hy hld hdx hdy
      (fun i => her2Row conj (i + 1) alpha (start n x incX + i * incX) (start n x incX) incX (start n y incY + i * incY)
        (start n y incY) incY (A + i * ld))
      fun i _ => by simp [triS, triLen]

/-- **C75** `her2`: the triangle of `A + alpha x yᴴ + conj(alpha) y xᴴ` (conjugated in the extended form), with the real part of
the diagonal; nothing is done for `alpha = 0`. -/
theorem C75_her2 (hA : MatAt m A o ld (tri u n) Q) (hx : VecAt m x incX n xv) (hy : VecAt m y incY n yv)
    (hld : (n : Int) ≤ ld) (hdx : MatVecDisj A o ld (tri u n) x incX n) (hdy : MatVecDisj A o ld (tri u n) y incY n) :
    (alpha = 0 → her2 re o u conj n alpha x incX y incY A ld m = .ok ((), m)) ∧
    (alpha ≠ 0 → YieldsMat (her2 re o u conj n alpha x incX y incY A ld) m A o ld (tri u n)
      (realD re fun i j => Q i j + cj conj (alpha * (xv i * star (yv j)) + star alpha * (yv i * star (xv j))))) := by
  refine ⟨fun h => by simp [her2, h, pure_ok], fun hal => ?_⟩
  cases o
  swap
  · rw [matAt_col, sw_tri] at hA
    rw [matVecDisj_col, sw_tri] at hdx hdy
    refine yieldsMat_col ?_
    rw [sw_tri]
    have := her2_run_row (re := re) (conj := !conj) hal hA hx hy hld hdx hdy
    refine (show YieldsMat (her2 re .colMajor u conj n alpha x incX y incY A ld) m A .rowMajor ld (tri u.flip n) _ from
      this).congr fun i j _ => ?_
    by_cases e : i = j
    · subst e; simp only [sw, realD, if_true]; congr 2; cases conj <;> simp [cj] <;> ring
    · have e' : j ≠ i := fun h => e h.symm
      simp only [sw, realD, e, e', if_false]
      congr 1
      cases conj <;> simp [cj] <;> ring
  · exact her2_run_row hal hA hx hy hld hdx hdy

end rank

/-- The hypotheses hold for the upper triangle of a matrix whose lower triangle is not in memory. -/
def exTri : Mem Int := fun a =>
  if a = 2 ∨ 5 ≤ a ∧ a < 10 then .out
  else if 0 ≤ a ∧ a < 5 then .val (a + 1)
  else if 10 ≤ a ∧ a < 14 then .val (a - 9)
  else .out

example : MatAt exTri 0 .rowMajor 3 (tri .upper 2) (fun i j => 3 * (i : Int) + j + 1) ∧
    VecAt exTri 10 1 2 (fun i => (i : Int) + 1) ∧ MatVecDisj 0 .rowMajor 3 (tri .upper 2) 10 1 2 := by
  refine ⟨fun i j h => ?_, fun i h => ?_, fun i j k h hk => ?_⟩
  · obtain ⟨h1, h2, h3⟩ := h
    interval_cases i <;> interval_cases j <;> first | decide | (exact absurd h3 (by decide))
  · interval_cases i <;> decide
  · obtain ⟨h1, h2, h3⟩ := h
    interval_cases i <;> interval_cases j <;> interval_cases k <;> decide

example : (peek (syr (K := Int) .rowMajor .upper 2 10 10 1 0 3 exTri) fun _ m => (m 0, m 1, m 4, m 3)) =
    .ok (.val 11, .val 22, .val 45, .val 4) := by decide

/-! ### C76: products with symmetric and hermitian matrices -/

section sym
variable [CommRing K] [StarRing K] [DecidableEq K] {o : Order} {u : UpLo} {n : Nat} {alpha beta : K}
  {A ld x incX y incY : Int} {m : Mem K} {Q : Nat → Nat → K} {xv yv : Nat → K}

/-- **C76** `symv`: `y := beta y + alpha S x` for the symmetric matrix `S` with the stored triangle; the other triangle is not
read. -/
theorem C76_symv (hA : MatAt m A o ld (tri u n) Q) (hx : VecAt m x incX n xv) (hy : VecMem m y incY n)
    (hb : beta ≠ 0 → VecAt m y incY n yv) (hi : incY ≠ 0) (hdA : MatVecDisj A o ld (tri u n) y incY n)
    (hdx : VecDisj x incX n y incY n) :
    Yields (symv o u n alpha A ld x incX beta y incY) m y incY n fun i =>
      beta * yv i + alpha * ∑ j ∈ range n, symM u Q i j * xv j := by
  cases o
  swap
  · rw [matAt_col, sw_tri] at hA
    rw [matVecDisj_col, sw_tri] at hdA
    refine yields_of_over hi ?_
    have := symvRow_run (alpha := alpha) hA hx ⟨hy, hb⟩ hi hdA hdx
    rw [sw_symM] at this
    exact this
  · exact yields_of_over hi (symvRow_run hA hx ⟨hy, hb⟩ hi hdA hdx)

theorem herM_flip (re : K → K) (c : Bool) {i j : Nat} (e : i ≠ j) :
    cj (!c) (herM re u.flip (sw Q) i j) = cj c (herM re u Q i j) := by
  rcases lt_or_gt_of_ne e with h | h <;> have h' := not_lt.2 h.le <;> cases u <;> cases c <;>
    simp [herM, UpLo.flip, sw, cj, e, h, h']

/-- **C76** `hemv`: `y := beta y + alpha H x` (with the conjugate of `H` in the extended form) for the hermitian matrix `H` with
the stored triangle; neither the other triangle nor the imaginary part of the diagonal matters. -/
theorem C76_hemv {re : K → K} {conj : Bool} (hre : ∀ v, star (re v) = re v) (hA : MatAt m A o ld (tri u n) Q)
    (hx : VecAt m x incX n xv) (hy : VecMem m y incY n) (hb : beta ≠ 0 → VecAt m y incY n yv) (hi : incY ≠ 0)
    (hdA : MatVecDisj A o ld (tri u n) y incY n) (hdx : VecDisj x incX n y incY n) :
    Yields (hemv re o u conj n alpha A ld x incX beta y incY) m y incY n fun i =>
      beta * yv i + alpha * ∑ j ∈ range n, cj conj (herM re u Q i j) * xv j := by
  have hdiag : ∀ (b : Bool) i, cj b (herM re u Q i i) = re (Q i i) := by
    intro b i; cases b <;> simp [herM, cj, hre]
  cases o
  swap
  · rw [matAt_col, sw_tri] at hA
    rw [matVecDisj_col, sw_tri] at hdA
    have := hemvRow_run (alpha := alpha) (re := re) (c := !conj) hA hx ⟨hy, hb⟩ hi hdA hdx
    refine (yields_of_over hi (c := hemv re .colMajor u conj n alpha A ld x incX beta y incY) this).congr fun i _ => ?_
    congr 2
    refine sum_congr rfl fun j _ => ?_
    by_cases e : i = j
    · subst e; rw [if_pos rfl, hdiag]; rfl
    · rw [if_neg e, herM_flip re conj e]
  · have := hemvRow_run (alpha := alpha) (re := re) (c := conj) hA hx ⟨hy, hb⟩ hi hdA hdx
    refine (yields_of_over hi (c := hemv re .rowMajor u conj n alpha A ld x incX beta y incY) (by
      simpa [hemv, effUpLo] using this)).congr fun i _ => ?_
    congr 2
    refine sum_congr rfl fun j _ => ?_
    by_cases e : i = j
    · subst e; rw [if_pos rfl, hdiag]
    · rw [if_neg e]

end sym

example : (peek (symv (K := Int) .rowMajor .upper 2 1 0 3 10 1 0 12 1 exTri) fun _ m => (m 12, m 13)) =
    .ok (.val 5, .val 12) := by decide

/-! ### C77: products and solves with triangular matrices -/

/-- **C77** `trmv`: `x := op(T) x` for the triangular matrix `T`; the other triangle is not read, and with a unit diagonal the
diagonal is not read either. -/
theorem C77_trmv [CommRing K] [StarRing K] {o : Order} {u : UpLo} {t : Trans} {d : Diag} {n : Nat} {A ld x incX : Int}
    {m : Mem K} {Q : Nat → Nat → K} {xv : Nat → K} (hA : MatAt m A o ld (stored u d n) Q) (hx : VecAt m x incX n xv)
    (hi : incX ≠ 0) (hdA : MatVecDisj A o ld (stored u d n) x incX n) :
    Yields (trmv o u t d n A ld x incX) m x incX n fun i => ∑ j ∈ range n, opM t (triM u d Q) i j * xv j := by
  rw [← triOp_eq t u d Q (star_zero K) (star_one K)]
  cases o
  swap
  · rw [matAt_col, sw_stored] at hA
    rw [matVecDisj_col, sw_stored] at hdA
    have := trmvRow_run (trans := t.flip.trans) (c := t.flip.conj) hA hx hi hdA
    rw [triOp_flip] at this
    exact yields_of_over hi this
  · exact yields_of_over hi (trmvRow_run hA hx hi hdA)

/-- **C77** `trsv`: the solution of `op(T) x = b`, for a triangular matrix `T` without zeros on the diagonal. -/
theorem C77_trsv [Field K] [StarRing K] {o : Order} {u : UpLo} {t : Trans} {d : Diag} {n : Nat} {A ld x incX : Int}
    {m : Mem K} {Q : Nat → Nat → K} {b : Nat → K} (hA : MatAt m A o ld (stored u d n) Q) (hx : VecAt m x incX n b)
    (hi : incX ≠ 0) (hdA : MatVecDisj A o ld (stored u d n) x incX n) (hnz : d = .nonUnit → ∀ i, i < n → Q i i ≠ 0) :
    ∃ xv, Yields (trsv o u t d n A ld x incX) m x incX n xv ∧
      ∀ i, i < n → ∑ j ∈ range n, opM t (triM u d Q) i j * xv j = b i := by
  rw [← triOp_eq t u d Q (star_zero K) (star_one K)]
  cases o
  swap
  · rw [matAt_col, sw_stored] at hA
    rw [matVecDisj_col, sw_stored] at hdA
    obtain ⟨xs, h1, h2⟩ := trsvRow_run (trans := t.flip.trans) (c := t.flip.conj) hA hx hi hdA hnz
    rw [triOp_flip] at h2
    exact ⟨xs, yields_of_over hi h1, h2⟩
  · obtain ⟨xs, h1, h2⟩ := trsvRow_run (trans := t.trans) (c := t.conj) hA hx hi hdA hnz
    exact ⟨xs, yields_of_over hi h1, h2⟩

/-- **C77** Multiplying after solving gives the memory back as it was. -/
theorem C77_inverse [Field K] [StarRing K] {o : Order} {u : UpLo} {t : Trans} {d : Diag} {n : Nat} {A ld x incX : Int}
    {m : Mem K} {Q : Nat → Nat → K} {xv : Nat → K} (hA : MatAt m A o ld (stored u d n) Q) (hx : VecAt m x incX n xv)
    (hi : incX ≠ 0) (hdA : MatVecDisj A o ld (stored u d n) x incX n) (hnz : d = .nonUnit → ∀ i, i < n → Q i i ≠ 0) :
    (do trsv o u t d n A ld x incX; trmv o u t d n A ld x incX : M K Unit) m = .ok ((), m) := by
  obtain ⟨xs, ⟨m', h1, h2, h3⟩, h4⟩ := C77_trsv (t := t) hA hx hi hdA hnz
  have hA' : MatAt m' A o ld (stored u d n) Q := fun i j hp => by
    rw [h3 _ fun k hk => hdA i j k hp hk]; exact hA i j hp
  obtain ⟨m'', g1, g2, g3⟩ := C77_trmv (t := t) hA' h2 hi hdA
  refine (bind_ok h1).trans (g1.trans ?_)
  refine congrArg (fun z => Out.ok ((), z)) (funext fun a => ?_)
  by_cases ha : ∃ i, i < n ∧ a = elem x incX n i
  · obtain ⟨i, hin, rfl⟩ := ha
    exact (g2 i hin).trans ((congrArg Cell.val (h4 i hin)).trans (hx i hin).symm)
  · have : ∀ i, i < n → a ≠ elem x incX n i := fun i hin e => ha ⟨i, hin, e⟩
    rw [g3 a this, h3 a this]

/-- A memory for the examples over the rationals: a triangular matrix at 0 of order 2, a vector at 10. -/
def exTriQ : Mem Rat := fun a =>
  if a = 0 then .val 2 else if a = 1 then .val 3 else if a = 4 then .val 4 else if a = 10 then .val 7
  else if a = 12 then .val 8 else .out

example : MatAt exTriQ 0 .rowMajor 3 (stored .upper .nonUnit 2) (fun i j => if i = 1 then 4 else if j = 0 then 2 else 3) ∧
    VecAt exTriQ 10 2 2 (fun i => (i : Rat) + 7) ∧ MatVecDisj 0 .rowMajor 3 (stored .upper .nonUnit 2) 10 2 2 := by
  refine ⟨fun i j h => ?_, fun i h => ?_, fun i j k h hk => ?_⟩
  · obtain ⟨⟨h1, h2, h3⟩, -⟩ := h
    interval_cases i <;> interval_cases j <;> first | (simp [exTriQ, idx]; done) | (exact absurd h3 (by decide))
  · interval_cases i
    · simp [exTriQ, elem]
    · norm_num [exTriQ, elem]
  · obtain ⟨⟨h1, h2, h3⟩, -⟩ := h
    interval_cases i <;> interval_cases j <;> interval_cases k <;> decide

end Verif.Blas
