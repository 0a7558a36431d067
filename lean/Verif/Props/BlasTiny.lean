import Verif.Model.BlasTiny
import Verif.Props.Blas1Mat
import Verif.Props.BlasSparse

/-! Property theorems for the routines of cxxblas for sizes fixed at compile time (C98). Increments are positive. -/

namespace Verif.Blas

open Finset

variable {K : Type} {m : Mem K} {n : Nat} {x incX y incY : Int} {xv yv : Nat → K} {alpha beta : K}

theorem start_pos (h : 0 ≤ incX) : start n x incX = x := by
  unfold start; rw [if_neg (by omega)]

/-! ### Vectors -/

/-- **C98** `copy` and `ccopy` for equal increments. The statement for all increments is `C98CopyClaim`, which is false. -/
theorem C98_copy_partial [Star K] (hx : VecAt m x incX n xv) (hy : VecMem m y incX n) (h : 0 < incX)
    (hd : VecDisj x incX n y incX n) :
    Yields (tinyCopy n x incX y incX) m y incX n xv ∧ Yields (tinyCcopy n x incX y incX) m y incX n fun i => star (xv i) := by
  have e1 : tinyCopy (K := K) n x incX y incX = copy n x incX y incX := by
    unfold tinyCopy copy; simp only [start_pos (Int.le_of_lt h)]
  have e2 : tinyCcopy (K := K) n x incX y incX = ccopy n x incX y incX := by
    unfold tinyCcopy ccopy; simp only [start_pos (Int.le_of_lt h)]
  rw [e1, e2]
  exact ⟨C71_copy hx hy (by omega) hd.safe, C71_ccopy hx hy (by omega) hd.safe⟩

/-- **C98** `axpy` and `acxpy`. -/
theorem C98_axpy [Mul K] [Add K] [Star K] (hx : VecAt m x incX n xv) (hy : VecAt m y incY n yv) (hX : 0 ≤ incX) (hY : 0 < incY)
    (hd : VecDisj x incX n y incY n) :
    Yields (tinyAxpy n alpha x incX y incY) m y incY n (fun i => yv i + alpha * xv i) ∧
      Yields (tinyAcxpy n alpha x incX y incY) m y incY n fun i => yv i + alpha * star (xv i) := by
  have e1 : tinyAxpy n alpha x incX y incY = axpy n alpha x incX y incY := by
    unfold tinyAxpy axpy axpyGeneric; simp only [start_pos hX, start_pos (Int.le_of_lt hY)]
  have e2 : tinyAcxpy n alpha x incX y incY = acxpy n alpha x incX y incY := by
    unfold tinyAcxpy acxpy acxpyGeneric; simp only [start_pos hX, start_pos (Int.le_of_lt hY)]
  rw [e1, e2]
  exact ⟨C71_axpy hx hy (by omega) hd.safe, C71_acxpy hx hy (by omega) hd.safe⟩

/-- **C98** `axpby` and `acxpby`; other than in the routines without fixed sizes `y` has to be initialised also for `beta = 0`. -/
theorem C98_axpby [Mul K] [Add K] [Star K] (hx : VecAt m x incX n xv) (hy : VecAt m y incY n yv) (hX : 0 ≤ incX) (hY : 0 < incY)
    (hd : VecDisj x incX n y incY n) :
    Yields (tinyAxpby n alpha x incX beta y incY) m y incY n (fun i => beta * yv i + alpha * xv i) ∧
      Yields (tinyAcxpby n alpha x incX beta y incY) m y incY n fun i => beta * yv i + alpha * star (xv i) := by
  have h := start_pos (n := n) (x := x) hX
  have h' := start_pos (n := n) (x := y) (Int.le_of_lt hY)
  have e1 := map2_run (fun v w => beta * w + alpha * v) hx hy (by omega) hd.safe
  have e2 := map2_run (fun v w => beta * w + alpha * star v) hx hy (by omega) hd.safe
  rw [h, h'] at e1 e2
  exact ⟨yields_of_over (by omega) e1, yields_of_over (by omega) e2⟩

/-- **C98** `scal` and `rscal` for increment 1. The statement for all increments is `C98ScalClaim`, which is false. -/
theorem C98_scal_partial [Mul K] [Div K] (hy : VecAt m y 1 n yv) :
    Yields (tinyScal n alpha y 1) m y 1 n (fun i => yv i * alpha) ∧ Yields (tinyRscal n alpha y 1) m y 1 n fun i => yv i / alpha := by
  have h' := start_pos (n := n) (x := y) (incX := 1) (by omega)
  have e1 := map0_run (fun w => w * alpha) hy (by omega)
  have e2 := map0_run (fun w => w / alpha) hy (by omega)
  rw [h'] at e1 e2
  simp only [mul_one] at e1 e2
  exact ⟨yields_of_over (by omega) e1, yields_of_over (by omega) e2⟩

/-! ### Matrices in row-major order -/

section mat
variable {t : Trans} {r c : Nat} {A ldA B ldB : Int} {QA QB : Nat → Nat → K}

/-- **C98** `gecopy` without transposition and conjugation. The statement for all operations is `C98GecopyClaim`, which is false. -/
theorem C98_gecopy_partial [Star K] (hA : MatAt m A .rowMajor ldA (full r c) QA) (hldA : LdOk .rowMajor ldA r c)
    (hB : MatMem m B .rowMajor ldB (full r c)) (hldB : LdOk .rowMajor ldB r c)
    (hd : StDisj (matAd A .rowMajor ldA) (full r c) (matAd B .rowMajor ldB) (full r c)) :
    YieldsMat (tinyGecopy noTrans r c A ldA B ldB) m B .rowMajor ldB (full r c) QA := by
  have e : ∀ (n : Nat) (x y : Int), tinyCopy (K := K) n x 1 y 1 = copy n x 1 y 1 := by
    intro n x y
    unfold tinyCopy copy; simp only [start_pos (show (0 : Int) ≤ 1 by omega)]
  have := C91_gecopy (t := noTrans) hA hldA hB hldB hd
  simp only [tinyGecopy, noTrans, e]
  exact this

/-- **C98** `gecopy` with transposition for one column (`A` is a row). -/
theorem C98_gecopy_column_partial [Star K] (hA : MatAt m A .rowMajor ldA (full 1 r) QA) (hB : MatMem m B .rowMajor ldB (full r 1))
    (hldB : LdOk .rowMajor ldB r 1) (hd : StDisj (matAd A .rowMajor ldA) (full 1 r) (matAd B .rowMajor ldB) (full r 1)) :
    YieldsMat (tinyGecopy doTrans r 1 A ldA B ldB) m B .rowMajor ldB (full r 1) (opM doTrans QA) := by
  have hld : ((1 : Nat) : Int) ≤ ldB := hldB
  refine lines_run hld _ fun l hl m' ho => ?_
  have eA : A + (l : Int) = matAd A .rowMajor ldA 0 l := by simp only [matAd, idx]; push_cast; ring
  have eB : B + (l : Int) * ldB = matAd B .rowMajor ldB l 0 := by simp only [matAd, idx]; push_cast; ring
  have hv : m' (A + (l : Int)) = .val (QA 0 l) := by
    refine (ho _ fun i j h e => ?_).trans ((congrArg m eA).trans (hA 0 l ⟨Nat.one_pos, hl⟩))
    rw [eA] at e
    exact hd 0 l i j ⟨Nat.one_pos, hl⟩ ⟨lt_trans h.1 hl, h.2⟩ e
  have hm : m' (B + (l : Int) * ldB) ≠ .out := by
    rw [ho _ fun i j h e => ?_, eB]
    · exact hB l 0 ⟨hl, Nat.one_pos⟩
    · rw [eB] at e
      have := (matAd_inj (by omega) (by have := h.2; omega) e).1
      have := h.1
      omega
  have hc := C71_copy (x := A + (l : Int)) (incX := 1) (y := B + (l : Int) * ldB) (incY := 1) (n := 1) (m := m') (xv := fun _ => QA 0 l)
    (fun i hi => by obtain rfl : i = 0 := by omega
                    simpa [elem] using hv)
    (fun i hi => by obtain rfl : i = 0 := by omega
                    simpa [elem] using hm) (by omega)
    (fun i j hi hj => by omega)
  have e : tinyCopy (K := K) 1 (A + l) ldA (B + l * ldB) 1 = copy 1 (A + l) 1 (B + l * ldB) 1 := by
    unfold tinyCopy copy
    simp [loop, start_pos (show (0 : Int) ≤ 1 by omega)]
  rw [e]
  obtain ⟨m'', h1, h2, h3⟩ := hc
  refine ⟨m'', h1, fun i hi => ?_, h3⟩
  rw [h2 i hi]
  obtain rfl : i = 0 := by omega
  rfl

/-- **C98** Conjugation without transposition is rejected. -/
theorem C98_gecopy_assert : tinyGecopy conjNoTrans r c A ldA B ldB m = assertFail m := rfl

/-- **C98** `geaxpy`. -/
theorem C98_geaxpy [Mul K] [Add K] [Star K] (hA : MatAt m A .rowMajor ldA (full (opRows t r c) (opCols t r c)) QA)
    (hldA : LdOk .rowMajor ldA (opRows t r c) (opCols t r c)) (hB : MatAt m B .rowMajor ldB (full r c) QB)
    (hldB : LdOk .rowMajor ldB r c)
    (hd : StDisj (matAd A .rowMajor ldA) (full (opRows t r c) (opCols t r c)) (matAd B .rowMajor ldB) (full r c)) :
    YieldsMat (tinyGeaxpy t r c alpha A ldA B ldB) m B .rowMajor ldB (full r c) fun i j => QB i j + alpha * opM t QA i j := by
  have h0 := ldOk_nonneg hldA
  have e1 : ∀ (n : Nat) (x incX y : Int), 0 ≤ incX → tinyAxpy n alpha x incX y 1 = axpy n alpha x incX y 1 := by
    intro n x incX y h
    unfold tinyAxpy axpy axpyGeneric; simp only [start_pos h, start_pos (show (0 : Int) ≤ 1 by omega)]
  have e2 : ∀ (n : Nat) (x incX y : Int), 0 ≤ incX → tinyAcxpy n alpha x incX y 1 = acxpy n alpha x incX y 1 := by
    intro n x incX y h
    unfold tinyAcxpy acxpy acxpyGeneric; simp only [start_pos h, start_pos (show (0 : Int) ≤ 1 by omega)]
  have := C91_geaxpy (alpha := alpha) (t := t) hA hldA hB hldB hd
  have e : tinyGeaxpy t r c alpha A ldA B ldB = geaxpy .rowMajor t r c alpha A ldA B ldB := by
    obtain ⟨a, b⟩ := t
    cases a <;> cases b <;> simp only [tinyGeaxpy, geaxpy, geOp, geRow, e1 _ _ _ _ h0, e2 _ _ _ _ h0,
      e1 _ _ 1 _ (by omega), e2 _ _ 1 _ (by omega)]
  rw [e]
  exact this

/-- **C98** `gescal` and `gerscal`. -/
theorem C98_gescal [Mul K] [Div K] (hA : MatAt m A .rowMajor ldA (full r c) QA) (hldA : LdOk .rowMajor ldA r c) :
    YieldsMat (tinyGescal r c alpha A ldA) m A .rowMajor ldA (full r c) (fun i j => QA i j * alpha) ∧
      YieldsMat (tinyGerscal r c alpha A ldA) m A .rowMajor ldA (full r c) fun i j => QA i j / alpha := by
  have hld : (c : Int) ≤ ldA := hldA
  have old : ∀ l, l < r → ∀ m', OnlyMat m m' A .rowMajor ldA (full l c) → VecAt m' (A + l * ldA) 1 c fun j => QA l j := by
    intro l hl m' ho j hj
    have e1 : A + (l : Int) * ldA + j = matAd A .rowMajor ldA l j := by simp only [matAd, idx]; ring
    rw [elem_one, e1]
    refine (ho _ fun i' j' h' e => ?_).trans (hA l j ⟨hl, hj⟩)
    have := (matAd_inj (by omega) (by have := h'.2; omega) e).1
    have := h'.1
    omega
  exact ⟨lines_run hld _ fun l hl m' ho => (C98_scal_partial (old l hl m' ho)).1,
    lines_run hld _ fun l hl m' ho => (C98_scal_partial (old l hl m' ho)).2⟩

end mat

/-! ### Product with a vector -/

theorem scaleCell_ok [Mul K] {a : Int} {w : K} (h : m a = .val w) : scaleCell beta a m = .ok ((), set m a (w * beta)) :=
  (bind_ok (load_ok h)).trans (store_ok (by rw [h]; simp))

theorem not_cells {k : Nat} {i : Nat} (h : VecDisj x incX k y incY n) (hi : i < k) : elem x incX k i ∉ cells y incY n :=
  fun ⟨j, hj, e⟩ => h i j hi hj e.symm

/-- **C98** `gemv`: `y := beta y + alpha op(A) x`, with equal increments if `A` is transposed. The statement without that condition is
`C98GemvClaim`, which is false. `y` has to be initialised also for `beta = 0`. -/
theorem C98_gemv_partial [CommRing K] [StarRing K] {t : Trans} {r c : Nat} {A ld : Int} {Q : Nat → Nat → K}
    (hA : MatAt m A .rowMajor ld (full r c) Q) (hx : VecAt m x incX (opCols t r c) xv) (hy : VecAt m y incY (opRows t r c) yv)
    (hX : 0 ≤ incX) (hY : 0 < incY) (hinc : t.trans = true → incX = incY)
    (hdA : MatVecDisj A .rowMajor ld (full r c) y incY (opRows t r c))
    (hdx : VecDisj x incX (opCols t r c) y incY (opRows t r c)) :
    Yields (tinyGemv t r c alpha A ld x incX beta y incY) m y incY (opRows t r c) fun i =>
      beta * yv i + alpha * ∑ j ∈ range (opCols t r c), opM t Q i j * xv j := by
  have hY' : incY ≠ 0 := by omega
  have notA : ∀ i j, i < r → j < c → matAd A .rowMajor ld i j ∉ cells y incY (opRows t r c) := by
    rintro i j hi hj ⟨k, hk, e⟩
    exact hdA i j k ⟨hi, hj⟩ hk e.symm
  have eA : ∀ i j : Nat, A + ((i : Int) * ld + j) = matAd A .rowMajor ld i j := fun i j => by simp only [matAd, idx]
  unfold tinyGemv
  cases ht : t.trans
  · simp only [opRows, opCols, ht, Bool.false_eq_true, if_false] at hx hy hdx notA ⊢
    obtain ⟨m', h1, h2, h3⟩ := passes_run (c := r) (f := fun i : Nat => do
        scaleCell beta (y + i * incY)
        loop c fun j => addTerm alpha (if t.conj then star else id) (y + i * incY) (A + (i * ld + j)) (x + j * incX)) (m := m)
      (elem y incY r) (fun i => beta * yv i + alpha * ∑ j ∈ range c, opM t Q i j * xv j) (fun l i => i = l)
      (by rintro l l' _ _ _ _ rfl rfl e; exact ⟨elem_inj hY' e, elem_inj hY' e⟩) (by
        intro l hl m' hm'
        have el : y + (l : Int) * incY = elem y incY r l := (elem_pos (Int.le_of_lt hY) r l).symm
        have e : m' (elem y incY r l) = .val (yv l) := (hm' _ (by
          rintro l' i hl' rfl e; have := elem_inj hY' e; omega)).trans (hy l hl)
        have hsub : ∀ a, a ∉ cells y incY r → m' a = m a := fun a ha => hm' a (by
          rintro l' i hl' rfl rfl
          exact ha ⟨i, by omega, rfl⟩)
        have hcell : ∀ a, a ∈ cells (elem y incY r l) 1 1 ↔ a = elem y incY r l := by
          intro a
          constructor
          · rintro ⟨j, hj, e⟩
            have : j = 0 := by omega
            subst this
            rw [elem_one] at e
            rw [← e]; push_cast; ring
          · rintro rfl
            exact ⟨0, by omega, by rw [elem_one]; push_cast; ring⟩
        have hin : ∀ a, a ∉ cells y incY r → a ∉ cells (elem y incY r l) 1 1 := by
          intro a ha h
          exact ha ⟨l, hl, ((hcell a).1 h).symm⟩
        have hrun : Adds m' (elem y incY r l) 1 1 (loop c fun j : Nat => addTerm alpha (if t.conj then star else id)
            (y + l * incY) (A + (l * ld + j)) (x + j * incX)) fun p =>
              ∑ j ∈ range c, if p = 0 then alpha * cj t.conj (Q l j) * xv j else 0 := by
          refine adds_loop fun j hj => ?_
          have ex := hx j hj
          have nx := not_cells hdx hj
          rw [elem_pos hX] at ex nx
          have := adds_term (m := m') (y := elem y incY r l) (n := 1) (alpha := alpha) (f := if t.conj then star else id) (p := 0)
            (a := matAd A .rowMajor ld l j) (x := x + j * incX) (v := Q l j) (u := xv j) (by omega)
            ((hsub _ (notA l j hl hj)).trans (hA l j ⟨hl, hj⟩)) (hin _ (notA l j hl hj))
            ((hsub _ nx).trans ex) (hin _ nx)
          rw [conj_fun] at this
          rw [eA, el]
          simpa using this
        obtain ⟨m2, k1, k2, k3⟩ := hrun (set m' (elem y incY r l) (yv l * beta)) (fun _ => yv l * beta)
          (fun a ha => set_ne _ _ fun e => ha ((hcell a).2 e)) (by
            intro i hi
            have : i = 0 := by omega
            subst this
            rw [elem_one]; simp [set])
        refine ⟨m2, (bind_ok (m' := set m' (elem y incY r l) (yv l * beta)) (by rw [el]; exact scaleCell_ok e)).trans k1, ?_, fun a ha => ?_⟩
        · rintro i rfl
          have := k3 0 (by omega)
          rw [elem_one] at this
          simp only [Nat.cast_zero, add_zero, if_true] at this
          rw [this]
          congr 1
          rw [mul_comm beta, mul_sum]
          congr 1
          refine sum_congr rfl fun j _ => ?_
          simp only [opM, ht, Bool.false_eq_true, if_false, mul_assoc]
        · have hne := ha l rfl
          exact (k2 a fun h => hne ((hcell a).1 h)).trans (set_ne _ _ hne))
    exact ⟨m', h1, fun i hi => h2 i i hi rfl, fun a ha => h3 a (by rintro l i hl rfl; exact ha i hl)⟩
  · obtain rfl := hinc ht
    simp only [opRows, opCols, ht, if_true] at hx hy hdx notA ⊢
    have hsc := map0_run (fun w => w * beta) hy hY'
    rw [start_pos hX] at hsc
    obtain ⟨m1, h1, h2, h3⟩ := yields_of_over hY' hsc
    have hadd : Adds m y incX c (loop r fun i : Nat => loop c fun j : Nat => addTerm alpha (if t.conj then star else id)
        (y + j * incX) (A + (i * ld + j)) (x + i * incX)) fun p =>
          ∑ i ∈ range r, ∑ j ∈ range c, if p = j then alpha * cj t.conj (Q i j) * xv i else 0 := by
      refine adds_loop fun i hi => adds_loop fun j hj => ?_
      have ex := hx i hi
      have nx := not_cells hdx hi
      rw [elem_pos hX] at ex nx
      have := adds_at (m := m) (y := y) (inc := incX) hY' (n := c) (alpha := alpha) (f := if t.conj then star else id) (p := j)
        (a := matAd A .rowMajor ld i j) (x := x + i * incX) hj (hA i j ⟨hi, hj⟩) (notA i j hi hj) ex nx
      rw [conj_fun, elem_pos hX] at this
      rw [eA]
      exact this
    have hag : AgreeOff (cells y incX c) m m1 := fun a ha => h3 a fun i hi e => ha ⟨i, hi, e.symm⟩
    obtain ⟨m2, k1, k2, k3⟩ := hadd m1 _ hag h2
    refine ⟨m2, (bind_ok (c := loop c fun j : Nat => scaleCell beta (y + j * incX)) h1).trans k1,
      fun p hp => (k3 p hp).trans (congrArg Cell.val ?_), fun a ha => ?_⟩
    · simp only []
      rw [mul_comm beta, mul_sum]
      congr 1
      refine sum_congr rfl fun i _ => ?_
      rw [sum_ite_eq, if_pos (mem_range.2 hp)]
      simp only [opM, ht, if_true, mul_assoc]
    · have hne : a ∉ cells y incX c := fun ⟨i, hi, e⟩ => ha i hi e.symm
      exact (k2 a hne).trans (hag a hne)

/-! ### What is false -/

/-- C98 for `copy` with any positive increments. -/
def C98CopyClaim : Prop :=
  ∀ (n : Nat) (x incX y incY : Int) (m : Mem Int) (xv : Nat → Int), VecAt m x incX n xv → VecMem m y incY n → 0 < incX → 0 < incY →
    VecDisj x incX n y incY n → Yields (tinyCopy n x incX y incY) m y incY n xv

/-- **C98** `copy` steps through `y` with the increment of `x`. -/
theorem C98_copy_false : ¬C98CopyClaim := by
  intro h
  obtain ⟨m', h1, h2, _⟩ := h 2 0 1 20 2 exTwo (fun i => 10 + i) (fun i h => by interval_cases i <;> decide)
    (fun i h => by interval_cases i <;> decide) (by decide) (by decide)
    (fun i j h hk => by interval_cases i <;> interval_cases j <;> decide)
  have e : (peek (tinyCopy (K := Int) 2 0 1 20 2 exTwo) fun _ m => m 22) = .ok (.val 42) := by decide
  have e1 : m' 22 = .val 11 := h2 1 (by omega)
  rw [h1] at e
  have e2 : m' 22 = .val 42 := by simpa [peek, bind, Out.bind] using e
  rw [e1] at e2
  simp at e2

/-- C98 for `scal` with any positive increment. -/
def C98ScalClaim : Prop :=
  ∀ (n : Nat) (alpha y incY : Int) (m : Mem Int) (yv : Nat → Int), VecAt m y incY n yv → 0 < incY →
    Yields (tinyScal n alpha y incY) m y incY n fun i => yv i * alpha

/-- **C98** `scal` ignores the increment. -/
theorem C98_scal_false : ¬C98ScalClaim := by
  intro h
  obtain ⟨m', h1, h2, _⟩ := h 2 3 0 2 exTwo (fun i => 10 + 2 * i) (fun i h => by interval_cases i <;> decide) (by decide)
  have e : (peek (tinyScal (K := Int) 2 3 0 2 exTwo) fun _ m => m 2) = .ok (.val 12) := by decide
  have e1 : m' 2 = .val 36 := h2 1 (by omega)
  rw [h1] at e
  have e2 : m' 2 = .val 12 := by simpa [peek, bind, Out.bind] using e
  rw [e1] at e2
  simp at e2

/-- C98 for `gecopy` with transposition. -/
def C98GecopyClaim : Prop :=
  ∀ (t : Trans) (r c : Nat) (A ldA B ldB : Int) (m : Mem Int) (QA : Nat → Nat → Int), t.conj = false →
    MatAt m A .rowMajor ldA (full (opRows t r c) (opCols t r c)) QA → LdOk .rowMajor ldA (opRows t r c) (opCols t r c) →
    MatMem m B .rowMajor ldB (full r c) → LdOk .rowMajor ldB r c →
    StDisj (matAd A .rowMajor ldA) (full (opRows t r c) (opCols t r c)) (matAd B .rowMajor ldB) (full r c) →
    YieldsMat (tinyGecopy t r c A ldA B ldB) m B .rowMajor ldB (full r c) (opM t QA)

/-- **C98** `gecopy` with transposition writes with the leading dimension of `A` as increment (by `copy`). -/
theorem C98_gecopy_false : ¬C98GecopyClaim := by
  intro h
  obtain ⟨m', h1, h2, _⟩ := h doTrans 2 2 0 2 20 2 exTwo (fun i j => 10 + 2 * i + j) rfl
    (by rintro i j ⟨hi, hj⟩; replace hi : i < 2 := hi; replace hj : j < 2 := hj; interval_cases i <;> interval_cases j <;> decide)
    (by simp [LdOk, opCols, doTrans])
    (by rintro i j ⟨hi, hj⟩; interval_cases i <;> interval_cases j <;> decide) (by simp [LdOk])
    (by rintro i j k l ⟨hi, hj⟩ ⟨hk, hl⟩; replace hi : i < 2 := hi; replace hj : j < 2 := hj
        interval_cases i <;> interval_cases j <;> interval_cases k <;> interval_cases l <;> decide)
  have e : (peek (tinyGecopy (K := Int) doTrans 2 2 0 2 20 2 exTwo) fun _ m => m 21) = .ok (.val 41) := by decide
  have e1 : m' 21 = .val 12 := h2 0 1 ⟨by omega, by omega⟩
  rw [h1] at e
  have e2 : m' 21 = .val 41 := by simpa [peek, bind, Out.bind] using e
  rw [e1] at e2
  simp at e2

/-- A row of three numbers becomes a column with leading dimension 2. -/
example : YieldsMat (tinyGecopy (K := Int) doTrans 3 1 0 5 20 2) exTwo 20 .rowMajor 2 (full 3 1) (opM doTrans fun _ j => 10 + j) :=
  C98_gecopy_column_partial
    (by rintro i j ⟨hi, hj⟩; interval_cases i; interval_cases j <;> decide)
    (by rintro i j ⟨hi, hj⟩; interval_cases j; interval_cases i <;> decide) (by simp [LdOk])
    (by rintro i j k l ⟨hi, hj⟩ ⟨hk, hl⟩
        interval_cases i; interval_cases l; interval_cases j <;> interval_cases k <;> decide)

/-- C98 for `gemv` with any positive increments. -/
def C98GemvClaim : Prop :=
  ∀ (t : Trans) (r c : Nat) (alpha A ld x incX beta y incY : Int) (m : Mem Int) (Q : Nat → Nat → Int) (xv yv : Nat → Int),
    MatAt m A .rowMajor ld (full r c) Q → VecAt m x incX (opCols t r c) xv → VecAt m y incY (opRows t r c) yv → 0 < incX → 0 < incY →
    MatVecDisj A .rowMajor ld (full r c) y incY (opRows t r c) → VecDisj x incX (opCols t r c) y incY (opRows t r c) →
    Yields (tinyGemv t r c alpha A ld x incX beta y incY) m y incY (opRows t r c) fun i =>
      beta * yv i + alpha * ∑ j ∈ range (opCols t r c), opM t Q i j * xv j

/-- **C98** `gemv` with transposition steps through `x` with the increment of `y`. -/
theorem C98_gemv_false : ¬C98GemvClaim := by
  intro h
  obtain ⟨m', h1, h2, _⟩ := h doTrans 2 1 1 0 1 4 2 0 20 1 exTwo (fun i _ => 10 + i) (fun i => 14 + 2 * i) (fun i => 40 + i)
    (by rintro i j ⟨hi, hj⟩; interval_cases i <;> interval_cases j <;> decide)
    (fun i hi => by replace hi : i < 2 := hi; interval_cases i <;> decide)
    (fun i hi => by replace hi : i < 1 := hi; interval_cases i; decide) (by decide) (by decide)
    (by rintro i j k ⟨hi, hj⟩ hk; replace hk : k < 1 := hk
        interval_cases i <;> interval_cases j <;> interval_cases k <;> decide)
    (fun i j hi hj => by
      replace hi : i < 2 := hi; replace hj : j < 1 := hj; interval_cases i <;> interval_cases j <;> decide)
  have e : (peek (tinyGemv (K := Int) doTrans 2 1 1 0 1 4 2 0 20 1 exTwo) fun _ m => m 20) = .ok (.val 305) := by decide
  have e1 : m' 20 = .val 316 := h2 0 (by show 0 < 1; omega)
  rw [h1] at e
  have e2 : m' 20 = .val 305 := by simpa [peek, bind, Out.bind] using e
  rw [e1] at e2
  simp at e2

/-- The hypotheses of `C98_gemv_partial` hold for a 2x2 matrix, transposed, and vectors with increment 2. -/
example : MatAt exTwo 0 .rowMajor 3 (full 2 2) (fun i j => 10 + 3 * (i : Int) + j) ∧ VecAt exTwo 5 2 2 (fun i => 15 + 2 * (i : Int)) ∧
    VecAt exTwo 20 2 2 (fun i => 40 + 2 * (i : Int)) ∧ MatVecDisj 0 .rowMajor 3 (full 2 2) 20 2 2 ∧ VecDisj 5 2 2 20 2 2 := by
  refine ⟨?_, fun i h => ?_, fun i h => ?_, ?_, fun i j h hk => ?_⟩
  · rintro i j ⟨hi, hj⟩
    interval_cases i <;> interval_cases j <;> decide
  · interval_cases i <;> decide
  · interval_cases i <;> decide
  · rintro i j k ⟨hi, hj⟩ hk
    interval_cases i <;> interval_cases j <;> interval_cases k <;> decide
  · interval_cases i <;> interval_cases j <;> decide

example : (peek (tinyGemv (K := Int) doTrans 2 2 1 0 3 5 2 1 20 2 exTwo) fun _ m => (m 20, m 21, m 22)) =
    .ok (.val 411, .val 41, .val 445) := by decide

end Verif.Blas
