import Verif.Lemmas.Blas2Rank
import Verif.Lemmas.Blas2Solve
import Verif.Model.Blas2Band
import Verif.Spec.BlasBand

/-! Lemmas: loops over the stored parts of rows, for banded and packed matrices. The memory during a loop is a snapshot: the
original memory with given values in the vector that is updated. -/

namespace Verif.Blas

open Finset

variable {K : Type}

/-- `v` on the columns `s, …, s+len-1`, zero elsewhere. -/
def seg [Zero K] (s len : Nat) (v : Nat → K) (j : Nat) : K := if s ≤ j ∧ j < s + len then v j else 0

theorem seg_sum {α : Type} [AddCommMonoid α] {s len n : Nat} (h : s + len ≤ n) (F : Nat → α) :
    ∑ k ∈ range len, F (s + k) = ∑ j ∈ range n, if s ≤ j ∧ j < s + len then F j else 0 := by
  rw [sum_split (n := n) (i := s) (by omega), sum_split (n := n - s) (i := len) (by omega)]
  have e1 : ∑ k ∈ range s, (if s ≤ k ∧ k < s + len then F k else 0) = 0 :=
    sum_eq_zero fun k hk => by rw [mem_range] at hk; rw [if_neg (by omega)]
  have e2 : ∑ k ∈ range (n - s - len), (if s ≤ s + (len + k) ∧ s + (len + k) < s + len then F (s + (len + k)) else 0) = 0 :=
    sum_eq_zero fun k _ => by rw [if_neg (by omega)]
  rw [e1, e2, zero_add, add_zero]
  exact sum_congr rfl fun k hk => by rw [mem_range] at hk; rw [if_pos (by omega)]

theorem seg_sum_mul [NonUnitalNonAssocSemiring K] {s len n : Nat} (h : s + len ≤ n) (r v : Nat → K) :
    ∑ k ∈ range len, r (s + k) * v (s + k) = ∑ j ∈ range n, seg s len r j * v j := by
  rw [seg_sum h fun j => r j * v j]
  refine sum_congr rfl fun j _ => ?_
  unfold seg
  split <;> simp

/-- The memory with `w` in the vector at `y`. -/
noncomputable def snap (m : Mem K) (y incY : Int) (n : Nat) (w : Nat → K) : Mem K := over m (elem y incY n) w (below n)

theorem snap_eq {m : Mem K} {y incY : Int} {n : Nat} {w : Nat → K} (hi : incY ≠ 0) (h : VecAt m y incY n w) :
    m = snap m y incY n w :=
  over_unique (elem_inj hi).injOn h fun _ _ => rfl

theorem snap_congr {m : Mem K} {y incY : Int} {n : Nat} {w v : Nat → K} (hi : incY ≠ 0) (h : ∀ i, i < n → w i = v i) :
    snap m y incY n w = snap m y incY n v := over_congr (elem_inj hi).injOn h

theorem snap_in {m : Mem K} {y incY : Int} {n : Nat} {w : Nat → K} (hi : incY ≠ 0) {i : Nat} (h : i < n) :
    snap m y incY n w (elem y incY n i) = .val (w i) := over_of_mem (elem_inj hi).injOn h

theorem snap_out {m : Mem K} {y incY : Int} {n : Nat} {w : Nat → K} {a : Int} (h : ∀ j, j < n → a ≠ elem y incY n j) :
    snap m y incY n w a = m a := over_of_not_mem (S := below n) fun j hj e => h j hj e.symm

theorem snap_set {m : Mem K} {y incY : Int} {n : Nat} {w : Nat → K} (hi : incY ≠ 0) {i : Nat} (h : i < n) (z : K) :
    set (snap m y incY n w) (elem y incY n i) z = snap m y incY n (Function.update w i z) :=
  set_patch (T := below n) (elem_inj hi).injOn h z

theorem elem_shift (x incX : Int) (n s k : Nat) :
    start n x incX + (s : Int) * incX + (k : Int) * incX = elem x incX n (s + k) := by
  rw [← start_elem]; push_cast; ring

/-- Inner product of a piece of a row. -/
theorem segDot_run [NonUnitalNonAssocSemiring K] [Star K] {c : Bool} {n s len : Nat} {a x incX : Int} {m : Mem K}
    {r v : Nat → K} (hs : s + len ≤ n) (ha : ∀ k, k < len → m (a + (k : Nat)) = .val (r (s + k)))
    (hx : ∀ j, j < n → m (elem x incX n j) = .val (v j)) :
    dotC c len a 1 (start n x incX + (s : Int) * incX) incX m =
      .ok (∑ j ∈ range n, seg s len (fun j => cj c (r j)) j * v j, m) := by
  rw [dotC_run (xv := fun k => r (s + k)) (yv := fun k => v (s + k))]
  · rw [seg_sum_mul hs (fun j => cj c (r j))]
  · intro k hk; rw [mul_one]; exact ha k hk
  · intro k hk; rw [elem_shift]; exact hx _ (by omega)

/-- The same for a row of `op(A)` with `x` or its conjugate. -/
theorem segRowDot_run [CommRing K] [StarRing K] {cA cX : Bool} {n s len : Nat} {a x incX : Int} {m : Mem K}
    {r v : Nat → K} (hs : s + len ≤ n) (ha : ∀ k, k < len → m (a + (k : Nat)) = .val (r (s + k)))
    (hx : ∀ j, j < n → m (elem x incX n j) = .val (v j)) :
    rowDot cA cX len a 1 (start n x incX + (s : Int) * incX) incX m =
      .ok (∑ j ∈ range n, seg s len (fun j => cj cA (r j)) j * cj cX (v j), m) := by
  rw [rowDot_run (av := fun k => r (s + k)) (xv := fun k => v (s + k))]
  · rw [seg_sum_mul hs (fun j => cj cA (r j)) fun j => cj cX (v j)]
  · intro k hk; rw [mul_one]; exact ha k hk
  · intro k hk; rw [elem_shift]; exact hx _ (by omega)

/-- Adding a multiple of a piece of a row to the vector. -/
theorem segAxpy_run [CommRing K] [Star K] {c : Bool} {n s len : Nat} {al : K} {a y incY : Int} {m : Mem K}
    {r w : Nat → K} (hi : incY ≠ 0) (hs : s + len ≤ n) (ha : ∀ k, k < len → m (a + (k : Nat)) = .val (r (s + k)))
    (hd : ∀ k j, k < len → j < n → a + (k : Nat) ≠ elem y incY n j) :
    axpyC c len al a 1 (start n y incY + (s : Int) * incY) incY (snap m y incY n w) =
      .ok ((), snap m y incY n fun j => w j + al * seg s len (fun j => cj c (r j)) j) := by
  have hinj := (elem_inj (x := y) (n := n) hi).injOn (s := below n)
  rw [axpyC_run (xv := fun k => r (s + k)) (yv := fun k => w (s + k)) _ _ hi]
  · refine congrArg (fun z => Out.ok ((), z)) (over_patch hinj (fun k => s + k) (fun k _ => elem_shift _ _ _ _ _)
      (fun k hk => ?_) ?_ ?_ ?_)
    · have : k < len := hk
      show s + k < n
      omega
    · intro k _ l _ e
      simp only [elem_shift] at e
      have := elem_inj hi e
      omega
    · intro k hk
      have : k < len := hk
      simp only [seg]
      rw [if_pos (by omega)]
    · intro j hj hne
      simp only [seg]
      rw [if_neg, mul_zero, add_zero]
      intro h
      exact hne (j - s) (show j - s < len by omega) (by omega)
  · intro k l hk hl e
    rw [elem_shift, mul_one] at e
    exact hd k (s + l) hk (by omega) e
  · intro k hk
    rw [mul_one, snap_out fun j hj => hd k j hk hj]
    exact ha k hk
  · intro k hk
    rw [elem_shift]
    exact snap_in hi (by omega)

/-- A loop over snapshots. -/
theorem snap_loop {m : Mem K} {y incY : Int} {n r : Nat} (W : Nat → Nat → K) (f : Nat → M K Unit)
    (h : ∀ k, k < r → f k (snap m y incY n (W k)) = .ok ((), snap m y incY n (W (k + 1)))) :
    loop r f (snap m y incY n (W 0)) = .ok ((), snap m y incY n (W r)) :=
  loop_trace f (fun k => snap m y incY n (W k)) r h

theorem scalInit_snap [CommRing K] [DecidableEq K] {n : Nat} {beta : K} {y incY : Int} {m : Mem K} {yv : Nat → K}
    (hy : InitAt beta m y incY n yv) (hi : incY ≠ 0) :
    scalInitGeneric n beta (start n y incY) incY m = .ok ((), snap m y incY n fun i => beta * yv i) := by
  rw [show scalInitGeneric n beta (start n y incY) incY m = _ from scalInit_run hy hi]
  unfold snap
  simp only [mul_comm]

/-- Passes that add `alpha Σ D p j x j` to element `p` and `alpha x p X p i` to every element `i`. -/
theorem dx_passes [CommRing K] {m : Mem K} {y incY : Int} {n : Nat} (hi : incY ≠ 0) {alpha : K} {D X : Nat → Nat → K}
    {xv : Nat → K} (f : Nat → M K Unit)
    (hf : ∀ p, p < n → ∀ w, f p (snap m y incY n w) = .ok ((), snap m y incY n fun i =>
      (w i + if i = p then alpha * ∑ j ∈ range n, D p j * xv j else 0) + alpha * xv p * X p i)) (w : Nat → K) :
    loop n f (snap m y incY n w) = .ok ((), snap m y incY n fun i => w i + alpha * ∑ j ∈ range n, (D i j + X j i) * xv j) := by
  have := snap_loop (m := m) (y := y) (incY := incY) (n := n) (r := n) (fun k i => w i +
    ((if i < k then alpha * ∑ j ∈ range n, D i j * xv j else 0) + alpha * ∑ p ∈ range k, X p i * xv p)) f fun k hk => by
      rw [hf k hk]
      refine congrArg (fun z => Out.ok ((), z)) (snap_congr hi fun i _ => ?_)
      rw [sum_range_succ]
      rcases Nat.lt_trichotomy i k with h | h | h
      · rw [if_pos h, if_neg (by omega), if_pos (by omega)]; ring
      · subst h; simp; ring
      · rw [if_neg (by omega), if_neg (by omega), if_neg (by omega)]; ring
  simp only [Nat.not_lt_zero, if_false, range_zero, sum_empty, mul_zero, add_zero] at this
  rw [this]
  refine congrArg (fun z => Out.ok ((), z)) (snap_congr hi fun i hin => ?_)
  rw [if_pos hin, ← mul_add, ← sum_add_distrib]
  simp only [add_mul]

/-! ### Banded products -/

/-- Reading the stored parts of the rows. -/
def RowsAt (m : Mem K) (R : Rows) (n : Nat) (Q : Nat → Nat → K) : Prop :=
  ∀ i k, i < n → k < R.len i → m (R.row i + (k : Nat)) = .val (Q i (R.first i + k))

/-- The stored parts of the rows have no cell in common with a vector. -/
def RowsDisj (R : Rows) (n : Nat) (y incY : Int) (l : Nat) : Prop :=
  ∀ i k j, i < n → k < R.len i → j < l → R.row i + (k : Nat) ≠ elem y incY l j

theorem gbmvRow_run [CommRing K] [StarRing K] [DecidableEq K] {R : Rows} {t : Trans} {conjX : Bool} {r c : Nat}
    {alpha beta : K} {x incX y incY : Int} {m : Mem K} {Q : Nat → Nat → K} {xv yv : Nat → K} (hl : ∀ i, i < r → 0 < R.len i → R.first i + R.len i ≤ c)
    (hA : RowsAt m R r Q) (hx : VecAt m x incX (if t.trans then r else c) xv)
    (hy : InitAt beta m y incY (if t.trans then c else r) yv) (hi : incY ≠ 0)
    (hdA : RowsDisj R r y incY (if t.trans then c else r))
    (hdx : VecDisj x incX (if t.trans then r else c) y incY (if t.trans then c else r)) :
    gbmvRow R t conjX r c alpha x incX beta y incY m =
      .ok ((), snap m y incY (if t.trans then c else r) fun i => beta * yv i +
        alpha * ∑ j ∈ range (if t.trans then r else c),
          opM t (fun i j => seg (R.first i) (R.len i) (Q i) j) i j * cj conjX (xv j)) := by
  have hcj : ∀ (b : Bool) (s l : Nat) (v : Nat → K) (j : Nat), seg s l (fun j => cj b (v j)) j = cj b (seg s l v j) := by
    intro b s l v j
    unfold seg
    split
    · rfl
    · cases b <;> simp [cj]
  unfold gbmvRow
  cases ht : t.trans
  · simp only [ht, Bool.false_eq_true, if_false, if_true] at hx hy hdA hdx ⊢
    unfold snap
    have := mv_run (alpha := alpha) (D := fun i => rowDot t.conj conjX (R.len i) (R.row i) 1
      (start c x incX + R.first i * incX) incX)
      (d := fun i => ∑ j ∈ range c, cj t.conj (seg (R.first i) (R.len i) (Q i) j) * cj conjX (xv j)) hy hi fun i hin m' hm => by
        by_cases h0 : R.len i = 0
        · have e : ∀ j, seg (R.first i) 0 (Q i) j = 0 := fun j => by unfold seg; rw [if_neg (by omega)]
          have h1 := rowDot_run (cA := t.conj) (cX := conjX) (n := 0) (a := R.row i) (incA := 1)
            (x := start c x incX + R.first i * incX) (incX := incX) (m := m') (av := fun _ => 0) (xv := fun _ => 0)
            (fun k hk => absurd hk (Nat.not_lt_zero k)) (fun k hk => absurd hk (Nat.not_lt_zero k))
          rw [h0, h1]
          have e2 : ∀ b : Bool, cj b (0 : K) = 0 := fun b => by cases b <;> simp [cj]
          simp [e, e2]
        rw [segRowDot_run (r := Q i) (hl i hin (by omega)) (v := xv)]
        · simp only [hcj]
        · intro k hk
          rw [hm _ fun ⟨l, hl, e⟩ => hdA i k l hin hk hl e.symm]
          exact hA i k hin hk
        · exact hx.agree hm hdx
    rw [this]
    simp only [opM, ht, Bool.false_eq_true, if_false]
  · simp only [ht, Bool.true_eq_false, if_false, if_true] at hx hy hdA hdx ⊢
    rw [bind_ok (scalInit_snap hy hi)]
    have := snap_loop (m := m) (y := y) (incY := incY) (n := c) (r := r) (fun k i => beta * yv i +
      alpha * ∑ p ∈ range k, cj t.conj (seg (R.first p) (R.len p) (Q p) i) * cj conjX (xv p)) (fun i => do
        let v ← load (start r x incX + i * incX)
        axpyC t.conj (R.len i) ((if conjX then star v else v) * alpha) (R.row i) 1 (start c y incY + R.first i * incY) incY)
      fun k hk => by
        have h1 : snap m y incY c (fun i => beta * yv i +
            alpha * ∑ p ∈ range k, cj t.conj (seg (R.first p) (R.len p) (Q p) i) * cj conjX (xv p))
            (start r x incX + k * incX) = .val (xv k) := by
          rw [start_elem, snap_out fun j hj => hdx k j hk hj]
          exact hx k hk
        rw [bind_ok (load_ok h1)]
        by_cases h0 : R.len k = 0
        · have e : ∀ j, seg (R.first k) 0 (Q k) j = 0 := fun j => by unfold seg; rw [if_neg (by omega)]
          have e2 : ∀ b : Bool, cj b (0 : K) = 0 := fun b => by cases b <;> simp [cj]
          rw [h0]
          have h2 : ∀ (b : Bool) (al : K) (a y0 : Int) (m' : Mem K), axpyC b 0 al a 1 y0 incY m' = .ok ((), m') := by
            intro b al a y0 m'; cases b <;> rfl
          rw [h2]
          simp only [sum_range_succ, h0, e, e2, zero_mul, add_zero]
        rw [segAxpy_run (r := Q k) hi (hl k hk (by omega)) (fun l hl' => hA k l hk hl') fun l j hl' hj => hdA k l j hk hl' hj]
        refine congrArg (fun z => Out.ok ((), z)) (snap_congr hi fun i _ => ?_)
        rw [sum_range_succ, hcj]
        show _ + cj conjX (xv k) * alpha * _ = _
        ring
    simp only [range_zero, sum_empty, mul_zero, add_zero] at this
    rw [this]
    simp only [opM, ht, if_true]

end Verif.Blas
