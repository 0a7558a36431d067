import Verif.Lemmas.Blas2RowsSym
import Verif.Lemmas.Blas2Order

/-! Lemmas: products and solves with triangular matrices stored by rows. -/

namespace Verif.Blas

open Finset

variable {K : Type}

/-! ### Sequences of passes on the values of a vector -/

/-- The passes `P (σ 0), …, P (σ (n-1))` lead from `w` to `w'`. -/
def Trace (P : Nat → (Nat → K) → Nat → K) (σ : Nat → Nat) (n : Nat) (w w' : Nat → K) : Prop :=
  ∃ W : Nat → Nat → K, (∀ i, i < n → W 0 i = w i) ∧ (∀ k, k < n → ∀ i, i < n → P (σ k) (W k) i = W (k + 1) i) ∧
    ∀ i, i < n → W n i = w' i

section
variable {m : Mem K} {x incX : Int} {n : Nat} {P : Nat → (Nat → K) → Nat → K} {σ : Nat → Nat} {w w' : Nat → K}

theorem Trace.run (hi : incX ≠ 0) (t : Trace P σ n w w') (f : Nat → M K Unit)
    (hf : ∀ k, k < n → ∀ w, f k (snap m x incX n w) = .ok ((), snap m x incX n (P (σ k) w))) :
    loop n f (snap m x incX n w) = .ok ((), snap m x incX n w') := by
  obtain ⟨W, h0, h1, h2⟩ := t
  rw [← snap_congr hi h0, ← snap_congr hi h2]
  refine snap_loop W f fun k hk => ?_
  rw [hf k hk, snap_congr hi (h1 k hk)]

theorem Trace.run_last (hi : incX ≠ 0) (t : Trace P σ n w w') (f : Nat → M K Unit)
    (hf : ∀ k, k < n → ∀ w, f k (snap m x incX n w) = .ok ((), snap m x incX n (P (σ k) w)))
    (hn : ∀ w i, i < n → P (σ (n - 1)) w i = w i) :
    loop (n - 1) f (snap m x incX n w) = .ok ((), snap m x incX n w') := by
  obtain ⟨W, h0, h1, h2⟩ := t
  rcases Nat.eq_zero_or_pos n with rfl | hpos
  · rw [snap_congr hi (w := w) (v := w') fun i h => absurd h (Nat.not_lt_zero i)]; rfl
  have h3 : ∀ i, i < n → W (n - 1) i = w' i := fun i hin => by
    rw [← h2 i hin, ← hn (W (n - 1)) i hin, h1 (n - 1) (by omega) i hin, show n - 1 + 1 = n by omega]
  rw [← snap_congr hi h0, ← snap_congr hi h3]
  refine snap_loop W f fun k hk => ?_
  rw [hf k (by omega), snap_congr hi (h1 k (by omega))]

theorem Trace.run_first (hi : incX ≠ 0) (t : Trace P σ n w w') (f : Nat → M K Unit)
    (hf : ∀ k, k < n → ∀ w, f k (snap m x incX n w) = .ok ((), snap m x incX n (P (σ k) w)))
    (hn : ∀ w i, i < n → P (σ 0) w i = w i) :
    loop (n - 1) (fun k => f (1 + k)) (snap m x incX n w) = .ok ((), snap m x incX n w') := by
  obtain ⟨W, h0, h1, h2⟩ := t
  rcases Nat.eq_zero_or_pos n with rfl | hpos
  · rw [snap_congr hi (w := w) (v := w') fun i h => absurd h (Nat.not_lt_zero i)]; rfl
  have h3 : ∀ i, i < n → W 1 i = w i := fun i hin => by
    rw [← h0 i hin, ← hn (W 0) i hin, h1 0 hpos i hin]
  rw [← snap_congr hi h3, ← snap_congr hi h2]
  have := snap_loop (m := m) (y := x) (incY := incX) (n := n) (r := n - 1) (fun k => W (1 + k)) (fun k => f (1 + k))
    fun k hk => by
      rw [hf (1 + k) (by omega), snap_congr hi (h1 (1 + k) (by omega))]
      rfl
  simpa [show 1 + (n - 1) = n by omega] using this

end

section
variable {n : Nat} {σ : Nat → Nat} {D : Nat → K} {Z : Nat → Nat → K}

/-- An order of the indices that is its own inverse: ascending or descending. -/
structure Ord (n : Nat) (σ : Nat → Nat) : Prop where
  lt : ∀ k, k < n → σ k < n
  inv : ∀ k, k < n → σ (σ k) = k

theorem ord_id (n : Nat) : Ord n fun k => k := ⟨fun _ h => h, fun _ _ => rfl⟩
theorem ord_rev (n : Nat) : Ord n fun k => n - 1 - k := ⟨fun _ h => by omega, fun _ h => by omega⟩

theorem Ord.eq_iff (h : Ord n σ) {j k : Nat} (hj : j < n) (hk : k < n) : σ j = k ↔ j = σ k :=
  ⟨fun e => by rw [← e, h.inv j hj], fun e => by rw [e, h.inv k hk]⟩

theorem exists_fix_ord [Zero K] (h : Ord n σ) (g : Nat → (Nat → K) → K)
    (hg : ∀ i xs ys, i < n → (∀ j, j < n → σ j < σ i → xs j = ys j) → g i xs = g i ys) :
    ∃ xs : Nat → K, ∀ i, i < n → xs i = g i xs := by
  obtain ⟨ys, hy⟩ := exists_fix (fun i ys => if i < n then g (σ i) (fun j => ys (σ j)) else 0) fun i xs ys hxy => by
    by_cases hin : i < n
    · rw [if_pos hin, if_pos hin]
      refine hg _ _ _ (h.lt i hin) fun j hj hlt => hxy _ ?_
      rwa [h.inv i hin] at hlt
    · rw [if_neg hin, if_neg hin]
  refine ⟨fun j => ys (σ j), fun i hi => ?_⟩
  refine (hy _).trans ?_
  rw [if_pos (h.lt i hi), h.inv i hi]

/-- Pass of the product, not transposed. -/
def pMvN [CommRing K] (n : Nat) (D : Nat → K) (Z : Nat → Nat → K) (i : Nat) (w : Nat → K) (j : Nat) : K :=
  if j = i then D i * w i + ∑ l ∈ range n, Z i l * w l else w j

/-- Pass of the product, transposed. -/
def pMvT [CommRing K] (D : Nat → K) (Z : Nat → Nat → K) (i : Nat) (w : Nat → K) (j : Nat) : K :=
  if j = i then w i * D i else w j + w i * Z i j

/-- Pass of the solve, not transposed. -/
def pSvN [Field K] (n : Nat) (D : Nat → K) (Z : Nat → Nat → K) (i : Nat) (w : Nat → K) (j : Nat) : K :=
  if j = i then (w i - ∑ l ∈ range n, Z i l * w l) / D i else w j

/-- Pass of the solve, transposed. -/
def pSvT [Field K] (D : Nat → K) (Z : Nat → Nat → K) (i : Nat) (w : Nat → K) (j : Nat) : K :=
  if j = i then w i / D i else w j - w i / D i * Z i j

theorem trace_mvN [CommRing K] (h : Ord n σ) (hZ : ∀ i j, i < n → j < n → Z i j ≠ 0 → σ i < σ j) (w : Nat → K) :
    Trace (pMvN n D Z) σ n w fun j => D j * w j + ∑ l ∈ range n, Z j l * w l := by
  refine ⟨fun k j => if σ j < k then D j * w j + ∑ l ∈ range n, Z j l * w l else w j, fun i _ => by simp, fun k hk i hi => ?_,
    fun i hi => if_pos (h.lt i hi)⟩
  have hs := h.lt k hk
  unfold pMvN
  beta_reduce
  by_cases e : i = σ k
  · subst e
    rw [if_pos rfl, h.inv k hk, if_neg (Nat.lt_irrefl k), if_pos (Nat.lt_succ_self k)]
    congr 1
    refine sum_congr rfl fun l hl => ?_
    rw [mem_range] at hl
    by_cases hz : Z (σ k) l = 0
    · simp [hz]
    · have := hZ _ _ hs hl hz
      rw [h.inv k hk] at this
      rw [if_neg (by omega)]
  · have h1 : σ i ≠ k := fun e' => e ((h.eq_iff hi hk).1 e')
    rw [if_neg e]
    by_cases h2 : σ i < k
    · rw [if_pos h2, if_pos (by omega)]
    · rw [if_neg h2, if_neg (by omega)]

theorem trace_mvT [CommRing K] (h : Ord n σ) (hZ : ∀ i j, i < n → j < n → Z i j ≠ 0 → σ j < σ i) (w : Nat → K) :
    Trace (pMvT D Z) σ n w fun j => D j * w j + ∑ l ∈ range n, Z l j * w l := by
  refine ⟨fun k j => if σ j < k then D j * w j + ∑ l ∈ range n, (if σ l < k then Z l j * w l else 0) else w j,
    fun i _ => by simp, fun k hk i hi => ?_, fun i hi => ?_⟩
  · have hs := h.lt k hk
    unfold pMvT
    beta_reduce
    by_cases e : i = σ k
    · subst e
      rw [if_pos rfl, h.inv k hk, if_neg (Nat.lt_irrefl k), if_pos (Nat.lt_succ_self k), mul_comm, sum_eq_zero, add_zero]
      intro l hl
      rw [mem_range] at hl
      by_cases hz : Z l (σ k) = 0
      · simp [hz]
      · have := hZ _ _ hl hs hz
        rw [h.inv k hk] at this
        rw [if_neg (by omega)]
    · have h1 : σ i ≠ k := fun e' => e ((h.eq_iff hi hk).1 e')
      rw [if_neg e, h.inv k hk, if_neg (Nat.lt_irrefl k)]
      by_cases h2 : σ i < k
      · rw [if_pos h2, if_pos (by omega), add_assoc]
        congr 1
        have e1 : ∀ l, l ∈ range n → (if σ l < k + 1 then Z l i * w l else 0) =
            (if σ l < k then Z l i * w l else 0) + if l = σ k then w (σ k) * Z (σ k) i else 0 := by
          intro l hl
          rw [mem_range] at hl
          by_cases e2 : l = σ k
          · subst e2; simp [h.inv k hk, mul_comm]
          · have h3 : σ l ≠ k := fun e' => e2 ((h.eq_iff hl hk).1 e')
            rw [if_neg e2, add_zero]
            by_cases h4 : σ l < k
            · rw [if_pos h4, if_pos (by omega)]
            · rw [if_neg h4, if_neg (by omega)]
        rw [sum_congr rfl e1, sum_add_distrib, sum_ite_eq' (range n) (σ k), if_pos (mem_range.2 hs)]
      · rw [if_neg h2, if_neg (by omega)]
        have : Z (σ k) i = 0 := by
          by_contra hz
          have := hZ _ _ hs hi hz
          rw [h.inv k hk] at this
          exact h2 this
        rw [this, mul_zero, add_zero]
  · beta_reduce
    rw [if_pos (h.lt i hi)]
    congr 1
    refine sum_congr rfl fun l hl => ?_
    rw [mem_range] at hl
    rw [if_pos (h.lt l hl)]

theorem trace_svN [Field K] (h : Ord n σ) (hZ : ∀ i j, i < n → j < n → Z i j ≠ 0 → σ j < σ i) (b : Nat → K) :
    ∃ xs, Trace (pSvN n D Z) σ n b xs ∧ ∀ i, i < n → xs i = (b i - ∑ l ∈ range n, Z i l * xs l) / D i := by
  obtain ⟨xs, hx⟩ := exists_fix_ord h (fun i xs => (b i - ∑ l ∈ range n, Z i l * xs l) / D i) fun i xs ys hi hxy => by
    congr 2
    refine sum_congr rfl fun l hl => ?_
    rw [mem_range] at hl
    by_cases hz : Z i l = 0
    · simp [hz]
    · rw [hxy l hl (hZ i l hi hl hz)]
  refine ⟨xs, ⟨fun k j => if σ j < k then xs j else b j, fun i _ => by simp, fun k hk i hi => ?_,
    fun i hi => if_pos (h.lt i hi)⟩, hx⟩
  have hs := h.lt k hk
  unfold pSvN
  beta_reduce
  by_cases e : i = σ k
  · subst e
    rw [if_pos rfl, h.inv k hk, if_neg (Nat.lt_irrefl k), if_pos (Nat.lt_succ_self k), hx _ hs]
    congr 2
    refine sum_congr rfl fun l hl => ?_
    rw [mem_range] at hl
    by_cases hz : Z (σ k) l = 0
    · simp [hz]
    · have := hZ _ _ hs hl hz
      rw [h.inv k hk] at this
      rw [if_pos this]
  · have h1 : σ i ≠ k := fun e' => e ((h.eq_iff hi hk).1 e')
    rw [if_neg e]
    by_cases h2 : σ i < k
    · rw [if_pos h2, if_pos (by omega)]
    · rw [if_neg h2, if_neg (by omega)]

theorem trace_svT [Field K] (h : Ord n σ) (hZ : ∀ i j, i < n → j < n → Z i j ≠ 0 → σ i < σ j) (b : Nat → K) :
    ∃ xs, Trace (pSvT D Z) σ n b xs ∧ ∀ i, i < n → xs i = (b i - ∑ l ∈ range n, Z l i * xs l) / D i := by
  obtain ⟨xs, hx⟩ := exists_fix_ord h (fun i xs => (b i - ∑ l ∈ range n, Z l i * xs l) / D i) fun i xs ys hi hxy => by
    congr 2
    refine sum_congr rfl fun l hl => ?_
    rw [mem_range] at hl
    by_cases hz : Z l i = 0
    · simp [hz]
    · rw [hxy l hl (hZ l i hl hi hz)]
  refine ⟨xs, ⟨fun k j => if σ j < k then xs j else b j - ∑ l ∈ range n, (if σ l < k then Z l j * xs l else 0),
    fun i _ => by simp, fun k hk i hi => ?_, fun i hi => if_pos (h.lt i hi)⟩, hx⟩
  have hs := h.lt k hk
  have hv : (b (σ k) - ∑ l ∈ range n, (if σ l < k then Z l (σ k) * xs l else 0)) / D (σ k) = xs (σ k) := by
    rw [hx _ hs]
    congr 2
    refine sum_congr rfl fun l hl => ?_
    rw [mem_range] at hl
    by_cases hz : Z l (σ k) = 0
    · simp [hz]
    · have := hZ _ _ hl hs hz
      rw [h.inv k hk] at this
      rw [if_pos this]
  unfold pSvT
  beta_reduce
  by_cases e : i = σ k
  · subst e
    rw [if_pos rfl, h.inv k hk, if_neg (Nat.lt_irrefl k), if_pos (Nat.lt_succ_self k), hv]
  · have h1 : σ i ≠ k := fun e' => e ((h.eq_iff hi hk).1 e')
    rw [if_neg e, h.inv k hk, if_neg (Nat.lt_irrefl k), hv]
    by_cases h2 : σ i < k
    · rw [if_pos h2, if_pos (by omega)]
      have : Z (σ k) i = 0 := by
        by_contra hz
        have := hZ _ _ hs hi hz
        rw [h.inv k hk] at this
        omega
      rw [this, mul_zero, sub_zero]
    · rw [if_neg h2, if_neg (by omega), sub_sub]
      congr 1
      have e1 : ∀ l, l ∈ range n → (if σ l < k + 1 then Z l i * xs l else 0) =
          (if σ l < k then Z l i * xs l else 0) + if l = σ k then xs (σ k) * Z (σ k) i else 0 := by
        intro l hl
        rw [mem_range] at hl
        by_cases e2 : l = σ k
        · subst e2; simp [h.inv k hk, mul_comm]
        · have h3 : σ l ≠ k := fun e' => e2 ((h.eq_iff hl hk).1 e')
          rw [if_neg e2, add_zero]
          by_cases h4 : σ l < k
          · rw [if_pos h4, if_pos (by omega)]
          · rw [if_neg h4, if_neg (by omega)]
      rw [sum_congr rfl e1, sum_add_distrib, sum_ite_eq' (range n) (σ k), if_pos (mem_range.2 hs)]

end

/-! ### The passes in memory -/

/-- Reading the stored parts of the rows; the diagonal is not needed if it consists of ones. -/
def RowsAtD (m : Mem K) (R : Rows) (d : Diag) (n : Nat) (Q : Nat → Nat → K) : Prop :=
  ∀ i k, i < n → k < R.len i → (d = .unit → R.first i + k ≠ i) → m (R.row i + (k : Nat)) = .val (Q i (R.first i + k))

/-- The stored parts of the rows have no cell in common with the vector. -/
def RowsDisjD (R : Rows) (d : Diag) (n : Nat) (x incX : Int) : Prop :=
  ∀ i k j, i < n → k < R.len i → (d = .unit → R.first i + k ≠ i) → j < n → R.row i + (k : Nat) ≠ elem x incX n j

/-- Address of the part of row `i` beside the diagonal. -/
def sA (R : Rows) (u : UpLo) (i : Nat) : Int := if u = .upper then R.row i + 1 else R.row i

/-- Its first column. -/
def sS (R : Rows) (u : UpLo) (i : Nat) : Nat := if u = .upper then i + 1 else R.first i

/-- Address of the diagonal. -/
def sD (R : Rows) (u : UpLo) (i : Nat) : Int := if u = .upper then R.row i else R.row i + ((R.len i - 1 : Nat) : Int)

/-- The part beside the diagonal. -/
def sZ [Zero K] [Star K] (R : Rows) (u : UpLo) (c : Bool) (Q : Nat → Nat → K) (i j : Nat) : K :=
  seg (sS R u i) (R.len i - 1) (fun j => cj c (Q i j)) j

/-- The diagonal. -/
def dg [One K] [Star K] (c : Bool) (d : Diag) (Q : Nat → Nat → K) (i : Nat) : K := if d = .unit then 1 else cj c (Q i i)

section
variable {R : Rows} {u : UpLo} {d : Diag} {c : Bool} {m : Mem K} {x incX : Int} {n : Nat} {Q : Nat → Nat → K}

theorem TriRows.sS_le (hR : TriRows R u n) {i : Nat} (h : i < n) : sS R u i + (R.len i - 1) ≤ n := by
  have h1 := hR.pos i h
  have h2 := hR.le i h
  cases u
  · have := hR.up rfl i h
    simp only [sS, if_true]; omega
  · simp only [sS, reduceCtorEq, if_false]; omega

theorem strict_at (hR : TriRows R u n) (hA : RowsAtD m R d n Q) {i : Nat} (h : i < n) :
    ∀ k, k < R.len i - 1 → m (sA R u i + (k : Nat)) = .val (Q i (sS R u i + k)) := by
  intro k hk
  have h1 := hR.pos i h
  cases u
  · have h3 := hR.up rfl i h
    have := hA i (k + 1) h (by omega) (by omega)
    simp only [sA, sS, if_true]
    rw [h3] at this
    rw [show i + 1 + k = i + (k + 1) by omega, ← this]; congr 1; push_cast; ring
  · have h3 := hR.lo rfl i h
    exact hA i k h (by omega) (by omega)

theorem strict_disj (hR : TriRows R u n) (hA : RowsDisjD R d n x incX) {i : Nat} (h : i < n) :
    ∀ k j, k < R.len i - 1 → j < n → sA R u i + (k : Nat) ≠ elem x incX n j := by
  intro k j hk hj
  have h1 := hR.pos i h
  cases u
  · have h3 := hR.up rfl i h
    have := hA i (k + 1) j h (by omega) (by omega) hj
    simp only [sA, if_true]
    intro e
    exact this (by rw [← e]; push_cast; ring)
  · have h3 := hR.lo rfl i h
    exact hA i k j h (by omega) (by omega) hj

theorem diag_at (hR : TriRows R u n) (hA : RowsAtD m R .nonUnit n Q) {i : Nat} (h : i < n) : m (sD R u i) = .val (Q i i) := by
  have h1 := hR.pos i h
  cases u
  · have h3 := hR.up rfl i h
    have := hA i 0 h h1 (by simp)
    simpa [sD, h3] using this
  · have h3 := hR.lo rfl i h
    have := hA i (R.len i - 1) h (by omega) (by simp)
    rw [show R.first i + (R.len i - 1) = i by omega] at this
    simpa [sD] using this

theorem diag_disj (hR : TriRows R u n) (hA : RowsDisjD R .nonUnit n x incX) {i : Nat} (h : i < n) :
    ∀ j, j < n → sD R u i ≠ elem x incX n j := by
  intro j hj
  have h1 := hR.pos i h
  cases u
  · have := hA i 0 j h h1 (by simp) hj
    simpa [sD] using this
  · have := hA i (R.len i - 1) j h (by omega) (by simp) hj
    simpa [sD] using this

theorem sZ_self [Zero K] [Star K] (hR : TriRows R u n) {i : Nat} (h : i < n) : sZ R u c Q i i = 0 := by
  have h1 := hR.pos i h
  cases u
  · simp [sZ, seg, sS]
  · have h3 := hR.lo rfl i h
    simp only [sZ, seg, sS, reduceCtorEq, if_false]
    rw [if_neg (by omega)]

theorem sZ_last [Zero K] [Star K] (hR : TriRows R u n) {i : Nat} (h : i < n) (hl : i = if u = .upper then n - 1 else 0)
    (j : Nat) : sZ R u c Q i j = 0 := by
  have h1 := hR.pos i h
  have h2 := hR.le i h
  have e : R.len i = 1 := by
    cases u
    · have h3 := hR.up rfl i h
      simp only [if_true] at hl; omega
    · have h3 := hR.lo rfl i h
      simp only [reduceCtorEq, if_false] at hl; omega
  simp only [sZ, seg, e]
  rw [if_neg (by omega)]

theorem sZ_ne [Zero K] [Star K] (hR : TriRows R u n) {i j : Nat} (h : i < n) (hz : sZ R u c Q i j ≠ 0) :
    if u = .upper then i < j else j < i := by
  have h1 := hR.pos i h
  unfold sZ seg at hz
  have h2 : sS R u i ≤ j ∧ j < sS R u i + (R.len i - 1) := by
    by_contra hn
    exact hz (if_neg hn)
  cases u
  · simp only [sS, if_true] at h2 ⊢; omega
  · have h3 := hR.lo rfl i h
    simp only [sS, reduceCtorEq, if_false] at h2 ⊢; omega

theorem triOp_rows [CommRing K] [StarRing K] (hR : TriRows R u n) {trans : Bool} {i j : Nat} (hi : i < n) (hj : j < n) :
    triOp u trans c d (rowM R Q) i j = (if j = i then dg c d Q i else 0) +
      if trans then sZ R u c Q j i else sZ R u c Q i j := by
  have cj0 : cj c (0 : K) = 0 := by cases c <;> simp [cj]
  have hself := @sZ_self K R u c n Q _ _ hR i hi
  by_cases e : i = j
  · subst e
    have h1 := hR.pos i hi
    have h2 : rowM R Q i i = Q i i := by
      unfold rowM seg
      cases u
      · have h3 := hR.up rfl i hi
        rw [if_pos (by omega)]
      · have h3 := hR.lo rfl i hi
        rw [if_pos (by omega)]
    simp only [triOp, triE, if_true, dg, hself, h2, ite_self, add_zero]
  · have e' : j ≠ i := fun h => e h.symm
    simp only [triOp, if_neg e, if_neg e', zero_add, sZ, cj_not_seg]
    have h1 := hR.pos i hi
    have h2 := hR.pos j hj
    cases hu : u
    · have h3 := hR.up hu i hi
      have h4 := hR.up hu j hj
      cases trans
      · rw [show triUp .upper false = true from rfl]
        simp only [triE, rowM, seg, sS, h3, if_true, Bool.false_eq_true, if_false]
        split_ifs <;> first | omega | rfl | exact cj0 | exact cj0.symm
      · rw [show triUp .upper true = false from rfl]
        simp only [triE, rowM, seg, sS, h4, if_true, Bool.false_eq_true, if_false]
        split_ifs <;> first | omega | rfl | exact cj0 | exact cj0.symm
    · have h3 := hR.lo hu i hi
      have h4 := hR.lo hu j hj
      cases trans
      · rw [show triUp .lower false = false from rfl]
        simp only [triE, rowM, seg, sS, reduceCtorEq, Bool.false_eq_true, if_false]
        split_ifs <;> first | omega | rfl | exact cj0 | exact cj0.symm
      · rw [show triUp .lower true = true from rfl]
        simp only [triE, rowM, seg, sS, reduceCtorEq, if_false, if_true]
        split_ifs <;> first | omega | rfl | exact cj0 | exact cj0.symm

theorem triOp_rows_sum [CommRing K] [StarRing K] (hR : TriRows R u n) {trans : Bool} {i : Nat} (hi : i < n) (w : Nat → K) :
    ∑ j ∈ range n, triOp u trans c d (rowM R Q) i j * w j = dg c d Q i * w i +
      ∑ j ∈ range n, (if trans then sZ R u c Q j i else sZ R u c Q i j) * w j := by
  have : ∀ j, j ∈ range n → triOp u trans c d (rowM R Q) i j * w j = (if j = i then dg c d Q i * w i else 0) +
      (if trans then sZ R u c Q j i else sZ R u c Q i j) * w j := by
    intro j hj
    rw [mem_range] at hj
    rw [triOp_rows hR hi hj, add_mul]
    congr 1
    by_cases e : j = i
    · subst e; simp
    · simp [e]
  rw [sum_congr rfl this, sum_add_distrib, sum_ite_eq' (range n) i, if_pos (mem_range.2 hi)]

section
variable [CommRing K] [StarRing K]

theorem strictDot (hR : TriRows R u n) (hA : RowsAtD m R d n Q) (hi : incX ≠ 0) (hdA : RowsDisjD R d n x incX) {i : Nat}
    (h : i < n) (w : Nat → K) :
    dotC c (R.len i - 1) (sA R u i) 1 (start n x incX + (sS R u i : Int) * incX) incX (snap m x incX n w) =
      .ok (∑ j ∈ range n, sZ R u c Q i j * w j, snap m x incX n w) :=
  segDot_run (r := Q i) (hR.sS_le h) (fun k hk => by
    rw [snap_out fun j hj => strict_disj hR hdA h k j hk hj]; exact strict_at hR hA h k hk) fun j hj => snap_in hi hj

theorem pass_incDot (hR : TriRows R u n) (hA : RowsAtD m R d n Q) (hi : incX ≠ 0) (hdA : RowsDisjD R d n x incX) {i : Nat}
    (h : i < n) (w : Nat → K) :
    incDot (dotC c (R.len i - 1) (sA R u i) 1 (start n x incX + (sS R u i : Int) * incX) incX)
      (start n x incX + (i : Int) * incX) (snap m x incX n w) =
      .ok ((), snap m x incX n (pMvN n (fun _ => 1) (sZ R u c Q) i w)) := by
  unfold incDot
  rw [bind_ok (strictDot hR hA hi hdA h w), start_elem, bind_ok (load_ok (snap_in hi h)),
    store_ok (by rw [snap_in hi h]; simp), snap_set hi h]
  refine congrArg (fun z => Out.ok ((), z)) (snap_congr hi fun j _ => ?_)
  unfold pMvN
  by_cases e : j = i
  · subst e; simp
  · simp [e]

theorem pass_setDot (hR : TriRows R u n) (hA : RowsAtD m R .nonUnit n Q) (hi : incX ≠ 0)
    (hdA : RowsDisjD R .nonUnit n x incX) {i : Nat} (h : i < n) (w : Nat → K) :
    setDot (dotC c (R.len i) (R.row i) 1 (start n x incX + (R.first i : Int) * incX) incX)
      (start n x incX + (i : Int) * incX) (snap m x incX n w) =
      .ok ((), snap m x incX n (pMvN n (dg c .nonUnit Q) (sZ R u c Q) i w)) := by
  unfold setDot
  have h1 := segDot_run (c := c) (x := x) (incX := incX) (a := R.row i) (r := Q i) (m := snap m x incX n w) (v := w)
    (hR.le i h) (fun k hk => by
    rw [snap_out fun j hj => hdA i k j h hk (by simp) hj]; exact hA i k h hk (by simp)) fun j hj => snap_in hi hj
  rw [bind_ok h1, start_elem, store_ok (by rw [snap_in hi h]; simp), snap_set hi h]
  refine congrArg (fun z => Out.ok ((), z)) (snap_congr hi fun j _ => ?_)
  unfold pMvN
  by_cases e : j = i
  · subst e
    have := triOp_rows_sum (c := c) (d := .nonUnit) (Q := Q) (trans := false) hR h w
    simp only [Function.update_self, if_true]
    simp only [Bool.false_eq_true, if_false] at this
    rw [← this]
    refine sum_congr rfl fun l hl => ?_
    rw [mem_range] at hl
    congr 1
    rw [triOp_rows hR h hl, cj_not_seg]
    have hp := hR.pos j h
    have cj0 : cj c (0 : K) = 0 := by cases c <;> simp [cj]
    cases u
    · have h3 := hR.up rfl j h
      simp only [sZ, cj_not_seg, seg, sS, h3, if_true, dg, reduceCtorEq, Bool.false_eq_true, if_false]
      split_ifs <;> first | omega | (subst_vars; simp_all)
    · have h3 := hR.lo rfl j h
      simp only [sZ, cj_not_seg, seg, sS, dg, reduceCtorEq, Bool.false_eq_true, if_false]
      split_ifs <;> first | omega | (subst_vars; simp_all)
  · simp [e]

theorem pass_axpyX (hR : TriRows R u n) (hA : RowsAtD m R d n Q) (hi : incX ≠ 0) (hdA : RowsDisjD R d n x incX) {i : Nat}
    (h : i < n) (w : Nat → K) :
    axpyX c (R.len i - 1) (start n x incX + (i : Int) * incX) (sA R u i) (start n x incX + (sS R u i : Int) * incX) incX
      (snap m x incX n w) = .ok ((), snap m x incX n (pMvT (fun _ => 1) (sZ R u c Q) i w)) := by
  unfold axpyX
  rw [start_elem, bind_ok (load_ok (snap_in hi h)), segAxpy_run (r := Q i) hi (hR.sS_le h) (strict_at hR hA h)
    (strict_disj hR hdA h)]
  refine congrArg (fun z => Out.ok ((), z)) (snap_congr hi fun j _ => ?_)
  unfold pMvT
  by_cases e : j = i
  · subst e
    have := @sZ_self K R u c n Q _ _ hR j h
    unfold sZ at this
    simp [this]
  · simp [e, sZ]

theorem pass_mulDiag (hR : TriRows R u n) (hA : RowsAtD m R d n Q) (hi : incX ≠ 0) (hdA : RowsDisjD R d n x incX) {i : Nat}
    (h : i < n) (w : Nat → K) :
    (do
      axpyX c (R.len i - 1) (start n x incX + (i : Int) * incX) (sA R u i) (start n x incX + (sS R u i : Int) * incX) incX
      mulDiag c d (start n x incX + (i : Int) * incX) (sD R u i) : M K Unit)
      (snap m x incX n w) = .ok ((), snap m x incX n (pMvT (dg c d Q) (sZ R u c Q) i w)) := by
  rw [bind_ok (pass_axpyX hR hA hi hdA h w)]
  cases d
  · unfold mulDiag
    simp only [pure_ok]
    refine congrArg (fun z => Out.ok ((), z)) (snap_congr hi fun j _ => ?_)
    simp [pMvT, dg]
  · unfold mulDiag
    simp only
    rw [start_elem, bind_ok (load_ok (snap_in hi h)),
      bind_ok (load_ok ((snap_out (diag_disj hR hdA h)).trans (diag_at hR hA h))),
      store_ok (by rw [snap_in hi h]; simp), snap_set hi h]
    refine congrArg (fun z => Out.ok ((), z)) (snap_congr hi fun j _ => ?_)
    by_cases e : j = i
    · subst e; simp [pMvT, dg, cj]
    · simp [pMvT, e]

end

section
variable [Field K] [StarRing K]

theorem pass_subDot (hR : TriRows R u n) (hA : RowsAtD m R d n Q) (hi : incX ≠ 0) (hdA : RowsDisjD R d n x incX) {i : Nat}
    (h : i < n) (w : Nat → K) :
    subDot c d (dotC c (R.len i - 1) (sA R u i) 1 (start n x incX + (sS R u i : Int) * incX) incX)
      (start n x incX + (i : Int) * incX) (sD R u i) (snap m x incX n w) =
      .ok ((), snap m x incX n (pSvN n (dg c d Q) (sZ R u c Q) i w)) := by
  rw [show start n x incX + (i : Int) * incX = elem x incX n i from start_elem .., subDot_run (w := w i) (v := Q i i) (strictDot hR hA hi hdA h w) (snap_in hi h), snap_set hi h]
  · refine congrArg (fun z => Out.ok ((), z)) (snap_congr hi fun j _ => ?_)
    by_cases e : j = i
    · subst e; cases d <;> simp [pSvN, dg]
    · simp [pSvN, e]
  · rintro rfl
    exact (snap_out (diag_disj hR hdA h)).trans (diag_at hR hA h)
  · rintro rfl
    exact diag_disj hR hdA h i h

theorem pass_axpyNegX (hR : TriRows R u n) (hA : RowsAtD m R d n Q) (hi : incX ≠ 0) (hdA : RowsDisjD R d n x incX) {i : Nat}
    (h : i < n) (w : Nat → K) :
    axpyNegX c (R.len i - 1) (start n x incX + (i : Int) * incX) (sA R u i) (start n x incX + (sS R u i : Int) * incX) incX
      (snap m x incX n w) = .ok ((), snap m x incX n (pSvT (fun _ => 1) (sZ R u c Q) i w)) := by
  unfold axpyNegX
  rw [start_elem, bind_ok (load_ok (snap_in hi h)), segAxpy_run (r := Q i) hi (hR.sS_le h) (strict_at hR hA h)
    (strict_disj hR hdA h)]
  refine congrArg (fun z => Out.ok ((), z)) (snap_congr hi fun j _ => ?_)
  unfold pSvT
  by_cases e : j = i
  · subst e
    have := @sZ_self K R u c n Q _ _ hR j h
    unfold sZ at this
    simp [this]
  · simp [e, sZ]; ring

theorem pass_divDiag (hR : TriRows R u n) (hA : RowsAtD m R .nonUnit n Q) (hi : incX ≠ 0)
    (hdA : RowsDisjD R .nonUnit n x incX) {i : Nat} (h : i < n) (w : Nat → K) :
    (do
      divDiag c .nonUnit (start n x incX + (i : Int) * incX) (sD R u i)
      axpyNegX c (R.len i - 1) (start n x incX + (i : Int) * incX) (sA R u i) (start n x incX + (sS R u i : Int) * incX) incX :
        M K Unit)
      (snap m x incX n w) = .ok ((), snap m x incX n (pSvT (dg c .nonUnit Q) (sZ R u c Q) i w)) := by
  have h1 : divDiag c .nonUnit (start n x incX + (i : Int) * incX) (sD R u i) (snap m x incX n w) =
      .ok ((), snap m x incX n (Function.update w i (w i / cj c (Q i i)))) := by
    unfold divDiag
    simp only
    rw [start_elem, bind_ok (load_ok (snap_in hi h)),
      bind_ok (load_ok ((snap_out (diag_disj hR hdA h)).trans (diag_at hR hA h))),
      store_ok (by rw [snap_in hi h]; simp), snap_set hi h]
    rfl
  rw [bind_ok h1, pass_axpyNegX hR hA hi hdA h]
  refine congrArg (fun z => Out.ok ((), z)) (snap_congr hi fun j _ => ?_)
  by_cases e : j = i
  · subst e; simp [pSvT, dg]
  · simp [pSvT, dg, e]

end

end

end Verif.Blas
