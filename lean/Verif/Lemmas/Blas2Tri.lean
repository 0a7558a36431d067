import Verif.Lemmas.Blas2

/-! Lemmas: triangular products and solves. -/

namespace Verif.Blas

open Finset

variable {K : Type}

/-- The indices from `i` to `n`. -/
def above (i n : Nat) : Set Nat := {j | i ≤ j ∧ j < n}

theorem above_zero (n : Nat) : above 0 n = below n := by ext; simp [above]

theorem above_self (n : Nat) : above n n = ∅ := by
  ext j
  simp only [above, Set.mem_setOf_eq, Set.mem_empty_iff_false, iff_false]
  omega

theorem above_succ {i n : Nat} (h : i < n) : above i n = insert i (above (i + 1) n) := by
  ext j; simp only [above, Set.mem_setOf_eq, Set.mem_insert_iff]; omega

/-- A descending loop that writes the cell `ad i` in pass `i`. -/
theorem loopDown_over {ad : Nat → Int} {v : Nat → K} {n : Nat} (hinj : Set.InjOn ad (below n)) (f : Nat → M K Unit)
    (m : Mem K)
    (h : ∀ i, i < n → f i (over m ad v (above (i + 1) n)) =
      .ok ((), set (over m ad v (above (i + 1) n)) (ad i) (v i))) :
    loopDown n f m = .ok ((), over m ad v (below n)) := by
  have := loopDown_trace f (fun i => over m ad v (above i n)) n fun i hi => by
    rw [h i hi, set_over, ← above_succ hi]
    rw [← above_succ hi]
    exact hinj.mono fun j (hj : j ∈ above i n) => hj.2
  simpa [above_zero, above_self] using this

/-- A cell that already holds its value need not be written. -/
theorem over_skip {ad : Nat → Int} {v : Nat → K} {S T : Set Nat} {m : Mem K} (hinj : Set.InjOn ad T) (hST : S ⊆ T)
    (h : ∀ i, i ∈ T → i ∉ S → m (ad i) = .val (v i)) : over m ad v S = over m ad v T := by
  refine over_unique hinj (fun i hi => ?_) fun a ha => over_of_not_mem fun i hi => ha i (hST hi)
  by_cases hS : i ∈ S
  · exact over_of_mem (hinj.mono hST) hS
  · rw [over_of_not_mem, h i hi hS]
    intro j hj e
    exact hS (hinj (hST hj) hi e ▸ hj)

/-- The entry of the operand of a triangular routine, at `(i, j)` in row-major storage. -/
def triE [Star K] (trans c : Bool) (Q : Nat → Nat → K) (i j : Nat) : K := cj c (if trans then Q j i else Q i j)

/-- Whether the operand is upper triangular. -/
def triUp (u : UpLo) (trans : Bool) : Bool := (u == .upper) != trans

theorem upper_sum [Semiring K] {n i : Nat} (h : i < n) (E : Nat → Nat → K) (xv : Nat → K) (d : K) :
    d * xv i + ∑ k ∈ range (n - i - 1), E i (i + 1 + k) * xv (i + 1 + k) =
      ∑ j ∈ range n, (if i = j then d else if i < j then E i j else 0) * xv j := by
  rw [sum_split_at h]
  have e1 : ∑ k ∈ range i, (if i = k then d else if i < k then E i k else 0) * xv k = 0 := by
    refine sum_eq_zero fun k hk => ?_
    rw [mem_range] at hk
    rw [if_neg (by omega), if_neg (by omega), zero_mul]
  rw [e1, zero_add, if_pos rfl]
  congr 1
  refine sum_congr rfl fun k _ => ?_
  rw [if_neg (by omega), if_pos (by omega)]

theorem lower_sum [Semiring K] {n i : Nat} (h : i < n) (E : Nat → Nat → K) (xv : Nat → K) (d : K) :
    d * xv i + ∑ k ∈ range i, E i k * xv k =
      ∑ j ∈ range n, (if i = j then d else if j < i then E i j else 0) * xv j := by
  rw [sum_split_at h]
  have e1 : ∑ k ∈ range (n - i - 1), (if i = i + 1 + k then d else if i + 1 + k < i then E i (i + 1 + k) else 0) *
      xv (i + 1 + k) = 0 := by
    refine sum_eq_zero fun k hk => ?_
    rw [if_neg (by omega), if_neg (by omega), zero_mul]
  rw [e1, add_zero, if_pos rfl, add_comm]
  congr 1
  refine sum_congr rfl fun k hk => ?_
  rw [mem_range] at hk
  rw [if_neg (by omega), if_pos hk]

/-- The operand of the routine as a matrix. -/
def triOp [Zero K] [One K] [Star K] (u : UpLo) (trans c : Bool) (d : Diag) (Q : Nat → Nat → K) (i j : Nat) : K :=
  if i = j then (if d = .unit then 1 else triE trans c Q i i)
  else if (if triUp u trans then i < j else j < i) then triE trans c Q i j else 0

section
variable [CommRing K] [StarRing K] {u : UpLo} {trans c : Bool} {d : Diag} {n : Nat} {A ld x incX : Int}
  {m : Mem K} {Q : Nat → Nat → K} {xv : Nat → K}

/-- Reading an element of the operand. -/
theorem triE_read (hA : MatAt m A .rowMajor ld (stored u d n) Q) {i j : Nat} (hi : i < n) (hj : j < n)
    (h : if triUp u trans then i ≤ j else j ≤ i) (hd : d = .unit → i ≠ j) :
    m (A + if trans then (j : Int) * ld + i else i * ld + j) = .val (if trans then Q j i else Q i j) := by
  cases trans
  · have : stored u d n i j := by
      refine ⟨⟨hi, hj, ?_⟩, hd⟩
      cases u <;> simpa [triUp] using h
    exact hA i j this
  · have : stored u d n j i := by
      refine ⟨⟨hj, hi, ?_⟩, fun hu e => hd hu e.symm⟩
      cases u <;> simpa [triUp] using h
    exact hA j i this

/-- In every memory that differs only in `x`, the matrix is still there. -/
theorem MatAt.over_vec {P : Nat → Nat → Prop} {S : Set Nat} {v : Nat → K} (hA : MatAt m A .rowMajor ld P Q)
    (hd : MatVecDisj A .rowMajor ld P x incX n) (hS : ∀ i, i ∈ S → i < n) :
    MatAt (over m (elem x incX n) v S) A .rowMajor ld P Q :=
  hA.agree (agreeOff_over fun j hj => ⟨j, hS j hj, rfl⟩) hd

theorem trmvRow_run (hA : MatAt m A .rowMajor ld (stored u d n) Q) (hx : VecAt m x incX n xv) (hi : incX ≠ 0)
    (hdA : MatVecDisj A .rowMajor ld (stored u d n) x incX n) :
    trmvRow u trans c d n A ld x incX m = .ok ((), over m (elem x incX n)
      (fun i => ∑ j ∈ range n, triOp u trans c d Q i j * xv j) (below n)) := by
  have hinj := (elem_inj (x := x) (n := n) hi).injOn (s := below n)
  generalize hv : (fun i => ∑ j ∈ range n, triOp u trans c d Q i j * xv j) = v
  have hvi : ∀ i, v i = ∑ j ∈ range n, triOp u trans c d Q i j * xv j := fun i => by rw [← hv]
  -- elements not yet overwritten
  have old : ∀ (S : Set Nat) (j : Nat), j < n → j ∉ S → (∀ i, i ∈ S → i < n) →
      over m (elem x incX n) v S (elem x incX n j) = .val (xv j) := by
    intro S j hj hS hSn
    rw [over_of_not_mem, hx j hj]
    intro k hk e
    exact hS (elem_inj hi e ▸ hk)
  have hcx : ∀ (i k : Nat), start n x incX + (i : Int) * incX + incX + (k : Int) * incX = elem x incX n (i + 1 + k) := by
    intro i k; rw [← start_elem]; push_cast; ring
  have hcx0 : ∀ (i k : Nat), start n x incX + (i : Int) * incX + (k : Int) * incX = elem x incX n (i + k) := by
    intro i k; rw [← start_elem]; push_cast; ring
  -- one pass, upper triangular operand
  have stepU : ∀ (i : Nat) (inc off : Int), i < n → (triUp u trans = true) →
      (∀ k : Nat, off + (k : Int) * inc = A + if trans then ((i + k : Nat) : Int) * ld + i else i * ld + ((i + k : Nat) : Int)) →
      d = .nonUnit →
      setDot (dotC c (n - i) off inc (start n x incX + i * incX) incX) (start n x incX + i * incX)
        (over m (elem x incX n) v (below i)) =
        .ok ((), set (over m (elem x incX n) v (below i)) (elem x incX n i) (v i)) := by
    intro i inc off hin hup hoff hd
    unfold setDot
    have hbi : ∀ k, k ∈ below i → k < n := fun k hk => Nat.lt_trans hk hin
    rw [bind_ok (dotC_run (xv := fun k => if trans then Q (i + k) i else Q i (i + k)) (yv := fun k => xv (i + k))
      (fun k hk => ?_) fun k hk => ?_), start_elem, store_ok (by rw [old _ i hin (by simp) hbi]; simp)]
    · congr 3
      rw [hvi]
      have e := upper_sum hin (triE trans c Q) xv (triE trans c Q i i)
      have : ∑ j ∈ range n, triOp u trans c d Q i j * xv j =
          ∑ j ∈ range n, (if i = j then triE trans c Q i i else if i < j then triE trans c Q i j else 0) * xv j := by
        refine sum_congr rfl fun j _ => ?_
        simp [triOp, hd, hup]
      rw [this, ← e, show n - i = n - i - 1 + 1 by omega, sum_range_succ', add_comm]
      simp only [triE, Nat.add_zero]
      congr 1
      refine sum_congr (by simp) fun k _ => ?_
      rw [show i + (k + 1) = i + 1 + k by omega]
    · rw [hoff]
      exact triE_read (hA.over_vec hdA hbi) hin (by omega) (by rw [hup]; simp) (by simp [hd])
    · rw [hcx0]; exact old _ _ (by omega) (by simp) hbi
  have stepU1 : ∀ (i : Nat) (inc off : Int), i < n → (triUp u trans = true) →
      (∀ k : Nat, off + (k : Int) * inc =
        A + if trans then ((i + 1 + k : Nat) : Int) * ld + i else i * ld + ((i + 1 + k : Nat) : Int)) →
      d = .unit →
      incDot (dotC c (n - i - 1) off inc (start n x incX + i * incX + incX) incX) (start n x incX + i * incX)
        (over m (elem x incX n) v (below i)) =
        .ok ((), set (over m (elem x incX n) v (below i)) (elem x incX n i) (v i)) := by
    intro i inc off hin hup hoff hd
    unfold incDot
    have hbi : ∀ k, k ∈ below i → k < n := fun k hk => Nat.lt_trans hk hin
    have hold := old _ i hin (show i ∉ below i by simp) hbi
    rw [bind_ok (dotC_run (xv := fun k => if trans then Q (i + 1 + k) i else Q i (i + 1 + k))
      (yv := fun k => xv (i + 1 + k)) (fun k hk => ?_) fun k hk => ?_), start_elem, bind_ok (load_ok hold),
      store_ok (by rw [hold]; simp)]
    · congr 3
      rw [hvi]
      have e := upper_sum hin (triE trans c Q) xv 1
      have : ∑ j ∈ range n, triOp u trans c d Q i j * xv j =
          ∑ j ∈ range n, (if i = j then 1 else if i < j then triE trans c Q i j else 0) * xv j := by
        refine sum_congr rfl fun j _ => ?_
        simp [triOp, hd, hup]
      rw [this, ← e, one_mul]
      rfl
    · rw [hoff]
      exact triE_read (hA.over_vec hdA hbi) hin (by omega) (by rw [hup]; simp; omega) (fun _ => by omega)
    · rw [hcx]; exact old _ _ (by omega) (by simp; omega) hbi
  -- one pass, lower triangular operand
  have stepL : ∀ (i : Nat) (inc off : Int), i < n → (triUp u trans = false) →
      (∀ k : Nat, off + (k : Int) * inc = A + if trans then (k : Int) * ld + i else i * ld + (k : Int)) →
      d = .nonUnit →
      setDot (dotC c (i + 1) off inc (start n x incX) incX) (start n x incX + i * incX)
        (over m (elem x incX n) v (above (i + 1) n)) =
        .ok ((), set (over m (elem x incX n) v (above (i + 1) n)) (elem x incX n i) (v i)) := by
    intro i inc off hin hup hoff hd
    unfold setDot
    have hbi : ∀ k, k ∈ above (i + 1) n → k < n := fun k hk => hk.2
    rw [bind_ok (dotC_run (xv := fun k => if trans then Q k i else Q i k) (yv := fun k => xv k)
      (fun k hk => ?_) fun k hk => ?_), start_elem, store_ok (by rw [old _ i hin (by simp [above]) hbi]; simp)]
    · congr 3
      rw [hvi]
      have e := lower_sum hin (triE trans c Q) xv (triE trans c Q i i)
      have : ∑ j ∈ range n, triOp u trans c d Q i j * xv j =
          ∑ j ∈ range n, (if i = j then triE trans c Q i i else if j < i then triE trans c Q i j else 0) * xv j := by
        refine sum_congr rfl fun j _ => ?_
        simp [triOp, hd, hup]
      rw [this, ← e, sum_range_succ, add_comm]
      rfl
    · rw [hoff]
      exact triE_read (hA.over_vec hdA hbi) hin (by omega) (by rw [hup]; simp; omega) (by simp [hd])
    · rw [start_elem]; exact old _ _ (by omega) (by simp [above]; omega) hbi
  have stepL1 : ∀ (i : Nat) (inc off : Int), i < n → (triUp u trans = false) →
      (∀ k : Nat, off + (k : Int) * inc = A + if trans then (k : Int) * ld + i else i * ld + (k : Int)) →
      d = .unit →
      incDot (dotC c i off inc (start n x incX) incX) (start n x incX + i * incX)
        (over m (elem x incX n) v (above (i + 1) n)) =
        .ok ((), set (over m (elem x incX n) v (above (i + 1) n)) (elem x incX n i) (v i)) := by
    intro i inc off hin hup hoff hd
    unfold incDot
    have hbi : ∀ k, k ∈ above (i + 1) n → k < n := fun k hk => hk.2
    have hold := old _ i hin (show i ∉ above (i + 1) n by simp [above]) hbi
    rw [bind_ok (dotC_run (xv := fun k => if trans then Q k i else Q i k) (yv := fun k => xv k)
      (fun k hk => ?_) fun k hk => ?_), start_elem, bind_ok (load_ok hold), store_ok (by rw [hold]; simp)]
    · congr 3
      rw [hvi]
      have e := lower_sum hin (triE trans c Q) xv 1
      have : ∑ j ∈ range n, triOp u trans c d Q i j * xv j =
          ∑ j ∈ range n, (if i = j then 1 else if j < i then triE trans c Q i j else 0) * xv j := by
        refine sum_congr rfl fun j _ => ?_
        simp [triOp, hd, hup]
      rw [this, ← e, one_mul]
      rfl
    · rw [hoff]
      exact triE_read (hA.over_vec hdA hbi) hin (by omega) (by rw [hup]; simp; omega) (fun _ => by omega)
    · rw [start_elem]; exact old _ _ (by omega) (by simp [above]; omega) hbi
  -- with a unit diagonal the last element of an upper operand, or the first of a lower one, stays
  have last : triUp u trans = true → d = .unit → ∀ i, i < n → ¬ i < n - 1 → v i = xv i := by
    intro hup hd i hin hl
    rw [hvi, sum_split_at hin]
    have e1 : ∑ k ∈ range i, triOp u trans c d Q i k * xv k = 0 := by
      refine sum_eq_zero fun k hk => ?_
      rw [mem_range] at hk
      simp [triOp, hup, show ¬ i = k by omega, show ¬ i < k by omega]
    rw [e1, show n - i - 1 = 0 by omega]
    simp [triOp, hd]
  have first : triUp u trans = false → d = .unit → v 0 = xv 0 ∨ n = 0 := by
    intro hup hd
    rcases Nat.eq_zero_or_pos n with h | h
    · exact Or.inr h
    left
    rw [hvi, sum_split_at h]
    have e1 : ∑ k ∈ range (n - 0 - 1), triOp u trans c d Q 0 (0 + 1 + k) * xv (0 + 1 + k) = 0 := by
      refine sum_eq_zero fun k hk => ?_
      simp [triOp, hup, show ¬ 0 = 1 + k by omega]
    rw [e1]
    simp [triOp, hd]
  have upAll : ∀ f : Nat → M K Unit, (∀ i, i < n - 1 → f i (over m (elem x incX n) v (below i)) =
        .ok ((), set (over m (elem x incX n) v (below i)) (elem x incX n i) (v i))) →
      triUp u trans = true → d = .unit → loop (n - 1) f m = .ok ((), over m (elem x incX n) v (below n)) := by
    intro f hf hup hd
    rw [loop_over (hinj.mono (below_mono (Nat.sub_le _ _))) f m hf]
    rw [over_skip hinj (below_mono (Nat.sub_le _ _))]
    intro i hin hni
    rw [hx i hin, last hup hd i hin hni]
  have downAll : ∀ f : Nat → M K Unit, (∀ i, i < n → f i (over m (elem x incX n) v (above (i + 1) n)) =
        .ok ((), set (over m (elem x incX n) v (above (i + 1) n)) (elem x incX n i) (v i))) →
      triUp u trans = false → d = .unit →
      loopDown (n - 1) (fun k => f (k + 1)) m = .ok ((), over m (elem x incX n) v (below n)) := by
    intro f hf hup hd
    have tr := loopDown_trace (fun k => f (k + 1)) (fun i => over m (elem x incX n) v (above (i + 1) n)) (n - 1)
      fun i hi' => by
        rw [hf (i + 1) (by omega), set_over, ← above_succ (show i + 1 < n by omega)]
        rw [← above_succ (show i + 1 < n by omega)]
        exact hinj.mono fun j hj => hj.2
    rcases Nat.eq_zero_or_pos n with h | h
    · subst h
      rw [below_zero, over_empty]; rfl
    · rw [show n - 1 + 1 = n by omega, above_self, over_empty] at tr
      rw [tr, over_skip hinj (fun j hj => hj.2)]
      intro i hin hni
      have : i = 0 := by
        by_contra h0
        exact hni ⟨by omega, hin⟩
      subst this
      rw [hx 0 hin]
      rcases first hup hd with h1 | h1
      · rw [h1]
      · omega
  cases trans <;> cases u <;> cases d
  · exact upAll _ (fun i hi' => stepU1 i _ _ (by omega) rfl (fun k => by simp; ring) rfl) rfl rfl
  · exact loop_over hinj _ _ fun i hi' => stepU i _ _ hi' rfl (fun k => by simp; ring) rfl
  · exact downAll (fun i => incDot (dotC c i (A + (i : Int) * ld) 1 (start n x incX) incX) (start n x incX + (i : Int) * incX))
      (fun i hi' => stepL1 i _ _ hi' rfl (fun k => by simp; ring) rfl) rfl rfl
  · exact loopDown_over hinj (fun i => setDot (dotC c (i + 1) (A + (i : Int) * ld) 1 (start n x incX) incX)
      (start n x incX + (i : Int) * incX)) _ fun i hi' => stepL i _ _ hi' rfl (fun k => by simp; ring) rfl
  · exact downAll (fun i => incDot (dotC c i (A + (i : Int)) ld (start n x incX) incX) (start n x incX + (i : Int) * incX))
       (fun i hi' => stepL1 i _ _ hi' rfl (fun k => by simp; ring) rfl) rfl rfl
  · exact loopDown_over hinj (fun i => setDot (dotC c (i + 1) (A + (i : Int)) ld (start n x incX) incX)
      (start n x incX + (i : Int) * incX)) _ fun i hi' => stepL i _ _ hi' rfl (fun k => by simp; ring) rfl
  · exact upAll _ (fun i hi' => stepU1 i _ _ (by omega) rfl (fun k => by simp; ring) rfl) rfl rfl
  · exact loop_over hinj _ _ fun i hi' => stepU i _ _ hi' rfl (fun k => by simp; ring) rfl

end

end Verif.Blas
