import Verif.Lemmas.Blas2Tri
import Mathlib.Tactic.FieldSimp
import Mathlib.Tactic.LinearCombination

/-! Lemmas: triangular solves. -/

namespace Verif.Blas

open Finset

variable {K : Type}

/-- Recursion on all smaller indices. -/
theorem exists_fix [Zero K] (g : Nat → (Nat → K) → K)
    (hg : ∀ i xs ys, (∀ j, j < i → xs j = ys j) → g i xs = g i ys) : ∃ xs : Nat → K, ∀ i, xs i = g i xs := by
  let F : (i : Nat) → ((j : Nat) → j < i → K) → K := fun i ih => g i fun j => if h : j < i then ih j h else 0
  refine ⟨fun i => WellFounded.fix Nat.lt_wfRel.wf F i, fun i => ?_⟩
  refine (WellFounded.fix_eq _ F i).trans ?_
  refine hg i _ _ fun j hj => ?_
  rw [dif_pos hj]

/-- Recursion on all larger indices below `n`. -/
theorem exists_fix_down [Zero K] (n : Nat) (g : Nat → (Nat → K) → K)
    (hg : ∀ i xs ys, (∀ j, i < j → j < n → xs j = ys j) → g i xs = g i ys) :
    ∃ xs : Nat → K, ∀ i, i < n → xs i = g i xs := by
  obtain ⟨ys, h⟩ := exists_fix (fun i ys => g (n - 1 - i) fun j => ys (n - 1 - j)) fun i xs ys hxy =>
    hg _ _ _ fun j h1 h2 => hxy _ (by omega)
  refine ⟨fun j => ys (n - 1 - j), fun i hi => ?_⟩
  refine (h _).trans ?_
  rw [show n - 1 - (n - 1 - i) = i by omega]

theorem set_set (m : Mem K) (a : Int) (v w : K) : set (set m a v) a w = set m a w := by
  funext b
  unfold set
  split <;> rfl

section
variable [Field K] [StarRing K] {u : UpLo} {trans c : Bool} {d : Diag} {n : Nat} {A ld x incX : Int}
  {m : Mem K} {Q : Nat → Nat → K} {bv : Nat → K}

/-- One step of the solve. -/
theorem subDot_run {s : K} {S : M K K} {a dg : Int} {w v : K} {m : Mem K} (hS : S m = .ok (s, m)) (hw : m a = .val w)
    (hv : d = .nonUnit → m dg = .val v) (hne : d = .nonUnit → dg ≠ a) :
    subDot c d S a dg m = .ok ((), set m a (if d = .unit then w - s else (w - s) / cj c v)) := by
  unfold subDot
  rw [bind_ok hS, bind_ok (load_ok hw), bind_ok (store_ok (by rw [hw]; simp))]
  cases d
  · simp [pure_ok]
  · have h1 : set m a (w - s) dg = .val v := by rw [set_ne _ _ (hne rfl), hv rfl]
    simp only
    rw [bind_ok (load_ok (set_same _ _ _)), bind_ok (load_ok h1), store_ok (by simp), set_set]
    rfl

theorem trsvRow_run (hA : MatAt m A .rowMajor ld (stored u d n) Q) (hx : VecAt m x incX n bv) (hi : incX ≠ 0)
    (hdA : MatVecDisj A .rowMajor ld (stored u d n) x incX n) (hnz : d = .nonUnit → ∀ i, i < n → Q i i ≠ 0) :
    ∃ xs : Nat → K, trsvRow u trans c d n A ld x incX m = .ok ((), over m (elem x incX n) xs (below n)) ∧
      ∀ i, i < n → ∑ j ∈ range n, triOp u trans c d Q i j * xs j = bv i := by
  have hinj := (elem_inj (x := x) (n := n) hi).injOn (s := below n)
  have old : ∀ (v : Nat → K) (S : Set Nat) (j : Nat), j < n → j ∉ S → (∀ i, i ∈ S → i < n) →
      over m (elem x incX n) v S (elem x incX n j) = .val (bv j) := by
    intro v S j hj hS hSn
    rw [over_of_not_mem, hx j hj]
    intro k hk e
    exact hS (elem_inj hi e ▸ hk)
  have new : ∀ (v : Nat → K) (S : Set Nat) (j : Nat), j ∈ S →
      over m (elem x incX n) v S (elem x incX n j) = .val (v j) :=
    fun v S j hj => over_of_mem (elem_inj hi).injOn hj
  have hcx : ∀ (i k : Nat), start n x incX + (i : Int) * incX + incX + (k : Int) * incX = elem x incX n (i + 1 + k) := by
    intro i k; rw [← start_elem]; push_cast; ring
  have hdiag : ∀ (v : Nat → K) (S : Set Nat) (i : Nat), i < n → (∀ k, k ∈ S → k < n) → d = .nonUnit →
      over m (elem x incX n) v S (A + i * (ld + 1)) = .val (Q i i) := by
    intro v S i hin hS hd
    have h1 : stored u d n i i := ⟨⟨hin, hin, by cases u <;> simp⟩, by simp [hd]⟩
    rw [← (hA.over_vec hdA hS) i i h1]
    simp only [idx]; congr 1; ring
  have hdne : ∀ i, i < n → d = .nonUnit → A + (i : Int) * (ld + 1) ≠ elem x incX n i := by
    intro i hin hd e
    have h1 : stored u d n i i := ⟨⟨hin, hin, by cases u <;> simp⟩, by simp [hd]⟩
    refine hdA i i i h1 hin ?_
    rw [← e]; simp only [idx]; ring
  have hcne : ∀ z : K, z ≠ 0 → cj c z ≠ 0 := by
    intro z hz
    cases c
    · exact hz
    · intro e
      apply hz
      have : star (star z) = star 0 := congrArg star e
      rwa [star_star, star_zero] at this
  -- the value found in step `i`, from the sum `s`
  let fin : Nat → K → K := fun i s => if d = .unit then bv i - s else (bv i - s) / cj c (Q i i)
  have hfin : ∀ i, i < n → ∀ s, (if d = .unit then 1 else triE trans c Q i i) * fin i s + s = bv i := by
    intro i hin s
    simp only [fin]
    by_cases hd : d = .unit
    · simp [hd]
    · have hd' : d = .nonUnit := by cases d <;> simp_all
      rw [if_neg hd, if_neg hd]
      have : triE trans c Q i i = cj c (Q i i) := by unfold triE; simp
      rw [this, mul_div_cancel₀ _ (hcne _ (hnz hd' i hin))]
      ring
  -- lower triangular operand
  have lower : triUp u trans = false → ∃ xs : Nat → K, (∀ i (inc off : Int), i < n →
        (∀ k : Nat, off + (k : Int) * inc = A + if trans then (k : Int) * ld + i else i * ld + (k : Int)) →
        subDot c d (dotC c i off inc (start n x incX) incX) (start n x incX + (i : Int) * incX) (A + i * (ld + 1))
          (over m (elem x incX n) xs (below i)) =
          .ok ((), set (over m (elem x incX n) xs (below i)) (elem x incX n i) (xs i))) ∧
      ∀ i, i < n → ∑ j ∈ range n, triOp u trans c d Q i j * xs j = bv i := by
    intro hup
    obtain ⟨xs, hxs⟩ := exists_fix (fun i xs => fin i (∑ k ∈ range i, triE trans c Q i k * xs k)) (by
      intro i xs ys h
      have : ∑ k ∈ range i, triE trans c Q i k * xs k = ∑ k ∈ range i, triE trans c Q i k * ys k :=
        sum_congr rfl fun k hk => by rw [h k (mem_range.1 hk)]
      simp only [this])
    refine ⟨xs, fun i inc off hin hoff => ?_, fun i hin => ?_⟩
    · have hbi : ∀ k, k ∈ below i → k < n := fun k hk => Nat.lt_trans hk hin
      rw [start_elem, subDot_run (s := ∑ k ∈ range i, triE trans c Q i k * xs k) (w := bv i) (v := Q i i)]
      · rw [hxs i]
      · exact dotC_run (xv := fun k => if trans then Q k i else Q i k) (yv := xs) (fun k hk => by
          rw [hoff]
          exact triE_read (hA.over_vec hdA hbi) hin (by omega) (by rw [hup]; simp; omega) (fun _ => by omega))
          fun k hk => by rw [start_elem]; exact new _ _ _ hk
      · exact old _ _ i hin (by simp) hbi
      · exact hdiag _ _ i hin hbi
      · exact hdne i hin
    · have e := lower_sum hin (triE trans c Q) xs (if d = .unit then 1 else triE trans c Q i i)
      have h2 : ∑ j ∈ range n, triOp u trans c d Q i j * xs j = ∑ j ∈ range n,
          (if i = j then (if d = .unit then 1 else triE trans c Q i i) else if j < i then triE trans c Q i j else 0) *
            xs j := by
        refine sum_congr rfl fun j _ => ?_
        simp [triOp, hup]
      rw [h2, ← e]
      conv_lhs => rw [hxs i]
      exact hfin i hin _
  have upper : triUp u trans = true → ∃ xs : Nat → K, (∀ i (inc off : Int), i < n →
        (∀ k : Nat, off + (k : Int) * inc =
          A + if trans then ((i + 1 + k : Nat) : Int) * ld + i else i * ld + ((i + 1 + k : Nat) : Int)) →
        subDot c d (dotC c (n - i - 1) off inc (start n x incX + (i : Int) * incX + incX) incX)
          (start n x incX + (i : Int) * incX) (A + i * (ld + 1))
          (over m (elem x incX n) xs (above (i + 1) n)) =
          .ok ((), set (over m (elem x incX n) xs (above (i + 1) n)) (elem x incX n i) (xs i))) ∧
      ∀ i, i < n → ∑ j ∈ range n, triOp u trans c d Q i j * xs j = bv i := by
    intro hup
    obtain ⟨xs, hxs⟩ := exists_fix_down n (fun i xs => fin i (∑ k ∈ range (n - i - 1), triE trans c Q i (i + 1 + k) *
      xs (i + 1 + k))) (by
      intro i xs ys h
      have : ∑ k ∈ range (n - i - 1), triE trans c Q i (i + 1 + k) * xs (i + 1 + k) =
          ∑ k ∈ range (n - i - 1), triE trans c Q i (i + 1 + k) * ys (i + 1 + k) :=
        sum_congr rfl fun k hk => by
          rw [mem_range] at hk
          rw [h (i + 1 + k) (by omega) (by omega)]
      simp only [this])
    refine ⟨xs, fun i inc off hin hoff => ?_, fun i hin => ?_⟩
    · have hbi : ∀ k, k ∈ above (i + 1) n → k < n := fun k hk => hk.2
      rw [start_elem, subDot_run (s := ∑ k ∈ range (n - i - 1), triE trans c Q i (i + 1 + k) * xs (i + 1 + k))
        (w := bv i) (v := Q i i)]
      · rw [hxs i hin]
      · exact dotC_run (xv := fun k => if trans then Q (i + 1 + k) i else Q i (i + 1 + k)) (yv := fun k => xs (i + 1 + k))
          (fun k hk => by
          rw [hoff]
          exact triE_read (hA.over_vec hdA hbi) hin (by omega) (by rw [hup]; simp; omega) (fun _ => by omega))
          fun k hk => by
            rw [← start_elem, hcx]; exact new _ _ _ ⟨by omega, by omega⟩
      · exact old _ _ i hin (by simp [above]) hbi
      · exact hdiag _ _ i hin hbi
      · exact hdne i hin
    · have e := upper_sum hin (triE trans c Q) xs (if d = .unit then 1 else triE trans c Q i i)
      have h2 : ∑ j ∈ range n, triOp u trans c d Q i j * xs j = ∑ j ∈ range n,
          (if i = j then (if d = .unit then 1 else triE trans c Q i i) else if i < j then triE trans c Q i j else 0) *
            xs j := by
        refine sum_congr rfl fun j _ => ?_
        simp [triOp, hup]
      rw [h2, ← e]
      conv_lhs => rw [hxs i hin]
      exact hfin i hin _
  cases trans <;> cases u
  · obtain ⟨xs, h1, h2⟩ := upper rfl
    exact ⟨xs, loopDown_over hinj (fun i => subDot c d (dotC c (n - i - 1) (A + (i : Int) * (ld + 1) + 1) 1
      (start n x incX + (i : Int) * incX + incX) incX) (start n x incX + (i : Int) * incX) (A + (i : Int) * (ld + 1))) _
      fun i hin => h1 i _ _ hin fun k => by simp; ring, h2⟩
  · obtain ⟨xs, h1, h2⟩ := lower rfl
    exact ⟨xs, loop_over hinj _ _ fun i hin => h1 i _ _ hin fun k => by simp; ring, h2⟩
  · obtain ⟨xs, h1, h2⟩ := lower rfl
    exact ⟨xs, loop_over hinj _ _ fun i hin => h1 i _ _ hin fun k => by simp; ring, h2⟩
  · obtain ⟨xs, h1, h2⟩ := upper rfl
    exact ⟨xs, loopDown_over hinj (fun i => subDot c d (dotC c (n - i - 1) (A + (i : Int) * (ld + 1) + ld) ld
      (start n x incX + (i : Int) * incX + incX) incX) (start n x incX + (i : Int) * incX) (A + (i : Int) * (ld + 1))) _
      fun i hin => h1 i _ _ hin fun k => by simp; ring, h2⟩

end

end Verif.Blas
