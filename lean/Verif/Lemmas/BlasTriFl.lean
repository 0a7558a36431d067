import Verif.Lemmas.BlasSolveFl

/-! Lemmas: what the triangular products compute in an arithmetic without laws, such as that of floating-point numbers. -/

namespace Verif.Blas

open Finset

variable {K : Type} [Mul K] [Add K] [Zero K] [Star K] {u : UpLo} {trans c : Bool} {d : Diag} {n : Nat} {A ld x incX : Int}
  {m : Mem K} {Q : Nat → Nat → K} {xv : Nat → K}

/-- Element `i` of the product: the sum from left to right; with a unit diagonal the element itself plus the sum of the others. -/
def prodRow (u : UpLo) (trans c : Bool) (d : Diag) (n : Nat) (Q : Nat → Nat → K) (xv : Nat → K) (i : Nat) : K :=
  if d = .unit then
    if triUp u trans then xv i + dotL (n - i - 1) (fun k => triE trans c Q i (i + 1 + k)) (fun k => xv (i + 1 + k))
    else xv i + dotL i (fun k => triE trans c Q i k) xv
  else
    if triUp u trans then dotL (n - i) (fun k => triE trans c Q i (i + k)) (fun k => xv (i + k))
    else dotL (i + 1) (fun k => triE trans c Q i k) xv

theorem trmvRow_ops (h0 : ∀ a : K, a + 0 = a) (hA : MatAt m A .rowMajor ld (stored u d n) Q) (hx : VecAt m x incX n xv) (hi : incX ≠ 0)
    (hdA : MatVecDisj A .rowMajor ld (stored u d n) x incX n) :
    trmvRow u trans c d n A ld x incX m = .ok ((), over m (elem x incX n) (prodRow u trans c d n Q xv) (below n)) := by
  have hinj := (elem_inj (x := x) (n := n) hi).injOn (s := below n)
  generalize hv : prodRow u trans c d n Q xv = v
  have hvi : ∀ i, v i = prodRow u trans c d n Q xv i := fun i => by rw [hv]
  -- elements not yet overwritten
  have old : ∀ (S : Set Nat) (j : Nat), j < n → j ∉ S → (∀ i, i ∈ S → i < n) →
      over m (elem x incX n) v S (elem x incX n j) = .val (xv j) := by
    intro S j hj hS hSn
    rw [over_of_not_mem, hx j hj]
    intro k hk e
    exact hS (elem_inj hi e ▸ hk)
  have hcx : ∀ (i k : Nat), start n x incX + (i : Int) * incX + incX + (k : Int) * incX = elem x incX n (i + 1 + k) := by
    intro i k; rw [← start_elem]; push_cast; ring
  have hcx0 : ∀ (i k : Nat), start n x incX + (i : Int) * incX + (k : Int) * incX = elem x incX n (i + k) := by
    intro i k; rw [← start_elem]; push_cast; ring
  -- one pass, upper triangular operand
  have stepU : ∀ (i : Nat) (inc off : Int), i < n → (triUp u trans = true) →
      (∀ k : Nat, off + (k : Int) * inc = A + if trans then ((i + k : Nat) : Int) * ld + i else i * ld + ((i + k : Nat) : Int)) →
      d = .nonUnit →
      setDot (dotC c (n - i) off inc (start n x incX + i * incX) incX) (start n x incX + i * incX)
        (over m (elem x incX n) v (below i)) =
        .ok ((), set (over m (elem x incX n) v (below i)) (elem x incX n i) (v i)) := by
    intro i inc off hin hup hoff hd
    unfold setDot
    have hbi : ∀ k, k ∈ below i → k < n := fun k hk => Nat.lt_trans hk hin
    rw [bind_ok (dotC_fold (xv := fun k => if trans then Q (i + k) i else Q i (i + k)) (yv := fun k => xv (i + k))
      (fun k hk => ?_) fun k hk => ?_), start_elem, store_ok (by rw [old _ i hin (by simp) hbi]; simp)]
    · congr 3
      rw [hvi]
      simp [prodRow, hd, hup, triE]
    · rw [hoff]
      exact triE_cell (hA.under hdA hbi) hin (by omega) (by rw [hup]; simp) (by simp [hd])
    · rw [hcx0]; exact old _ _ (by omega) (by simp) hbi
  have stepU1 : ∀ (i : Nat) (inc off : Int), i < n → (triUp u trans = true) →
      (∀ k : Nat, off + (k : Int) * inc =
        A + if trans then ((i + 1 + k : Nat) : Int) * ld + i else i * ld + ((i + 1 + k : Nat) : Int)) →
      d = .unit →
      incDot (dotC c (n - i - 1) off inc (start n x incX + i * incX + incX) incX) (start n x incX + i * incX)
        (over m (elem x incX n) v (below i)) =
        .ok ((), set (over m (elem x incX n) v (below i)) (elem x incX n i) (v i)) := by
    intro i inc off hin hup hoff hd
    unfold incDot
    have hbi : ∀ k, k ∈ below i → k < n := fun k hk => Nat.lt_trans hk hin
    have hold := old _ i hin (show i ∉ below i by simp) hbi
    rw [bind_ok (dotC_fold (xv := fun k => if trans then Q (i + 1 + k) i else Q i (i + 1 + k))
      (yv := fun k => xv (i + 1 + k)) (fun k hk => ?_) fun k hk => ?_), start_elem, bind_ok (load_ok hold),
      store_ok (by rw [hold]; simp)]
    · congr 3
      rw [hvi]
      simp [prodRow, hd, hup, triE]
    · rw [hoff]
      exact triE_cell (hA.under hdA hbi) hin (by omega) (by rw [hup]; simp; omega) (fun _ => by omega)
    · rw [hcx]; exact old _ _ (by omega) (by simp; omega) hbi
  -- one pass, lower triangular operand
  have stepL : ∀ (i : Nat) (inc off : Int), i < n → (triUp u trans = false) →
      (∀ k : Nat, off + (k : Int) * inc = A + if trans then (k : Int) * ld + i else i * ld + (k : Int)) →
      d = .nonUnit →
      setDot (dotC c (i + 1) off inc (start n x incX) incX) (start n x incX + i * incX)
        (over m (elem x incX n) v (above (i + 1) n)) =
        .ok ((), set (over m (elem x incX n) v (above (i + 1) n)) (elem x incX n i) (v i)) := by
    intro i inc off hin hup hoff hd
    unfold setDot
    have hbi : ∀ k, k ∈ above (i + 1) n → k < n := fun k hk => hk.2
    rw [bind_ok (dotC_fold (xv := fun k => if trans then Q k i else Q i k) (yv := fun k => xv k)
      (fun k hk => ?_) fun k hk => ?_), start_elem, store_ok (by rw [old _ i hin (by simp [above]) hbi]; simp)]
    · congr 3
      rw [hvi]
      simp [prodRow, hd, hup, triE]
    · rw [hoff]
      exact triE_cell (hA.under hdA hbi) hin (by omega) (by rw [hup]; simp; omega) (by simp [hd])
    · rw [start_elem]; exact old _ _ (by omega) (by simp [above]; omega) hbi
  have stepL1 : ∀ (i : Nat) (inc off : Int), i < n → (triUp u trans = false) →
      (∀ k : Nat, off + (k : Int) * inc = A + if trans then (k : Int) * ld + i else i * ld + (k : Int)) →
      d = .unit →
      incDot (dotC c i off inc (start n x incX) incX) (start n x incX + i * incX)
        (over m (elem x incX n) v (above (i + 1) n)) =
        .ok ((), set (over m (elem x incX n) v (above (i + 1) n)) (elem x incX n i) (v i)) := by
    intro i inc off hin hup hoff hd
    unfold incDot
    have hbi : ∀ k, k ∈ above (i + 1) n → k < n := fun k hk => hk.2
    have hold := old _ i hin (show i ∉ above (i + 1) n by simp [above]) hbi
    rw [bind_ok (dotC_fold (xv := fun k => if trans then Q k i else Q i k) (yv := fun k => xv k)
      (fun k hk => ?_) fun k hk => ?_), start_elem, bind_ok (load_ok hold), store_ok (by rw [hold]; simp)]
    · congr 3
      rw [hvi]
      simp [prodRow, hd, hup, triE]
    · rw [hoff]
      exact triE_cell (hA.under hdA hbi) hin (by omega) (by rw [hup]; simp; omega) (fun _ => by omega)
    · rw [start_elem]; exact old _ _ (by omega) (by simp [above]; omega) hbi
  -- with a unit diagonal the last element of an upper operand, or the first of a lower one, stays
  have last : triUp u trans = true → d = .unit → ∀ i, i < n → ¬ i < n - 1 → v i = xv i := by
    intro hup hd i hin hl
    rw [hvi]
    simp [prodRow, hd, hup, show n - i - 1 = 0 by omega, dotL, h0]
  have first : triUp u trans = false → d = .unit → v 0 = xv 0 ∨ n = 0 := by
    intro hup hd
    rcases Nat.eq_zero_or_pos n with h | h
    · exact Or.inr h
    left
    rw [hvi]
    simp [prodRow, hd, hup, dotL, h0]
  have upAll : ∀ f : Nat → M K Unit, (∀ i, i < n - 1 → f i (over m (elem x incX n) v (below i)) =
        .ok ((), set (over m (elem x incX n) v (below i)) (elem x incX n i) (v i))) →
      triUp u trans = true → d = .unit → loop (n - 1) f m = .ok ((), over m (elem x incX n) v (below n)) := by
    intro f hf hup hd
    rw [loop_over (hinj.mono (below_mono (Nat.sub_le _ _))) f m hf]
    rw [over_skip hinj (below_mono (Nat.sub_le _ _))]
    intro i hin hni
    rw [hx i hin, last hup hd i hin hni]
  have downAll : ∀ f : Nat → M K Unit, (∀ i, i < n → f i (over m (elem x incX n) v (above (i + 1) n)) =
        .ok ((), set (over m (elem x incX n) v (above (i + 1) n)) (elem x incX n i) (v i))) →
      triUp u trans = false → d = .unit →
      loopDown (n - 1) (fun k => f (k + 1)) m = .ok ((), over m (elem x incX n) v (below n)) := by
    intro f hf hup hd
    have tr := loopDown_trace (fun k => f (k + 1)) (fun i => over m (elem x incX n) v (above (i + 1) n)) (n - 1)
      fun i hi' => by
        rw [hf (i + 1) (by omega), set_over, ← above_succ (show i + 1 < n by omega)]
        rw [← above_succ (show i + 1 < n by omega)]
        exact hinj.mono fun j hj => hj.2
    rcases Nat.eq_zero_or_pos n with h | h
    · subst h
      rw [below_zero, over_empty]; rfl
    · rw [show n - 1 + 1 = n by omega, above_self, over_empty] at tr
      rw [tr, over_skip hinj (fun j hj => hj.2)]
      intro i hin hni
      have : i = 0 := by
        by_contra h0
        exact hni ⟨by omega, hin⟩
      subst this
      rw [hx 0 hin]
      rcases first hup hd with h1 | h1
      · rw [h1]
      · omega
  cases trans <;> cases u <;> cases d
  · exact upAll _ (fun i hi' => stepU1 i _ _ (by omega) rfl (fun k => by simp; ring) rfl) rfl rfl
  · exact loop_over hinj _ _ fun i hi' => stepU i _ _ hi' rfl (fun k => by simp; ring) rfl
  · exact downAll (fun i => incDot (dotC c i (A + (i : Int) * ld) 1 (start n x incX) incX) (start n x incX + (i : Int) * incX))
      (fun i hi' => stepL1 i _ _ hi' rfl (fun k => by simp; ring) rfl) rfl rfl
  · exact loopDown_over hinj (fun i => setDot (dotC c (i + 1) (A + (i : Int) * ld) 1 (start n x incX) incX)
      (start n x incX + (i : Int) * incX)) _ fun i hi' => stepL i _ _ hi' rfl (fun k => by simp; ring) rfl
  · exact downAll (fun i => incDot (dotC c i (A + (i : Int)) ld (start n x incX) incX) (start n x incX + (i : Int) * incX))
       (fun i hi' => stepL1 i _ _ hi' rfl (fun k => by simp; ring) rfl) rfl rfl
  · exact loopDown_over hinj (fun i => setDot (dotC c (i + 1) (A + (i : Int)) ld (start n x incX) incX)
      (start n x incX + (i : Int) * incX)) _ fun i hi' => stepL i _ _ hi' rfl (fun k => by simp; ring) rfl
  · exact upAll _ (fun i hi' => stepU1 i _ _ (by omega) rfl (fun k => by simp; ring) rfl) rfl rfl
  · exact loop_over hinj _ _ fun i hi' => stepU i _ _ hi' rfl (fun k => by simp; ring) rfl

end Verif.Blas
