import Verif.Lemmas.Blas2Solve

/-! Lemmas: what the triangular solves compute in an arithmetic without laws, such as that of floating-point numbers. -/

namespace Verif.Blas

open Finset

variable {K : Type}

/-- The sum of products from left to right, starting with 0. -/
def dotL [Mul K] [Add K] [Zero K] (n : Nat) (a b : Nat → K) : K := (List.range n).foldl (fun acc l => acc + a l * b l) 0

theorem dotL_succ [Mul K] [Add K] [Zero K] (n : Nat) (a b : Nat → K) : dotL (n + 1) a b = dotL n a b + a n * b n := by
  simp [dotL, List.range_succ]

theorem dotL_congr [Mul K] [Add K] [Zero K] {n : Nat} {a b b' : Nat → K} (h : ∀ i, i < n → b i = b' i) : dotL n a b = dotL n a b' := by
  induction n with
  | zero => rfl
  | succ n ih => rw [dotL_succ, dotL_succ, ih fun i hi => h i (by omega), h n (by omega)]

theorem dotC_fold [Mul K] [Add K] [Zero K] [Star K] {c : Bool} {n : Nat} {x incX y incY : Int} {m : Mem K}
    {xv yv : Nat → K} (hx : ∀ i, i < n → m (x + i * incX) = .val (xv i))
    (hy : ∀ i, i < n → m (y + i * incY) = .val (yv i)) :
    dotC c n x incX y incY m = .ok (dotL n (fun i => cj c (xv i)) yv, m) := by
  cases c
  · show dotuGeneric n x incX y incY m = _
    unfold dotuGeneric
    refine fold_trace (fun i r => do
      let v ← load (x + i * incX)
      let w ← load (y + i * incY)
      pure (r + v * w)) (fun k => dotL k xv yv) m n fun i hi => ?_
    rw [bind_ok (load_ok (hx i hi)), bind_ok (load_ok (hy i hi)), dotL_succ]; rfl
  · show dotGeneric n x incX y incY m = _
    unfold dotGeneric
    refine fold_trace (fun i r => do
      let v ← load (x + i * incX)
      let w ← load (y + i * incY)
      pure (r + star v * w)) (fun k => dotL k (fun i => star (xv i)) yv) m n fun i hi => ?_
    rw [bind_ok (load_ok (hx i hi)), bind_ok (load_ok (hy i hi)), dotL_succ]; rfl

/-- One step of the solve. -/
theorem subDot_ops [Sub K] [Div K] [Star K] {c : Bool} {d : Diag} {s : K} {S : M K K} {a dg : Int} {w v : K} {m : Mem K}
    (hS : S m = .ok (s, m)) (hw : m a = .val w) (hv : d = .nonUnit → m dg = .val v) (hne : d = .nonUnit → dg ≠ a) :
    subDot c d S a dg m = .ok ((), set m a (if d = .unit then w - s else (w - s) / cj c v)) := by
  unfold subDot
  rw [bind_ok hS, bind_ok (load_ok hw), bind_ok (store_ok (by rw [hw]; simp))]
  cases d
  · simp [pure_ok]
  · have h1 : set m a (w - s) dg = .val v := by rw [set_ne _ _ (hne rfl), hv rfl]
    simp only
    rw [bind_ok (load_ok (set_same _ _ _)), bind_ok (load_ok h1), store_ok (by simp), set_set]
    rfl

section
variable {u : UpLo} {trans c : Bool} {d : Diag} {n : Nat} {A ld x incX : Int} {m : Mem K} {Q : Nat → Nat → K} {bv : Nat → K}

theorem triE_cell (hA : MatAt m A .rowMajor ld (stored u d n) Q) {i j : Nat} (hi : i < n) (hj : j < n)
    (h : if triUp u trans then i ≤ j else j ≤ i) (hd : d = .unit → i ≠ j) :
    m (A + if trans then (j : Int) * ld + i else i * ld + j) = .val (if trans then Q j i else Q i j) := by
  cases trans
  · have : stored u d n i j := by
      refine ⟨⟨hi, hj, ?_⟩, hd⟩
      cases u <;> simpa [triUp] using h
    exact hA i j this
  · have : stored u d n j i := by
      refine ⟨⟨hj, hi, ?_⟩, fun hu e => hd hu e.symm⟩
      cases u <;> simpa [triUp] using h
    exact hA j i this

theorem MatAt.under {P : Nat → Nat → Prop} {S : Set Nat} {v : Nat → K} (hA : MatAt m A .rowMajor ld P Q)
    (hd : MatVecDisj A .rowMajor ld P x incX n) (hS : ∀ i, i ∈ S → i < n) :
    MatAt (over m (elem x incX n) v S) A .rowMajor ld P Q :=
  hA.agree (agreeOff_over fun j hj => ⟨j, hS j hj, rfl⟩) hd

end

section
variable [Mul K] [Add K] [Sub K] [Div K] [Zero K] [Star K] {u : UpLo} {trans c : Bool} {d : Diag} {n : Nat} {A ld x incX : Int}
  {m : Mem K} {Q : Nat → Nat → K} {bv : Nat → K}

/-- The value found in a step of the solve, from the sum over the values found before. -/
def solveStep (c : Bool) (d : Diag) (Q : Nat → Nat → K) (bv : Nat → K) (i : Nat) (s : K) : K :=
  if d = .unit then bv i - s else (bv i - s) / cj c (Q i i)

/-- The sum that a step subtracts. -/
def solveSum (u : UpLo) (trans c : Bool) (n : Nat) (Q : Nat → Nat → K) (xs : Nat → K) (i : Nat) : K :=
  if triUp u trans then dotL (n - i - 1) (fun k => triE trans c Q i (i + 1 + k)) (fun k => xs (i + 1 + k))
  else dotL i (fun k => triE trans c Q i k) xs

theorem trsvRow_ops (hA : MatAt m A .rowMajor ld (stored u d n) Q) (hx : VecAt m x incX n bv) (hi : incX ≠ 0)
    (hdA : MatVecDisj A .rowMajor ld (stored u d n) x incX n) :
    ∃ xs : Nat → K, trsvRow u trans c d n A ld x incX m = .ok ((), over m (elem x incX n) xs (below n)) ∧
      ∀ i, i < n → xs i = solveStep c d Q bv i (solveSum u trans c n Q xs i) := by
  have hinj := (elem_inj (x := x) (n := n) hi).injOn (s := below n)
  have old : ∀ (v : Nat → K) (S : Set Nat) (j : Nat), j < n → j ∉ S → (∀ i, i ∈ S → i < n) →
      over m (elem x incX n) v S (elem x incX n j) = .val (bv j) := by
    intro v S j hj hS hSn
    rw [over_of_not_mem, hx j hj]
    intro k hk e
    exact hS (elem_inj hi e ▸ hk)
  have new : ∀ (v : Nat → K) (S : Set Nat) (j : Nat), j ∈ S →
      over m (elem x incX n) v S (elem x incX n j) = .val (v j) :=
    fun v S j hj => over_of_mem (elem_inj hi).injOn hj
  have hcx : ∀ (i k : Nat), start n x incX + (i : Int) * incX + incX + (k : Int) * incX = elem x incX n (i + 1 + k) := by
    intro i k; rw [← start_elem]; push_cast; ring
  have hdiag : ∀ (v : Nat → K) (S : Set Nat) (i : Nat), i < n → (∀ k, k ∈ S → k < n) → d = .nonUnit →
      over m (elem x incX n) v S (A + i * (ld + 1)) = .val (Q i i) := by
    intro v S i hin hS hd
    have h1 : stored u d n i i := ⟨⟨hin, hin, by cases u <;> simp⟩, by simp [hd]⟩
    rw [← (hA.under hdA hS) i i h1]
    simp only [idx]; congr 1; ring
  have hdne : ∀ i, i < n → d = .nonUnit → A + (i : Int) * (ld + 1) ≠ elem x incX n i := by
    intro i hin hd e
    have h1 : stored u d n i i := ⟨⟨hin, hin, by cases u <;> simp⟩, by simp [hd]⟩
    refine hdA i i i h1 hin ?_
    rw [← e]; simp only [idx]; ring
  -- lower triangular operand
  have lower : triUp u trans = false → ∃ xs : Nat → K, (∀ i (inc off : Int), i < n →
        (∀ k : Nat, off + (k : Int) * inc = A + if trans then (k : Int) * ld + i else i * ld + (k : Int)) →
        subDot c d (dotC c i off inc (start n x incX) incX) (start n x incX + (i : Int) * incX) (A + i * (ld + 1))
          (over m (elem x incX n) xs (below i)) =
          .ok ((), set (over m (elem x incX n) xs (below i)) (elem x incX n i) (xs i))) ∧
      ∀ i, i < n → xs i = solveStep c d Q bv i (solveSum u trans c n Q xs i) := by
    intro hup
    obtain ⟨xs, hxs⟩ := exists_fix (fun i xs => solveStep c d Q bv i (dotL i (fun k => triE trans c Q i k) xs)) (by
      intro i xs ys h
      rw [dotL_congr h])
    refine ⟨xs, fun i inc off hin hoff => ?_, fun i hin => ?_⟩
    · have hbi : ∀ k, k ∈ below i → k < n := fun k hk => Nat.lt_trans hk hin
      rw [start_elem, subDot_ops (s := dotL i (fun k => triE trans c Q i k) xs) (w := bv i) (v := Q i i)]
      · rw [hxs i]; rfl
      · exact dotC_fold (xv := fun k => if trans then Q k i else Q i k) (yv := xs) (fun k hk => by
          rw [hoff]
          exact triE_cell (hA.under hdA hbi) hin (by omega) (by rw [hup]; simp; omega) (fun _ => by omega))
          fun k hk => by rw [start_elem]; exact new _ _ _ hk
      · exact old _ _ i hin (by simp) hbi
      · exact hdiag _ _ i hin hbi
      · exact hdne i hin
    · rw [solveSum, if_neg (by simp [hup])]
      exact hxs i
  have upper : triUp u trans = true → ∃ xs : Nat → K, (∀ i (inc off : Int), i < n →
        (∀ k : Nat, off + (k : Int) * inc =
          A + if trans then ((i + 1 + k : Nat) : Int) * ld + i else i * ld + ((i + 1 + k : Nat) : Int)) →
        subDot c d (dotC c (n - i - 1) off inc (start n x incX + (i : Int) * incX + incX) incX)
          (start n x incX + (i : Int) * incX) (A + i * (ld + 1))
          (over m (elem x incX n) xs (above (i + 1) n)) =
          .ok ((), set (over m (elem x incX n) xs (above (i + 1) n)) (elem x incX n i) (xs i))) ∧
      ∀ i, i < n → xs i = solveStep c d Q bv i (solveSum u trans c n Q xs i) := by
    intro hup
    obtain ⟨xs, hxs⟩ := exists_fix_down n (fun i xs => solveStep c d Q bv i
      (dotL (n - i - 1) (fun k => triE trans c Q i (i + 1 + k)) (fun k => xs (i + 1 + k)))) (by
      intro i xs ys h
      rw [dotL_congr fun k hk => h (i + 1 + k) (by omega) (by omega)])
    refine ⟨xs, fun i inc off hin hoff => ?_, fun i hin => ?_⟩
    · have hbi : ∀ k, k ∈ above (i + 1) n → k < n := fun k hk => hk.2
      rw [start_elem, subDot_ops (s := dotL (n - i - 1) (fun k => triE trans c Q i (i + 1 + k)) (fun k => xs (i + 1 + k)))
        (w := bv i) (v := Q i i)]
      · rw [hxs i hin]; rfl
      · exact dotC_fold (xv := fun k => if trans then Q (i + 1 + k) i else Q i (i + 1 + k)) (yv := fun k => xs (i + 1 + k))
          (fun k hk => by
          rw [hoff]
          exact triE_cell (hA.under hdA hbi) hin (by omega) (by rw [hup]; simp; omega) (fun _ => by omega))
          fun k hk => by
            rw [← start_elem, hcx]; exact new _ _ _ ⟨by omega, by omega⟩
      · exact old _ _ i hin (by simp [above]) hbi
      · exact hdiag _ _ i hin hbi
      · exact hdne i hin
    · rw [solveSum, if_pos hup]
      exact hxs i hin
  cases trans <;> cases u
  · obtain ⟨xs, h1, h2⟩ := upper rfl
    exact ⟨xs, loopDown_over hinj (fun i => subDot c d (dotC c (n - i - 1) (A + (i : Int) * (ld + 1) + 1) 1
      (start n x incX + (i : Int) * incX + incX) incX) (start n x incX + (i : Int) * incX) (A + (i : Int) * (ld + 1))) _
      fun i hin => h1 i _ _ hin fun k => by simp; ring, h2⟩
  · obtain ⟨xs, h1, h2⟩ := lower rfl
    exact ⟨xs, loop_over hinj _ _ fun i hin => h1 i _ _ hin fun k => by simp; ring, h2⟩
  · obtain ⟨xs, h1, h2⟩ := lower rfl
    exact ⟨xs, loop_over hinj _ _ fun i hin => h1 i _ _ hin fun k => by simp; ring, h2⟩
  · obtain ⟨xs, h1, h2⟩ := upper rfl
    exact ⟨xs, loopDown_over hinj (fun i => subDot c d (dotC c (n - i - 1) (A + (i : Int) * (ld + 1) + ld) ld
      (start n x incX + (i : Int) * incX + incX) incX) (start n x incX + (i : Int) * incX) (A + (i : Int) * (ld + 1))) _
      fun i hin => h1 i _ _ hin fun k => by simp; ring, h2⟩

end

end Verif.Blas
