import Verif.Lemmas.Blas1
import Mathlib.Tactic.IntervalCases
import Mathlib.Algebra.Order.Group.Unbundled.Abs

/-! Property theorems for the generic level-1 routines of cxxblas (C71, C72). Vectors in memory are those of `Spec/Blas.lean`;
the scalars are any ring with conjugation, in exact arithmetic. -/

namespace Verif.Blas

variable {K : Type}

/-- The routine `c` run in memory `m` ends normally, leaves `v` in the vector at `y`, and changes nothing else. -/
def Yields (c : M K Unit) (m : Mem K) (y incY : Int) (n : Nat) (v : Nat → K) : Prop :=
  ∃ m', c m = .ok ((), m') ∧ VecAt m' y incY n v ∧ OnlyVec m m' y incY n

/-- The same for two vectors. -/
def Yields2 (c : M K Unit) (m : Mem K) (x incX y incY : Int) (n : Nat) (v w : Nat → K) : Prop :=
  ∃ m', c m = .ok ((), m') ∧ VecAt m' x incX n v ∧ VecAt m' y incY n w ∧
    ∀ a, (∀ i, i < n → a ≠ elem x incX n i ∧ a ≠ elem y incY n i) → m' a = m a

theorem yields_of_over {c : M K Unit} {m : Mem K} {y incY : Int} {n : Nat} {v : Nat → K} (hi : incY ≠ 0)
    (h : c m = .ok ((), over m (elem y incY n) v (below n))) : Yields c m y incY n v :=
  ⟨_, h, vecAt_over hi, fun _ ha => over_of_not_mem (S := below n) fun i hin e => ha i hin e.symm⟩

theorem yields2_of_over {c : M K Unit} {m : Mem K} {x incX y incY : Int} {n : Nat} {v w : Nat → K} (h1 : incX ≠ 0)
    (h2 : incY ≠ 0) (hd : VecDisj x incX n y incY n) {f : Bool × Nat → K} (hf : ∀ i, f (false, i) = v i)
    (hg : ∀ i, f (true, i) = w i)
    (h : c m = .ok ((), over m (elem2 x incX y incY n) f (below2 n))) : Yields2 c m x incX y incY n v w := by
  have hinj := elem2_inj h1 h2 hd
  refine ⟨_, h, fun i hin => ?_, fun i hin => ?_, fun a ha => over_of_not_mem ?_⟩
  · have := over_of_mem (m := m) (v := f) hinj (show (false, i) ∈ below2 n from hin)
    rw [hf] at this
    simpa [elem2] using this
  · have := over_of_mem (m := m) (v := f) hinj (show (true, i) ∈ below2 n from hin)
    rw [hg] at this
    simpa [elem2] using this
  · rintro ⟨b, i⟩ hp e
    have := ha i hp
    cases b <;> simp only [elem2, Bool.false_eq_true, if_false, if_true] at e
    · exact this.1 e.symm
    · exact this.2 e.symm

/-! ### C71: updates of vectors -/

/-- **C71** `copy`: `y := x`. The old `y` may be uninitialised. -/
theorem C71_copy {n : Nat} {x incX y incY : Int} {m : Mem K} {xv : Nat → K} (hx : VecAt m x incX n xv)
    (hy : VecMem m y incY n) (hi : incY ≠ 0) (hs : VecSafe x incX y incY n) :
    Yields (copy n x incX y incY) m y incY n xv :=
  yields_of_over hi (copy_run hx hy hi hs)

/-- **C71** `ccopy`: `y := conj x`. -/
theorem C71_ccopy [Star K] {n : Nat} {x incX y incY : Int} {m : Mem K} {xv : Nat → K} (hx : VecAt m x incX n xv)
    (hy : VecMem m y incY n) (hi : incY ≠ 0) (hs : VecSafe x incX y incY n) :
    Yields (ccopy n x incX y incY) m y incY n fun i => star (xv i) :=
  yields_of_over hi (ccopy_run hx hy hi hs)

/-- **C71** `axpy`: `y := y + alpha x`, also with `x` and `y` the same vector. -/
theorem C71_axpy [Mul K] [Add K] {n : Nat} {alpha : K} {x incX y incY : Int} {m : Mem K} {xv yv : Nat → K}
    (hx : VecAt m x incX n xv) (hy : VecAt m y incY n yv) (hi : incY ≠ 0) (hs : VecSafe x incX y incY n) :
    Yields (axpy n alpha x incX y incY) m y incY n fun i => yv i + alpha * xv i :=
  yields_of_over hi (axpy_run hx hy hi hs)

/-- **C71** `acxpy`: `y := y + alpha conj x`. -/
theorem C71_acxpy [Mul K] [Add K] [Star K] {n : Nat} {alpha : K} {x incX y incY : Int} {m : Mem K} {xv yv : Nat → K}
    (hx : VecAt m x incX n xv) (hy : VecAt m y incY n yv) (hi : incY ≠ 0) (hs : VecSafe x incX y incY n) :
    Yields (acxpy n alpha x incX y incY) m y incY n fun i => yv i + alpha * star (xv i) :=
  yields_of_over hi (acxpy_run hx hy hi hs)

/-- **C71** `raxpy` and `racxpy`: `y := y + x / alpha`, `y := y + conj x / alpha`. -/
theorem C71_raxpy [Div K] [Add K] [Star K] {n : Nat} {alpha : K} {x incX y incY : Int} {m : Mem K} {xv yv : Nat → K}
    (hx : VecAt m x incX n xv) (hy : VecAt m y incY n yv) (hi : incY ≠ 0) (hs : VecSafe x incX y incY n) :
    Yields (raxpy n alpha x incX y incY) m y incY n (fun i => yv i + xv i / alpha) ∧
    Yields (racxpy n alpha x incX y incY) m y incY n fun i => yv i + star (xv i) / alpha :=
  ⟨yields_of_over hi (raxpy_run hx hy hi hs), yields_of_over hi (racxpy_run hx hy hi hs)⟩

/-- **C71** `scal` and `rscal`: `y := alpha y`, `y := y / alpha`. -/
theorem C71_scal [Field K] {n : Nat} {alpha : K} {y incY : Int} {m : Mem K} {yv : Nat → K} (hy : VecAt m y incY n yv)
    (hi : incY ≠ 0) :
    Yields (scal n alpha y incY) m y incY n (fun i => alpha * yv i) ∧
    Yields (rscal n alpha y incY) m y incY n fun i => yv i / alpha := by
  refine ⟨yields_of_over hi ?_, yields_of_over hi (rscal_run hy hi)⟩
  rw [scal_run hy hi]
  simp only [mul_comm]

/-- **C71** `axpby` and `acxpby`: `y := beta y + alpha x` and `y := beta y + alpha conj x`; with `beta = 0` the old `y` may be
uninitialised. -/
theorem C71_axpby [CommRing K] [Star K] [DecidableEq K] {n : Nat} {alpha beta : K} {x incX y incY : Int} {m : Mem K}
    {xv yv : Nat → K} (hx : VecAt m x incX n xv) (hy : VecMem m y incY n) (hb : beta ≠ 0 → VecAt m y incY n yv)
    (hi : incY ≠ 0) (hd : VecDisj x incX n y incY n) :
    Yields (axpby n alpha x incX beta y incY) m y incY n (fun i => beta * yv i + alpha * xv i) ∧
    Yields (acxpby n alpha x incX beta y incY) m y incY n fun i => beta * yv i + alpha * star (xv i) :=
  ⟨yields_of_over hi (axpby_run hx ⟨hy, hb⟩ hi hd), yields_of_over hi (acxpby_run hx ⟨hy, hb⟩ hi hd)⟩

/-- **C71** `swap` exchanges two disjoint vectors. -/
theorem C71_swap {n : Nat} {x incX y incY : Int} {m : Mem K} {xv yv : Nat → K} (hx : VecAt m x incX n xv)
    (hy : VecAt m y incY n yv) (h1 : incX ≠ 0) (h2 : incY ≠ 0) (hd : VecDisj x incX n y incY n) :
    Yields2 (swap n x incX y incY) m x incX y incY n yv xv :=
  yields2_of_over h1 h2 hd (fun _ => rfl) (fun _ => rfl) (swap_run hx hy h1 h2 hd)

/-- **C71** `rot` applies the rotation with cosine `c` and sine `s` to every pair of elements. -/
theorem C71_rot [CommRing K] {n : Nat} {x incX y incY : Int} {c s : K} {m : Mem K} {xv yv : Nat → K}
    (hx : VecAt m x incX n xv) (hy : VecAt m y incY n yv) (h1 : incX ≠ 0) (h2 : incY ≠ 0)
    (hd : VecDisj x incX n y incY n) :
    Yields2 (rot n x incX y incY c s) m x incX y incY n (fun i => c * xv i + s * yv i) fun i => c * yv i - s * xv i :=
  yields2_of_over h1 h2 hd (fun _ => rfl) (fun i => by simp; ring) (rot_run hx hy h1 h2 hd)

/-- **C71** `rot` with complex sine. -/
theorem C71_crot [CommRing K] [Star K] {n : Nat} {x incX y incY : Int} {c s : K} {m : Mem K} {xv yv : Nat → K}
    (hx : VecAt m x incX n xv) (hy : VecAt m y incY n yv) (h1 : incX ≠ 0) (h2 : incY ≠ 0)
    (hd : VecDisj x incX n y incY n) :
    Yields2 (crot n x incX y incY c s) m x incX y incY n (fun i => c * xv i + s * yv i)
      fun i => c * yv i - star s * xv i :=
  yields2_of_over h1 h2 hd (fun _ => rfl) (fun _ => rfl) (crot_run hx hy h1 h2 hd)

/-- A memory for the examples: values at the addresses 0, …, 9, uninitialised cells at 10, …, 19. -/
def exMem : Mem Int := fun a => if 0 ≤ a ∧ a < 10 then .val (10 + a) else if 10 ≤ a ∧ a < 20 then .raw else .out

/-- Looking at the result of a routine, for the examples. -/
def peek {α β : Type} (r : Out (α × Mem K)) (g : α → Mem K → β) : Out β := r >>= fun p => .ok (g p.1 p.2)

/-- The hypotheses hold for a vector read backwards in steps of 2 and one written with step 3 in fresh memory. -/
example : VecAt exMem 1 (-2) 3 (fun i => 15 - 2 * (i : Int)) ∧ VecMem exMem 10 3 3 ∧ VecDisj 1 (-2) 3 10 3 3 := by
  refine ⟨fun i hi => ?_, fun i hi => ?_, fun i j hi hj => ?_⟩
  · interval_cases i <;> decide
  · interval_cases i <;> decide
  · interval_cases i <;> interval_cases j <;> decide

example : (peek (copy 3 1 (-2) 10 3 exMem) fun _ m => (m 10, m 13, m 16, m 11)) =
    .ok (.val 15, .val 13, .val 11, .raw) := by decide

/-! ### C72: reductions -/

/-- **C72** `dotu` and `dot`: the sums `Σ xᵢ yᵢ` and `Σ conj(xᵢ) yᵢ`; the memory is unchanged, any increments, also zero. -/
theorem C72_dot [CommRing K] [Star K] {n : Nat} {x incX y incY : Int} {m : Mem K} {xv yv : Nat → K}
    (hx : VecAt m x incX n xv) (hy : VecAt m y incY n yv) :
    dotu n x incX y incY m = .ok (∑ i ∈ Finset.range n, xv i * yv i, m) ∧
    dot n x incX y incY m = .ok (∑ i ∈ Finset.range n, star (xv i) * yv i, m) :=
  ⟨dotu_run hx hy, dot_run hx hy⟩

/-- **C72** `asum`: the sum of the sizes of the elements. -/
theorem C72_asum {T : Type} [AddCommMonoid T] {size : K → T} {n : Nat} {x incX : Int} {m : Mem K} {xv : Nat → K}
    (hx : VecAt m x incX n xv) : asum size n x incX m = .ok (∑ i ∈ Finset.range n, size (xv i), m) :=
  asum_run hx

/-- **C72** `iamax`: the first index of an element of largest size; -1 for the empty vector. -/
theorem C72_iamax {T : Type} [LinearOrder T] {size : K → T} {n : Nat} {x incX : Int} {m : Mem K} {xv : Nat → K}
    (hx : VecAt m x incX n xv) :
    (n = 0 → iamax size n x incX m = .ok (-1, m)) ∧
    (0 < n → ∃ k : Nat, iamax size n x incX m = .ok ((k : Int), m) ∧ k < n ∧ (∀ j, j < n → size (xv j) ≤ size (xv k)) ∧
      ∀ j, j < k → size (xv j) < size (xv k)) := by
  constructor
  · rintro rfl; rfl
  · intro hn
    obtain ⟨_, h2, h3, h4, _⟩ := argmax_spec (fun i => size (xv i)) n
    exact ⟨_, iamax_run hn hx, h4 hn, h2, h3⟩

example : peek (iamax Int.natAbs 3 1 (-2) exMem) (fun r _ => r) = .ok 0 ∧
    peek (dotu 2 0 1 4 (-4) exMem) (fun r _ => r) = .ok (10 * 18 + 11 * 14) := by decide

end Verif.Blas
