import Verif.Props.BlasTrmFl
import Mathlib.Analysis.Complex.Norm

/-!
# C167: vector operations and rank updates of BLAS in floating point

Updates of single elements take a fixed number of roundings, whatever the size; sums take one for each element.
-/

namespace Verif.Blas

open Finset Verif.Ieee

variable {f : Fmt}

/-! ### Single operations -/

theorem mul_err (a b : Fl f) : |(a * b).val - a.val * b.val| ≤ unitRoundoff f * |a.val * b.val| + halfTiny f := rnd_err f _

theorem add_err (a b : Fl f) : |(a + b).val - (a.val + b.val)| ≤ unitRoundoff f * |a.val + b.val| := rnd_add_err a.repr b.repr

/-- A sum of two numbers that are known with errors. -/
theorem add_err' (a b : Fl f) (p q : ℚ) :
    |(a + b).val - (p + q)| ≤ unitRoundoff f * (|p| + |q|) + (1 + unitRoundoff f) * (|a.val - p| + |b.val - q|) := by
  have h := add_err a b
  have hu := unit_pos f
  have e : (a + b).val - (p + q) = ((a + b).val - (a.val + b.val)) + ((a.val - p) + (b.val - q)) := by ring
  have h1 := abs_add_le ((a + b).val - (a.val + b.val)) ((a.val - p) + (b.val - q))
  have h2 := abs_add_le (a.val - p) (b.val - q)
  have h3 : |a.val + b.val| ≤ (|p| + |q|) + (|a.val - p| + |b.val - q|) := by
    have e : a.val + b.val = (p + q) + ((a.val - p) + (b.val - q)) := by ring
    rw [e]
    exact (abs_add_le _ _).trans (add_le_add (abs_add_le _ _) h2)
  have h4 := mul_le_mul_of_nonneg_left h3 hu.le
  rw [e]
  calc _ ≤ _ := h1
    _ ≤ unitRoundoff f * ((|p| + |q|) + (|a.val - p| + |b.val - q|)) + (|a.val - p| + |b.val - q|) := by linarith
    _ = _ := by ring

/-- `a b + c d` with three roundings. -/
theorem two_terms (a b c d : Fl f) : |(a * b + c * d).val - (a.val * b.val + c.val * d.val)| ≤
    ((1 + unitRoundoff f) ^ 2 - 1) * (|a.val * b.val| + |c.val * d.val|) + 2 * (1 + unitRoundoff f) * halfTiny f := by
  have h := add_err' (a * b) (c * d) (a.val * b.val) (c.val * d.val)
  have hu := unit_pos f
  have h1 := mul_err a b
  have h2 := mul_err c d
  have := mul_le_mul_of_nonneg_left (add_le_add h1 h2) (show 0 ≤ 1 + unitRoundoff f by linarith)
  calc _ ≤ _ := h
    _ ≤ unitRoundoff f * (|a.val * b.val| + |c.val * d.val|) + (1 + unitRoundoff f) *
        (unitRoundoff f * |a.val * b.val| + halfTiny f + (unitRoundoff f * |c.val * d.val| + halfTiny f)) := by linarith
    _ = _ := by ring

/-- `w + a b` with two roundings. -/
theorem one_term (w a b : Fl f) : |(w + a * b).val - (w.val + a.val * b.val)| ≤
    ((1 + unitRoundoff f) ^ 2 - 1) * (|w.val| + |a.val * b.val|) + (1 + unitRoundoff f) * halfTiny f := by
  have h := add_err' w (a * b) w.val (a.val * b.val)
  have hu := unit_pos f
  have h1 := mul_err a b
  rw [sub_self, abs_zero, zero_add] at h
  have := mul_le_mul_of_nonneg_left h1 (show 0 ≤ 1 + unitRoundoff f by linarith)
  have h3 : 0 ≤ unitRoundoff f * (1 + unitRoundoff f) * |w.val| :=
    mul_nonneg (mul_nonneg hu.le (by linarith)) (abs_nonneg _)
  calc _ ≤ _ := h
    _ ≤ unitRoundoff f * (|w.val| + |a.val * b.val|) + (1 + unitRoundoff f) * (unitRoundoff f * |a.val * b.val| + halfTiny f) := by linarith
    _ ≤ _ := by linarith [show ((1 + unitRoundoff f) ^ 2 - 1) * (|w.val| + |a.val * b.val|) + (1 + unitRoundoff f) * halfTiny f -
        (unitRoundoff f * (|w.val| + |a.val * b.val|) + (1 + unitRoundoff f) * (unitRoundoff f * |a.val * b.val| + halfTiny f)) =
        unitRoundoff f * (1 + unitRoundoff f) * |w.val| by ring]

section
variable {n : Nat} {x incX y incY : Int} {m : Mem (Fl f)} {xv yv : Nat → Fl f} {alpha : Fl f}

/-! ### Updates of vectors -/

/-- **C167** `axpy` in floating point: each element is `y + alpha x` up to two roundings, and up to one for `alpha = 1` and `alpha = -1`. -/
theorem C167_axpy (he : f.emin ≤ 0) (hx : VecAt m x incX n xv) (hy : VecAt m y incY n yv) (hi : incY ≠ 0)
    (hs : VecSafe x incX y incY n) : ∃ w, Yields (axpy n alpha x incX y incY) m y incY n w ∧ ∀ i, i < n →
      |(w i).val - ((yv i).val + alpha.val * (xv i).val)| ≤
        ((1 + unitRoundoff f) ^ 2 - 1) * (|(yv i).val| + |alpha.val * (xv i).val|) + (1 + unitRoundoff f) * halfTiny f ∧
      (alpha.val = 1 ∨ alpha.val = -1 → (w i).val = rnd f ((yv i).val + alpha.val * (xv i).val)) := by
  refine ⟨_, C71_axpy hx hy hi hs, fun i _ => ⟨one_term _ _ _, fun h => ?_⟩⟩
  show rnd f ((yv i).val + rnd f (alpha.val * (xv i).val)) = _
  have : Repr f (alpha.val * (xv i).val) := by
    rcases h with h | h
    · rw [h, one_mul]; exact (xv i).repr
    · rw [h, neg_one_mul]; exact repr_neg (xv i).repr
  rw [rnd_of_repr this]

/-- **C167** Subtracting a vector from itself gives zeros. -/
theorem C167_axpy_self (hx : VecAt m x incX n xv) (hi : incX ≠ 0) (ha : alpha.val = -1) :
    Yields (axpy n alpha x incX x incX) m x incX n fun _ => 0 := by
  have h := C71_axpy (alpha := alpha) hx hx hi (vecSafe_self hi)
  have e : (fun i => xv i + alpha * xv i) = fun _ => 0 := by
    funext i
    have e1 : (xv i + alpha * xv i).val = 0 := by
      show rnd f ((xv i).val + rnd f (alpha.val * (xv i).val)) = 0
      rw [ha, neg_one_mul, rnd_of_repr (repr_neg (xv i).repr), add_neg_cancel, rnd_of_repr (repr_zero f)]
    generalize xv i + alpha * xv i = z at *
    cases z
    cases e1
    rfl
  rwa [e] at h

/-- **C167** `scal` in floating point: each element is rounded once; a factor that is not negative keeps the order of the elements. -/
theorem C167_scal (hy : VecAt m y incY n yv) (hi : incY ≠ 0) : ∃ w, Yields (scal n alpha y incY) m y incY n w ∧
    (∀ i, i < n → (w i).val = rnd f (alpha.val * (yv i).val)) ∧
    (0 ≤ alpha.val → ∀ i j, (yv i).val ≤ (yv j).val → (w i).val ≤ (w j).val) := by
  refine ⟨fun i => yv i * alpha, yields_of_over hi (scal_run hy hi), fun i _ => ?_, fun ha i j h => ?_⟩
  · show rnd f ((yv i).val * alpha.val) = _
    rw [mul_comm]
  · exact rnd_mono (mul_le_mul_of_nonneg_right h ha)

/-! ### Rotations -/

/-- **C167** `rot` in floating point: each element is right up to two roundings of the magnitudes of its two terms. -/
theorem C167_rot {c s : Fl f} (hx : VecAt m x incX n xv) (hy : VecAt m y incY n yv) (h1 : incX ≠ 0) (h2 : incY ≠ 0)
    (hd : VecDisj x incX n y incY n) : ∃ v w, Yields2 (rot n x incX y incY c s) m x incX y incY n v w ∧ ∀ i, i < n →
      |(v i).val - (c.val * (xv i).val + s.val * (yv i).val)| ≤
        ((1 + unitRoundoff f) ^ 2 - 1) * (|c.val * (xv i).val| + |s.val * (yv i).val|) + 2 * (1 + unitRoundoff f) * halfTiny f ∧
      |(w i).val - (c.val * (yv i).val - s.val * (xv i).val)| ≤
        ((1 + unitRoundoff f) ^ 2 - 1) * (|c.val * (yv i).val| + |s.val * (xv i).val|) + 2 * (1 + unitRoundoff f) * halfTiny f := by
  refine ⟨_, _, yields2_of_over h1 h2 hd (fun _ => rfl) (fun _ => rfl) (rot_run hx hy h1 h2 hd), fun i _ => ⟨two_terms _ _ _ _, ?_⟩⟩
  have h := two_terms (-s) (xv i) c (yv i)
  have e : (-s).val = -s.val := rfl
  rw [e, neg_mul, abs_neg] at h
  rw [show c.val * (yv i).val - s.val * (xv i).val = -(s.val * (xv i).val) + c.val * (yv i).val by ring,
    add_comm |c.val * (yv i).val|]
  exact h

/-- **C167** `rot` keeps the length of each pair as far as `(c, s)` has length one, up to two roundings. -/
theorem C167_rot_length {c s : Fl f} (hx : VecAt m x incX n xv) (hy : VecAt m y incY n yv) (h1 : incX ≠ 0) (h2 : incY ≠ 0)
    (hd : VecDisj x incX n y incY n) : ∃ v w, Yields2 (rot n x incX y incY c s) m x incX y incY n v w ∧ ∀ i, i < n →
      |√(((v i).val : ℝ) ^ 2 + ((w i).val : ℝ) ^ 2) - √((c.val : ℝ) ^ 2 + (s.val : ℝ) ^ 2) * √(((xv i).val : ℝ) ^ 2 + ((yv i).val : ℝ) ^ 2)| ≤
        (((1 + unitRoundoff f) ^ 2 - 1) * ((|c.val| + |s.val|) * (|(xv i).val| + |(yv i).val|)) +
          4 * (1 + unitRoundoff f) * halfTiny f : ℚ) := by
  obtain ⟨v, w, h, hb⟩ := C167_rot (c := c) (s := s) hx hy h1 h2 hd
  refine ⟨v, w, h, fun i hi => ?_⟩
  obtain ⟨b1, b2⟩ := hb i hi
  have key : |(v i).val - (c.val * (xv i).val + s.val * (yv i).val)| + |(w i).val - (c.val * (yv i).val - s.val * (xv i).val)| ≤
      ((1 + unitRoundoff f) ^ 2 - 1) * ((|c.val| + |s.val|) * (|(xv i).val| + |(yv i).val|)) + 4 * (1 + unitRoundoff f) * halfTiny f := by
    refine (add_le_add b1 b2).trans (le_of_eq ?_)
    simp only [abs_mul]
    ring
  have keyR : ((|(v i).val - (c.val * (xv i).val + s.val * (yv i).val)| + |(w i).val - (c.val * (yv i).val - s.val * (xv i).val)| : ℚ) : ℝ) ≤ _ :=
    Rat.cast_le.2 key
  refine le_trans ?_ keyR
  have nrm : ∀ a b : ℝ, ‖(⟨a, b⟩ : ℂ)‖ = √(a ^ 2 + b ^ 2) := fun a b => by rw [Complex.norm_def, Complex.normSq_mk]; ring_nf
  have e : √((c.val : ℝ) ^ 2 + (s.val : ℝ) ^ 2) * √(((xv i).val : ℝ) ^ 2 + ((yv i).val : ℝ) ^ 2) =
      ‖(⟨c.val * (xv i).val + s.val * (yv i).val, c.val * (yv i).val - s.val * (xv i).val⟩ : ℂ)‖ := by
    rw [nrm, ← Real.sqrt_mul (by positivity)]
    congr 1
    ring
  rw [e, ← nrm]
  refine (abs_norm_sub_norm_le _ _).trans ((Complex.norm_le_abs_re_add_abs_im _).trans (le_of_eq ?_))
  simp only [Complex.sub_re, Complex.sub_im]
  push_cast
  rfl

/-! ### Sums -/

/-- **C167** `dotu` and `dot` in floating point: the sum is right up to one rounding for each element of the sum of the magnitudes, the memory is
unchanged, and the order of the two vectors does not matter. -/
theorem C167_dot (hx : VecAt m x incX n xv) (hy : VecAt m y incY n yv) : ∃ r : Fl f,
    dotu n x incX y incY m = .ok (r, m) ∧ dot n x incX y incY m = .ok (r, m) ∧ dotu n y incY x incX m = .ok (r, m) ∧
    |r.val - ∑ i ∈ range n, (xv i).val * (yv i).val| ≤
      ((1 + unitRoundoff f) ^ n - 1) * ∑ i ∈ range n, |(xv i).val * (yv i).val| + n * (1 + unitRoundoff f) ^ n * halfTiny f := by
  have hx' : ∀ i, i < n → m (start n x incX + i * incX) = .val (xv i) := fun i hi => by rw [start_elem]; exact hx i hi
  have hy' : ∀ i, i < n → m (start n y incY + i * incY) = .val (yv i) := fun i hi => by rw [start_elem]; exact hy i hi
  refine ⟨dotL n xv yv, dotC_fold (c := false) hx' hy', dotC_fold (c := true) hx' hy', ?_, dotL_error _ _ _⟩
  have := dotC_fold (c := false) hy' hx'
  have e : ∀ k, dotL k (fun i => cj false (yv i)) xv = dotL k xv yv := by
    intro k
    induction k with
    | zero => rfl
    | succ k ih =>
      rw [dotL_succ, dotL_succ, ih]
      have : cj false (yv k) * xv k = xv k * yv k := by
        show Fl.round f _ = Fl.round f _
        rw [mul_comm]; rfl
      rw [this]
  rw [e] at this
  exact this

/-- `abs(real(x)) + abs(imag(x))` of a floating-point number, level1/asum.tcc 41-57: the magnitude. -/
def flAbs (a : Fl f) : Fl f := ⟨|a.val|, by
  rcases abs_choice a.val with h | h
  · rw [h]; exact a.repr
  · rw [h]; exact repr_neg a.repr⟩

/-- The sum the loop forms. -/
def asumL (xv : Nat → Fl f) : Nat → Fl f
  | 0 => 0
  | k + 1 => asumL xv k + flAbs (xv k)

theorem asumL_error (xv : Nat → Fl f) (k : Nat) : |(asumL xv k).val - (∑ i ∈ range k, |(xv i).val|)| ≤
    ((1 + unitRoundoff f) ^ k - 1) * ∑ i ∈ range k, |(xv i).val| := by
  induction k with
  | zero => simp [asumL, val_zero]
  | succ k ih =>
    have hu := unit_pos f
    have h := add_err' (asumL xv k) (flAbs (xv k)) (∑ i ∈ range k, |(xv i).val|) |(xv k).val|
    have e : (flAbs (xv k)).val - |(xv k).val| = 0 := sub_self _
    rw [e, abs_zero, add_zero, abs_of_nonneg (sum_nonneg fun i _ => abs_nonneg (xv i).val), abs_abs] at h
    rw [sum_range_succ]
    have h2 := mul_le_mul_of_nonneg_left ih (show 0 ≤ 1 + unitRoundoff f by linarith)
    have h3 : 0 ≤ ((1 + unitRoundoff f) ^ (k + 1) - (1 + unitRoundoff f)) * |(xv k).val| := by
      refine mul_nonneg ?_ (abs_nonneg _)
      rw [pow_succ]
      have := one_le_pow_unit f k
      nlinarith
    calc _ ≤ _ := h
      _ ≤ unitRoundoff f * (∑ i ∈ range k, |(xv i).val| + |(xv k).val|) +
          (1 + unitRoundoff f) * (((1 + unitRoundoff f) ^ k - 1) * ∑ i ∈ range k, |(xv i).val|) := by linarith
      _ ≤ _ := by
        linarith [show ((1 + unitRoundoff f) ^ (k + 1) - 1) * (∑ i ∈ range k, |(xv i).val| + |(xv k).val|) -
          (unitRoundoff f * (∑ i ∈ range k, |(xv i).val| + |(xv k).val|) +
            (1 + unitRoundoff f) * (((1 + unitRoundoff f) ^ k - 1) * ∑ i ∈ range k, |(xv i).val|)) =
          ((1 + unitRoundoff f) ^ (k + 1) - (1 + unitRoundoff f)) * |(xv k).val| by ring]

theorem asumL_ge (xv : Nat → Fl f) (k : Nat) : 0 ≤ (asumL xv k).val ∧ ∀ i, i < k → |(xv i).val| ≤ (asumL xv k).val := by
  induction k with
  | zero => exact ⟨le_refl _, fun i hi => by omega⟩
  | succ k ih =>
    have h1 : (asumL xv k).val ≤ (asumL xv (k + 1)).val := by
      have := rnd_mono (f := f) (show (asumL xv k).val ≤ (asumL xv k).val + |(xv k).val| by linarith [abs_nonneg (xv k).val])
      rw [rnd_of_repr (asumL xv k).repr] at this
      exact this
    have h2 : |(xv k).val| ≤ (asumL xv (k + 1)).val := by
      have := rnd_mono (f := f) (show |(xv k).val| ≤ (asumL xv k).val + |(xv k).val| by linarith [ih.1])
      rw [rnd_of_repr (show Repr f |(xv k).val| from (flAbs (xv k)).repr)] at this
      exact this
    refine ⟨ih.1.trans h1, fun i hi => ?_⟩
    rcases Nat.lt_or_ge i k with h | h
    · exact (ih.2 i h).trans h1
    · rw [show i = k by omega]; exact h2

/-- **C167** `asum` in floating point: right up to one rounding for each element, and never less than the magnitude of an element, so zero only
for zeros. Nothing is lost below the normal range. -/
theorem C167_asum (hx : VecAt m x incX n xv) : ∃ r : Fl f, asum flAbs n x incX m = .ok (r, m) ∧
    |r.val - (∑ i ∈ range n, |(xv i).val|)| ≤ ((1 + unitRoundoff f) ^ n - 1) * ∑ i ∈ range n, |(xv i).val| ∧
    (∀ i, i < n → |(xv i).val| ≤ r.val) ∧ (r.val = 0 ↔ ∀ i, i < n → (xv i).val = 0) := by
  refine ⟨asumL xv n, ?_, asumL_error xv n, (asumL_ge xv n).2, fun h i hi => ?_, fun h => ?_⟩
  · unfold asum
    refine fold_trace (fun i r => do
      let v ← load (start n x incX + i * incX)
      pure (r + flAbs v)) (fun k => asumL xv k) m n fun i hi => ?_
    rw [start_elem, bind_ok (load_ok (hx i hi))]
    rfl
  · have := (asumL_ge xv n).2 i hi
    rw [h] at this
    exact abs_eq_zero.1 (le_antisymm this (abs_nonneg _))
  · have h1 := asumL_error xv n
    have h2 : ∑ i ∈ range n, |(xv i).val| = 0 := sum_eq_zero fun i hi => by rw [h i (mem_range.1 hi), abs_zero]
    rw [h2, mul_zero, sub_zero] at h1
    exact abs_eq_zero.1 (le_antisymm h1 (abs_nonneg _))

end

/-! ### Rank updates -/

section
variable {o : Order} {alpha : Fl f} {A ld x incX y incY : Int} {m : Mem (Fl f)} {Q : Nat → Nat → Fl f} {xv yv : Nat → Fl f} {r k : Nat}

theorem geruRow_ops (hA : MatAt m A .rowMajor ld (full r k) Q) (hx : VecAt m x incX r xv) (hy : VecAt m y incY k yv)
    (hld : LdOk .rowMajor ld r k) (hdx : MatVecDisj A .rowMajor ld (full r k) x incX r) (hdy : MatVecDisj A .rowMajor ld (full r k) y incY k) :
    YieldsMat (geruRow r k alpha (start r x incX) incX (start k y incY) incY A ld) m A .rowMajor ld (full r k)
      fun i j => Q i j + alpha * xv i * yv j := by
  rw [full_rows] at hA hdx hdy
  have hk : (k : Int) ≤ ld := hld
  have := rank1_run (c := false) (g := fun v => alpha * v) (fun i _ => by simpa using hk) hA hx hy
    (Nat.le_refl _) (fun i _ => by simp) hdx hdy (fun i => do
      let v ← load (start r x incX + i * incX)
      axpyGeneric k (alpha * v) (start k y incY) incY (A + i * ld) 1) (fun i _ => by simp [axpyC])
  rw [← full_rows] at this
  exact yieldsMat_row (ldOk_full hld) this fun i j _ => rfl

/-- Three roundings of one element. -/
theorem rank_err (w a b c : Fl f) : |(w + a * b * c).val - (w.val + a.val * (b.val * c.val))| ≤
    ((1 + unitRoundoff f) ^ 3 - 1) * (|w.val| + |a.val * (b.val * c.val)|) + (1 + unitRoundoff f) ^ 2 * (|c.val| + 1) * halfTiny f := by
  have hu := unit_pos f
  have ht := tiny_pos f
  have h := add_err' w (a * b * c) w.val (a.val * (b.val * c.val))
  rw [sub_self, abs_zero, zero_add] at h
  have h1 := mul_err (a * b) c
  have h2 := mul_err a b
  have e1 : |(a * b).val * c.val - a.val * (b.val * c.val)| ≤ (unitRoundoff f * |a.val * b.val| + halfTiny f) * |c.val| := by
    rw [show (a * b).val * c.val - a.val * (b.val * c.val) = ((a * b).val - a.val * b.val) * c.val by ring, abs_mul]
    exact mul_le_mul_of_nonneg_right h2 (abs_nonneg _)
  have e2 : |(a * b).val * c.val| ≤ |a.val * (b.val * c.val)| + |(a * b).val * c.val - a.val * (b.val * c.val)| := by
    have := abs_add_le (a.val * (b.val * c.val)) ((a * b).val * c.val - a.val * (b.val * c.val))
    rwa [add_sub_cancel] at this
  have e3 : |a.val * b.val| * |c.val| = |a.val * (b.val * c.val)| := by rw [← abs_mul, mul_assoc]
  have e4 : |(a * b * c).val - a.val * (b.val * c.val)| ≤
      |(a * b * c).val - (a * b).val * c.val| + |(a * b).val * c.val - a.val * (b.val * c.val)| := abs_sub_le _ _ _
  generalize hU : unitRoundoff f = U at *
  generalize hT : halfTiny f = T at *
  generalize hP : |a.val * (b.val * c.val)| = P at *
  generalize hC : |c.val| = C at *
  have hC0 : 0 ≤ C := by rw [← hC]; exact abs_nonneg _
  have hP0 : 0 ≤ P := by rw [← hP]; exact abs_nonneg _
  have hW0 : 0 ≤ |w.val| := abs_nonneg _
  have e5 : |(a * b).val * c.val - a.val * (b.val * c.val)| ≤ U * P + T * C := by
    refine e1.trans (le_of_eq ?_)
    rw [add_mul, mul_assoc, e3]
  have e6 : U * |(a * b).val * c.val| ≤ U * (P + (U * P + T * C)) := mul_le_mul_of_nonneg_left (by linarith) hu.le
  have e7 : |(a * b * c).val - a.val * (b.val * c.val)| ≤ U * (P + (U * P + T * C)) + T + (U * P + T * C) := by linarith
  have e8 := mul_le_mul_of_nonneg_left e7 (show 0 ≤ 1 + U by linarith)
  have h9 : 0 ≤ ((1 + U) ^ 3 - (1 + U)) * |w.val| := by
    refine mul_nonneg ?_ hW0
    rw [show (1 + U) ^ 3 - (1 + U) = (1 + U) * (U * (2 + U)) by ring]
    have := hu.le
    positivity
  have h10 : 0 ≤ (1 + U) * U * T := by have := hu.le; have := ht.le; positivity
  calc _ ≤ _ := h
    _ ≤ U * (|w.val| + P) + (1 + U) * (U * (P + (U * P + T * C)) + T + (U * P + T * C)) := by linarith
    _ ≤ _ := by
      linarith [show ((1 + U) ^ 3 - 1) * (|w.val| + P) + (1 + U) ^ 2 * (C + 1) * T -
        (U * (|w.val| + P) + (1 + U) * (U * (P + (U * P + T * C)) + T + (U * P + T * C))) =
        ((1 + U) ^ 3 - (1 + U)) * |w.val| + (1 + U) * U * T by ring]

/-- **C167** `geru` (and `ger`) in floating point: `A := A + alpha x yᵀ`, each element up to three roundings; `alpha` is multiplied first with `x`
for row-major matrices, and with `y` for column-major ones. -/
theorem C167_ger (hA : MatAt m A o ld (full r k) Q) (hx : VecAt m x incX r xv) (hy : VecAt m y incY k yv)
    (hld : LdOk o ld r k) (hdx : MatVecDisj A o ld (full r k) x incX r) (hdy : MatVecDisj A o ld (full r k) y incY k) :
    ∃ W, YieldsMat (geru o r k alpha x incX y incY A ld) m A o ld (full r k) W ∧ ∀ i j, full r k i j →
      W i j = (match o with
        | .rowMajor => Q i j + alpha * xv i * yv j
        | .colMajor => Q i j + alpha * yv j * xv i) ∧
      |(W i j).val - ((Q i j).val + alpha.val * ((xv i).val * (yv j).val))| ≤
        ((1 + unitRoundoff f) ^ 3 - 1) * (|(Q i j).val| + |alpha.val * ((xv i).val * (yv j).val)|) +
        (1 + unitRoundoff f) ^ 2 * (max |(xv i).val| |(yv j).val| + 1) * halfTiny f := by
  have mono : ∀ C D : ℚ, C ≤ D → (1 + unitRoundoff f) ^ 2 * (C + 1) * halfTiny f ≤ (1 + unitRoundoff f) ^ 2 * (D + 1) * halfTiny f := by
    intro C D h
    have := (unit_pos f).le
    exact mul_le_mul_of_nonneg_right (mul_le_mul_of_nonneg_left (by linarith) (by positivity)) (tiny_pos f).le
  cases o
  swap
  · rw [matAt_col, sw_full] at hA
    rw [matVecDisj_col, sw_full] at hdx hdy
    refine ⟨fun i j => Q i j + alpha * yv j * xv i, yieldsMat_col ?_, fun i j _ => ⟨rfl, ?_⟩⟩
    · rw [sw_full]
      exact geruRow_ops hA hy hx hld hdy hdx
    · have h := rank_err (Q i j) alpha (yv j) (xv i)
      rw [mul_comm (yv j).val] at h
      exact h.trans (by linarith [mono _ _ (le_max_left |(xv i).val| |(yv j).val|)])
  · exact ⟨_, geruRow_ops hA hx hy hld hdx hdy, fun i j _ => ⟨rfl, (rank_err _ _ _ _).trans
      (by linarith [mono _ _ (le_max_right |(xv i).val| |(yv j).val|)])⟩⟩

end

/-! ### Examples -/

/-- A 2x2 matrix of zeros at 0 and the vectors `v` at 10 and `w` at 20. -/
def exVecFl (v w : Nat → ℚ) : Mem (Fl binary64) := fun p =>
  if 0 ≤ p ∧ p < 4 then .val 0 else if 10 ≤ p ∧ p < 13 then .val (.round _ (v (p - 10).toNat))
  else if 20 ≤ p ∧ p < 23 then .val (.round _ (w (p - 20).toNat)) else .out

/-- The hypotheses of the theorems hold. -/
theorem exVecFl_ok (v w : Nat → ℚ) : VecAt (exVecFl v w) 10 1 3 (fun i => .round _ (v i)) ∧ VecAt (exVecFl v w) 20 1 3 (fun i => .round _ (w i)) ∧
    VecDisj 10 1 3 20 1 3 ∧ MatAt (exVecFl v w) 0 .rowMajor 2 (full 2 2) (fun _ _ => 0) ∧ MatVecDisj 0 .rowMajor 2 (full 2 2) 10 1 2 := by
  refine ⟨fun i h => ?_, fun i h => ?_, fun i j h hj => ?_, fun i j h => ?_, fun i j k h hk => ?_⟩
  · interval_cases i <;> rfl
  · interval_cases i <;> rfl
  · interval_cases i <;> interval_cases j <;> decide
  · obtain ⟨h1, h2⟩ := h
    interval_cases i <;> interval_cases j <;> rfl
  · obtain ⟨h1, h2⟩ := h
    interval_cases i <;> interval_cases j <;> interval_cases k <;> decide

/-- **C167** The sum depends on the direction in which the vectors are read: `1 + 2^-53 + 2^-53` is `1` forwards and exact backwards. -/
theorem C167_direction :
    peek (dotu 3 10 1 20 1 (exVecFl (fun i => if i = 0 then 1 else 1 / 2 ^ 53) fun _ => 1)) (fun r _ => r) = .ok (.round binary64 1) ∧
    peek (dotu 3 10 (-1) 20 (-1) (exVecFl (fun i => if i = 0 then 1 else 1 / 2 ^ 53) fun _ => 1)) (fun r _ => r) =
      .ok (.round binary64 (1 + 1 / 2 ^ 52)) := by
  refine ⟨by decide +kernel, by decide +kernel⟩

/-- **C167** `ger` with `x` on both sides does not keep a matrix symmetric: with `alpha = 1/10` and `x = (3, 11)`, the two elements beside the diagonal
differ. -/
theorem C167_ger_symmetric :
    ∃ a b, peek (geru .rowMajor 2 2 (.round binary64 (1 / 10)) 10 1 10 1 0 2 (exVecFl (fun i => if i = 0 then 3 else 11) fun _ => 0))
      (fun _ m => (m 1, m 2)) = .ok (.val a, .val b) ∧ a ≠ b := by
  refine ⟨.round binary64 (rnd binary64 (rnd binary64 (1 / 10) * 3) * 11), .round binary64 (rnd binary64 (rnd binary64 (1 / 10) * 11) * 3), by decide +kernel,
    by decide +kernel⟩

end Verif.Blas
