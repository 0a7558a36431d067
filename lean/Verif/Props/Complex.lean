import Verif.Model.Complex
import Mathlib.Data.Complex.Basic
import Mathlib.Tactic.Linarith
import Mathlib.Tactic.FieldSimp
import Mathlib.Tactic.Ring
import Mathlib.Tactic.Positivity

/-!
# C51: complex arithmetic

`math/complex.hpp`. The specification is Mathlib's field of complex numbers.
-/

namespace Verif.Cx

noncomputable section

/-- The complex number a `Complex<T>` stands for. -/
def toC (z : Cx ℝ) : ℂ := ⟨z.re, z.im⟩

theorem toC_inj {z w : Cx ℝ} (h : toC z = toC w) : z = w := by
  cases z; cases w
  have h1 := congrArg Complex.re h
  have h2 := congrArg Complex.im h
  exact congr (congrArg _ h1) h2

theorem toC_eq_zero {w : Cx ℝ} : toC w = 0 ↔ w.re = 0 ∧ w.im = 0 := by
  rw [Complex.ext_iff]; rfl

theorem div_re_im {a b : ℂ} (hb : b ≠ 0) (x y : ℝ) (h1 : x * b.re - y * b.im = a.re) (h2 : x * b.im + y * b.re = a.im) :
    (⟨x, y⟩ : ℂ) = a / b := by
  rw [eq_div_iff hb]
  apply Complex.ext
  · rw [Complex.mul_re]; exact h1
  · rw [Complex.mul_im]; exact h2

theorem absT_eq (x : ℝ) : absT x = |x| := by
  unfold absT
  split
  · rename_i h; rw [abs_of_neg h]
  · rename_i h; rw [abs_of_nonneg (not_lt.1 h)]

/-- The division of the code is the division of complex numbers; a zero divisor gives no number. -/
theorem divAssign_eq (w : CRef ℝ) (z : Cx ℝ) :
    (divAssign rdiv w z).map toC = if toC (w.get z) = 0 then none else some (toC z / toC (w.get z)) := by
  generalize hw : w.get z = v
  unfold divAssign
  rw [hw]
  obtain ⟨c, d⟩ := v
  simp only [absT_eq]
  by_cases h1 : |d| < |c|
  · have hc : c ≠ 0 := by rintro rfl; simp at h1; linarith [abs_nonneg d]
    have hne : toC ⟨c, d⟩ ≠ 0 := fun h => hc (toC_eq_zero.1 h).1
    have hwd : c + d / c * d ≠ 0 := by
      intro h
      have : c * c + d * d = 0 := by field_simp at h; nlinarith
      have : c = 0 := by nlinarith [mul_self_nonneg c, mul_self_nonneg d]
      exact hc this
    rw [if_pos h1, if_neg hne]
    unfold divByReal rdiv
    simp only [hc, hwd, if_false, Option.bind_eq_bind, Option.bind_some, Option.pure_def, Option.map_some]
    refine congrArg some (div_re_im hne _ _ ?_ ?_)
    · show _ * c - _ * d = z.re
      field_simp
      ring
    · show _ * d + _ * c = z.im
      field_simp
      ring
  · rw [if_neg h1]
    by_cases hd : d = 0
    · subst hd
      have hc : c = 0 := by simpa using h1
      subst hc
      rw [if_pos rfl, if_pos (toC_eq_zero.2 ⟨rfl, rfl⟩)]
      rfl
    · have hne : toC ⟨c, d⟩ ≠ 0 := fun h => hd (toC_eq_zero.1 h).2
      have hwd : d + c / d * c ≠ 0 := by
        intro h
        have : d * d + c * c = 0 := by field_simp at h; nlinarith
        have : d = 0 := by nlinarith [mul_self_nonneg c, mul_self_nonneg d]
        exact hd this
      rw [if_neg hd, if_neg hne]
      unfold divByImag rdiv
      simp only [hd, hwd, if_false, Option.bind_eq_bind, Option.bind_some, Option.pure_def, Option.map_some]
      refine congrArg some (div_re_im hne _ _ ?_ ?_)
      · show _ * c - _ * d = z.re
        field_simp
        ring
      · show _ * d + _ * c = z.im
        field_simp
        ring

theorem divAssignS_val (x : ℝ) (z : Cx ℝ) :
    (divAssignS rdiv (.val x) z).map toC = if x = 0 then none else some (toC z / x) := by
  unfold divAssignS rdiv
  by_cases h : x = 0
  · simp [Ref.get, h]
  · simp only [Ref.get, h, if_false, Option.bind_eq_bind, Option.bind_some, Option.pure_def, Option.map_some]
    refine congrArg some (div_re_im (by exact_mod_cast h) _ _ ?_ ?_)
    · simp [toC, h]
    · simp [toC, h]

/-- **C51 (operators).** The binary operators, mixed with scalars or not, are those of the complex numbers; dividing by zero gives no
number. (The scalar operand of a binary operator is a copy or another object: `tmp` is new.) -/
theorem C51_binary_partial (l r : Cx ℝ) (x : ℝ) :
    toC (add l r) = toC l + toC r ∧ toC (sub l r) = toC l - toC r ∧ toC (mul l r) = toC l * toC r ∧
    (div rdiv l r).map toC = (if toC r = 0 then none else some (toC l / toC r)) ∧
    toC (addS l x) = toC l + x ∧ toC (sAdd x r) = x + toC r ∧ toC (subS l x) = toC l - x ∧ toC (sSub x r) = x - toC r ∧
    toC (mulS l x) = toC l * x ∧ toC (sMul x r) = x * toC r ∧
    (divS rdiv l x).map toC = (if x = 0 then none else some (toC l / x)) ∧
    (sDiv rdiv x r).map toC = (if toC r = 0 then none else some (x / toC r)) ∧ toC (neg l) = -toC l := by
  refine ⟨?_, ?_, ?_, divAssign_eq (.val r) l, ?_, ?_, ?_, ?_, ?_, ?_, divAssignS_val x l, divAssign_eq (.val r) (ctor1 x), ?_⟩
  all_goals
    apply Complex.ext <;>
      simp [toC, add, sub, mul, addS, sAdd, subS, sSub, mulS, sMul, neg, addAssign, subAssign, mulAssign, subAssignS, mulAssignS,
        Ref.get, CRef.get, ctor1, ctor2]

/-- The property for the in-place operators and assignments: whatever the argument refers to. -/
def C51Claim : Prop :=
  (∀ (x : Ref ℝ) (z : Cx ℝ), toC (addAssignS x z) = toC z + (x.get z : ℝ) ∧ toC (subAssignS x z) = toC z - (x.get z : ℝ) ∧
    toC (mulAssignS x z) = toC z * (x.get z : ℝ) ∧
    (divAssignS rdiv x z).map toC = (if x.get z = 0 then none else some (toC z / (x.get z : ℝ))) ∧
    toC (assignS x z) = (x.get z : ℝ)) ∧
  (∀ (w : CRef ℝ) (z : Cx ℝ), toC (addAssign w z) = toC z + toC (w.get z) ∧ toC (subAssign w z) = toC z - toC (w.get z) ∧
    toC (mulAssign w z) = toC z * toC (w.get z) ∧
    (divAssign rdiv w z).map toC = (if toC (w.get z) = 0 then none else some (toC z / toC (w.get z))) ∧
    assign w z = w.get z) ∧
  (∀ (w z : Cx ℝ), toC (assignFrom id w z) = toC w)

/-- **C51 (disproved).** `z *= z.real()` and `z /= z.real()` use the already changed component, and assignment from a complex number of
another component type copies the real part twice. -/
theorem C51_false : ¬ C51Claim ∧ mulAssignS .re (⟨2, 1⟩ : Cx ℝ) = ⟨4, 4⟩ ∧ divAssignS rdiv .re (⟨2, 1⟩ : Cx ℝ) = some ⟨1, 1⟩ ∧
    (∀ w z : Cx ℝ, assignFrom id w z = ⟨w.re, w.re⟩) := by
  refine ⟨fun h => ?_, ?_, ?_, fun w z => rfl⟩
  · have := congrArg Complex.im (h.2.2 ⟨0, 1⟩ ⟨0, 0⟩)
    simp [toC, assignFrom] at this
  · unfold mulAssignS Ref.get
    apply Cx.ext <;> norm_num
  · unfold divAssignS rdiv Ref.get
    norm_num

/-- **C51 (aliasing, exactly).** `z *= z.real()` multiplies the imaginary part by the square of the real part, and is right only if one of
the parts vanishes or the real part is 1; `z /= z.real()` leaves the imaginary part unchanged. -/
theorem C51_alias (z : Cx ℝ) :
    (toC (mulAssignS .re z) = toC z * (z.re : ℝ) ↔ z.im = 0 ∨ z.re = 0 ∨ z.re = 1) ∧
    (z.re ≠ 0 → ((divAssignS rdiv .re z).map toC = some (toC z / (z.re : ℝ)) ↔ z.im = 0 ∨ z.re = 1)) := by
  refine ⟨?_, fun h => ?_⟩
  · rw [Complex.ext_iff]
    simp only [mulAssignS, Ref.get, toC, Complex.mul_re, Complex.mul_im, Complex.ofReal_re, Complex.ofReal_im, mul_zero, sub_zero,
      zero_add, true_and]
    constructor
    · intro hh
      have : z.im * (z.re * (z.re - 1)) = 0 := by linarith
      rcases mul_eq_zero.1 this with h | h
      · exact Or.inl h
      · rcases mul_eq_zero.1 h with h | h
        · exact Or.inr (Or.inl h)
        · exact Or.inr (Or.inr (by linarith))
    · rintro (h | h | h) <;> rw [h] <;> ring
  · have e : (divAssignS rdiv .re z).map toC = some ⟨1, z.im⟩ := by
      unfold divAssignS rdiv Ref.get
      simp [h, toC]
    rw [e, Option.some.injEq, eq_div_iff (by exact_mod_cast h), Complex.ext_iff]
    simp only [toC, Complex.mul_re, Complex.mul_im, Complex.ofReal_re, Complex.ofReal_im, mul_zero, sub_zero, zero_add, one_mul,
      true_and]
    constructor
    · intro hh
      have : z.im * (z.re - 1) = 0 := by linarith
      rcases mul_eq_zero.1 this with h | h
      · exact Or.inl h
      · exact Or.inr (by linarith)
    · rintro (h | h) <;> rw [h] <;> ring

/-- **C51 (partial, in-place).** Everything in the property except `*=` and `/=` with the target's own real part, and the converting
assignment. In particular all in-place operators with complex operands are right when the operand is the target. -/
theorem C51_inplace_partial :
    (∀ (x : Ref ℝ) (z : Cx ℝ), toC (addAssignS x z) = toC z + (x.get z : ℝ) ∧ toC (subAssignS x z) = toC z - (x.get z : ℝ) ∧
      toC (assignS x z) = (x.get z : ℝ)) ∧
    (∀ (x : Ref ℝ) (z : Cx ℝ), x ≠ .re → toC (mulAssignS x z) = toC z * (x.get z : ℝ) ∧
      (divAssignS rdiv x z).map toC = (if x.get z = 0 then none else some (toC z / (x.get z : ℝ)))) ∧
    (∀ (w : CRef ℝ) (z : Cx ℝ), toC (addAssign w z) = toC z + toC (w.get z) ∧ toC (subAssign w z) = toC z - toC (w.get z) ∧
      toC (mulAssign w z) = toC z * toC (w.get z) ∧
      (divAssign rdiv w z).map toC = (if toC (w.get z) = 0 then none else some (toC z / toC (w.get z))) ∧
      assign w z = w.get z) ∧
    (∀ w z : Cx ℝ, toC (assignFrom id w z) = toC w ↔ w.re = w.im) ∧
    (∀ w : Cx ℝ, toC (ctorFrom id w) = toC w) := by
  refine ⟨fun x z => ⟨?_, ?_, ?_⟩, fun x z hx => ⟨?_, ?_⟩, fun w z => ⟨?_, ?_, ?_, divAssign_eq w z, ?_⟩, fun w z => ?_, fun w => rfl⟩
  · apply Complex.ext <;> simp [toC, addAssignS]
  · apply Complex.ext <;> simp [toC, subAssignS]
  · apply Complex.ext <;> simp [toC, assignS]
  · cases x with
    | re => exact absurd rfl hx
    | val v => apply Complex.ext <;> simp [toC, mulAssignS, Ref.get]
    | im => apply Complex.ext <;> simp [toC, mulAssignS, Ref.get]
  · cases x with
    | re => exact absurd rfl hx
    | val v => exact divAssignS_val v z
    | im =>
      have : divAssignS rdiv .im z = divAssignS rdiv (.val z.im) z := rfl
      rw [this, divAssignS_val]
      rfl
  · cases w <;> apply Complex.ext <;> simp [toC, addAssign, CRef.get]
  · cases w <;> apply Complex.ext <;> simp [toC, subAssign, CRef.get]
  · cases w <;> apply Complex.ext <;> simp [toC, mulAssign, CRef.get]
  · cases w <;> simp [assign, CRef.get]
  · rw [Complex.ext_iff]
    simp [toC, assignFrom]

end

/-- **C51 (integral components).** `Complex<int>` division truncates in the middle of the computation: (5+5i)/(2+i) is 3+i exactly,
the code gives 2+2i. -/
theorem C51_integer_false :
    mul (⟨3, 1⟩ : Cx ℤ) ⟨2, 1⟩ = ⟨5, 5⟩ ∧ div idiv (⟨5, 5⟩ : Cx ℤ) ⟨2, 1⟩ = some ⟨2, 2⟩ := by decide

/-- **C51 (comparison).** -/
theorem C51_eq (l r : Cx ℝ) [DecidableEq ℝ] (x : ℝ) : (beq l r = true ↔ toC l = toC r) ∧ (beqS l x = true ↔ toC l = x) := by
  constructor
  · rw [Complex.ext_iff]; simp [beq, toC]
  · rw [Complex.ext_iff]; simp [beqS, toC]

end Verif.Cx
