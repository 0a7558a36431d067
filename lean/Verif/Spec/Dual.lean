import Verif.Model.Dual
import Mathlib.Analysis.Calculus.Deriv.Basic
import Mathlib.Analysis.Calculus.FDeriv.Prod

/-!
# What an expression of dual numbers denotes

The ordinary value of an expression, computed with the partial real functions alone, and differentiability of every
operation in it.
-/

namespace Verif.DualM

open Filter Topology

noncomputable section

/-- The real function of that name, where it is defined. -/
def Fn.val : Fn → ℝ → Option ℝ
  | .neg => fun x => some (-x) | .pos => fun x => some x
  | .sin => fun x => some (Real.sin x) | .cos => fun x => some (Real.cos x) | .tan => cTan
  | .asin => cAsin | .acos => cAcos | .atan => fun x => some (Real.arctan x)
  | .sinh => fun x => some (Real.sinh x) | .cosh => fun x => some (Real.cosh x)
  | .tanh => fun x => some (Real.tanh x) | .asinh => fun x => some (Real.arsinh x)
  | .acosh => cAcosh | .atanh => cAtanh
  | .exp => fun x => some (Real.exp x) | .exp2 => fun x => some (2 ^ x) | .exp10 => fun x => some (10 ^ x)
  | .log => cLog | .log10 => cLog10 | .log2 => cLog2 | .sqrt => cSqrt | .cbrt => fun x => some (realCbrt x)

/-- The real operation of that name, where it is defined. -/
def Op.val : Op → ℝ → ℝ → Option ℝ
  | .add => fun x y => some (x + y) | .sub => fun x y => some (x - y) | .mul => fun x y => some (x * y)
  | .div => cDiv | .pow => cPow

/-- The value of the expression as a function of its variables. -/
def Ex.val (env : Nat → ℝ) : Ex → Option ℝ
  | .var i => some (env i)
  | .const c => some c
  | .fn f e => do f.val (← e.val env)
  | .op o a b => do o.val (← a.val env) (← b.val env)
  | .opS o a c => do o.val (← a.val env) c
  | .sOp o c a => do o.val c (← a.val env)

/-- The partial function is defined near `x` and differentiable at `x`. -/
def Smooth (f : ℝ → Option ℝ) (x : ℝ) : Prop :=
  ∃ g : ℝ → ℝ, (∀ᶠ t in 𝓝 x, f t = some (g t)) ∧ DifferentiableAt ℝ g x

/-- The same for a function of two arguments. -/
def Smooth2 (f : ℝ → ℝ → Option ℝ) (x y : ℝ) : Prop :=
  ∃ g : ℝ × ℝ → ℝ, (∀ᶠ t in 𝓝 (x, y), f t.1 t.2 = some (g t)) ∧ DifferentiableAt ℝ g (x, y)

/-- Every operation of the expression is differentiable at the arguments it receives. -/
def Ex.SmoothAt (env : Nat → ℝ) : Ex → Prop
  | .var _ => True
  | .const _ => True
  | .fn f e => e.SmoothAt env ∧ ∀ x, e.val env = some x → Smooth f.val x
  | .op o a b => a.SmoothAt env ∧ b.SmoothAt env ∧
      ∀ x y, a.val env = some x → b.val env = some y → Smooth2 o.val x y
  | .opS o a c => a.SmoothAt env ∧ ∀ x, a.val env = some x → Smooth (fun t => o.val t c) x
  | .sOp o c a => a.SmoothAt env ∧ ∀ x, a.val env = some x → Smooth (fun t => o.val c t) x

/-- The expression does not raise zero to the scalar power zero, nor the scalar zero to any power. -/
def Ex.NoZeroPow (env : Nat → ℝ) : Ex → Prop
  | .var _ => True
  | .const _ => True
  | .fn _ e => e.NoZeroPow env
  | .op _ a b => a.NoZeroPow env ∧ b.NoZeroPow env
  | .opS o a c => a.NoZeroPow env ∧ (o = .pow → c = 0 → a.val env ≠ some 0)
  | .sOp o c a => a.NoZeroPow env ∧ (o = .pow → c ≠ 0)

/-- On input `x + ε·x'` the expression yields its value and the derivative of its value along every curve through `x`
with velocity `x'`. -/
def Ex.Differentiates (e : Ex) (γ : ℝ → Nat → ℝ) (γ' : Nat → ℝ) (t₀ : ℝ) : Prop :=
  ∃ (g : ℝ → ℝ) (d : ℝ), (∀ᶠ t in 𝓝 t₀, e.val (γ t) = some (g t)) ∧ HasDerivAt g d t₀ ∧
    e.dual (fun i => ⟨γ t₀ i, γ' i⟩) = some ⟨g t₀, d⟩

end

end Verif.DualM
