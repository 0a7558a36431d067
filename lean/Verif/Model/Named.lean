import Verif.Model.Expr
import Mathlib.Analysis.SpecialFunctions.Arsinh
import Mathlib.Analysis.SpecialFunctions.Arcosh
import Mathlib.Analysis.SpecialFunctions.Artanh
import Mathlib.Analysis.SpecialFunctions.Log.Base
import Mathlib.Analysis.SpecialFunctions.Trigonometric.Inverse
import Mathlib.Analysis.SpecialFunctions.Trigonometric.Arctan
import Mathlib.Analysis.SpecialFunctions.Pow.Real
import Mathlib.Algebra.Order.Round

/-!
# The named element-wise functions

Models which scalar function each array function `sin`, `cos`, ..., `ceil` applies: array function -> functor type
(librapid/include/librapid/array/operations.hpp 941-1280) -> scalar function (operations.hpp 156-179, math/coreMath.hpp
61-430) -> standard library function.

Simplification: elements are real numbers, so rounding is not modelled; a NaN result is `none`. Arrays of integers, whose results
are converted back to the integer type, are not modelled here (`sqrt` of them is in Model/IntSqrt.lean).
-/

namespace Verif.Named

/-- The array functions of operations.hpp 941-1280. -/
inductive Name where
  | sin | cos | tan | asin | acos | atan | sinh | cosh | tanh | asinh | acosh | atanh
  | exp | exp2 | exp10 | log | log2 | log10 | sqrt | cbrt | abs | floor | ceil
  deriving DecidableEq, Repr

/-- The functor types `detail::Sin`, ..., `detail::Ceil`. array/operations.hpp 156-179, 941-1280. -/
inductive Functor where
  | Sin | Cos | Tan | Asin | Acos | Atan | Sinh | Cosh | Tanh | Asinh | Acosh | Atanh
  | Exp | Exp2 | Exp10 | Log | Log2 | Log10 | Sqrt | Cbrt | Abs | Floor | Ceil
  deriving DecidableEq, Repr

/-- The functor each array function uses (operations.hpp 948, 963, ..., 1278). -/
def functorOf : Name → Functor
  | .sin => .Sin | .cos => .Cos | .tan => .Tan | .asin => .Asin | .acos => .Acos | .atan => .Atan
  | .sinh => .Sinh | .cosh => .Cosh | .tanh => .Tanh | .asinh => .Asinh | .acosh => .Acosh | .atanh => .Atanh
  | .exp => .Exp | .exp2 => .Exp2 | .exp10 => .Exp10 | .log => .Log | .log2 => .Log2 | .log10 => .Log10
  | .sqrt => .Sqrt | .cbrt => .Cbrt | .abs => .Abs | .floor => .Floor | .ceil => .Ceil

/-- The scalar function each functor applies (operations.hpp 156-179). Note lines 165-167, 170 and 171. -/
def scalarOf : Functor → Name
  | .Sin => .sin | .Cos => .cos | .Tan => .tan | .Asin => .asin | .Acos => .acos | .Atan => .atan
  | .Sinh => .sinh | .Cosh => .cosh | .Tanh => .tanh
  | .Asinh => .sinh | .Acosh => .cosh | .Atanh => .tanh
  | .Exp => .exp | .Exp2 => .exp | .Exp10 => .exp
  | .Log => .log | .Log2 => .log2 | .Log10 => .log10
  | .Sqrt => .sqrt | .Cbrt => .cbrt | .Abs => .abs | .Floor => .floor | .Ceil => .ceil

/-- The scalar functions `librapid::sin`, ... (math/coreMath.hpp 61-430) on real numbers: `abs` is `(val < 0) ? -val : val`,
`exp10` is `std::pow(10.0, val)`, the others are the standard library function of the same name. `none` is NaN (or, for `log` of
zero, `tan` of a pole and `atanh` of `±1`, no real number). -/
noncomputable def scalarFn : Name → ℝ → Option ℝ
  | .sin, x => some (Real.sin x)
  | .cos, x => some (Real.cos x)
  | .tan, x => if Real.cos x = 0 then none else some (Real.tan x)
  | .asin, x => if -1 ≤ x ∧ x ≤ 1 then some (Real.arcsin x) else none
  | .acos, x => if -1 ≤ x ∧ x ≤ 1 then some (Real.arccos x) else none
  | .atan, x => some (Real.arctan x)
  | .sinh, x => some (Real.sinh x)
  | .cosh, x => some (Real.cosh x)
  | .tanh, x => some (Real.tanh x)
  | .asinh, x => some (Real.arsinh x)
  | .acosh, x => if 1 ≤ x then some (Real.arcosh x) else none
  | .atanh, x => if -1 < x ∧ x < 1 then some (Real.artanh x) else none
  | .exp, x => some (Real.exp x)
  | .exp2, x => some ((2 : ℝ) ^ x)
  | .exp10, x => some ((10 : ℝ) ^ x)
  | .log, x => if 0 < x then some (Real.log x) else none
  | .log2, x => if 0 < x then some (Real.logb 2 x) else none
  | .log10, x => if 0 < x then some (Real.logb 10 x) else none
  | .sqrt, x => if 0 ≤ x then some (Real.sqrt x) else none
  | .cbrt, x => some (if 0 ≤ x then x ^ (1 / 3 : ℝ) else -((-x) ^ (1 / 3 : ℝ)))
  | .abs, x => some (if x < 0 then -x else x)
  | .floor, x => some (⌊x⌋ : ℝ)
  | .ceil, x => some (⌈x⌉ : ℝ)

/-- What the array function `n` does to one element: the functor's `operator()` (operations.hpp 113-125). -/
noncomputable def applied (n : Name) (x : ℝ) : Option ℝ := scalarFn (scalarOf (functorOf n)) x

/-- The expression `n(a)` for an array `a` whose elements are real numbers or NaN. array/operations.hpp 156-179, 941-1280. -/
noncomputable def namedExpr (n : Name) (id : Nat) : ExprM.Expr (Option ℝ) := .un (fun x => x.bind (applied n)) (.arr id)

end Verif.Named
