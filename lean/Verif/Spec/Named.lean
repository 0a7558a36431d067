import Verif.Model.Named

/-! What the mathematical functions are, by their defining properties rather than by the library functions used in the model. -/

namespace Verif.Named

/-- The arguments at which the function has a real value. -/
def Domain : Name → ℝ → Prop
  | .tan, x => Real.cos x ≠ 0
  | .asin, x | .acos, x => -1 ≤ x ∧ x ≤ 1
  | .acosh, x => 1 ≤ x
  | .atanh, x => -1 < x ∧ x < 1
  | .log, x | .log2, x | .log10, x => 0 < x
  | .sqrt, x => 0 ≤ x
  | _, _ => True

/-- `y` is the value of the named function at `x`. Inverse functions are characterised by the function they invert and the
range of the principal value. -/
def Means : Name → ℝ → ℝ → Prop
  | .sin, x, y => y = Real.sin x
  | .cos, x, y => y = Real.cos x
  | .tan, x, y => y * Real.cos x = Real.sin x
  | .asin, x, y => -(Real.pi / 2) ≤ y ∧ y ≤ Real.pi / 2 ∧ Real.sin y = x
  | .acos, x, y => 0 ≤ y ∧ y ≤ Real.pi ∧ Real.cos y = x
  | .atan, x, y => -(Real.pi / 2) < y ∧ y < Real.pi / 2 ∧ Real.sin y = x * Real.cos y
  | .sinh, x, y => 2 * y = Real.exp x - Real.exp (-x)
  | .cosh, x, y => 2 * y = Real.exp x + Real.exp (-x)
  | .tanh, x, y => y * (Real.exp x + Real.exp (-x)) = Real.exp x - Real.exp (-x)
  | .asinh, x, y => Real.exp y - Real.exp (-y) = 2 * x
  | .acosh, x, y => 0 ≤ y ∧ Real.exp y + Real.exp (-y) = 2 * x
  | .atanh, x, y => Real.exp y - Real.exp (-y) = x * (Real.exp y + Real.exp (-y))
  | .exp, x, y => 0 < y ∧ Real.log y = x
  | .exp2, x, y => 0 < y ∧ Real.log y = x * Real.log 2
  | .exp10, x, y => 0 < y ∧ Real.log y = x * Real.log 10
  | .log, x, y => Real.exp y = x
  | .log2, x, y => (2 : ℝ) ^ y = x
  | .log10, x, y => (10 : ℝ) ^ y = x
  | .sqrt, x, y => 0 ≤ y ∧ y * y = x
  | .cbrt, x, y => y * y * y = x
  | .abs, x, y => 0 ≤ y ∧ (y = x ∨ y = -x)
  | .floor, x, y => ∃ n : ℤ, y = n ∧ y ≤ x ∧ x < y + 1
  | .ceil, x, y => ∃ n : ℤ, y = n ∧ x ≤ y ∧ y < x + 1

end Verif.Named
