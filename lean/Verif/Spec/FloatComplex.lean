import Verif.Model.Fl
import Verif.Model.Complex
import Mathlib.Data.Complex.Basic

/-! Complex numbers with floating-point components. -/

namespace Verif.Cx

open Ieee

variable {f : Fmt}

/-- The complex number. -/
noncomputable def valC (z : Cx (Fl f)) : ℂ := ⟨((z.re.val : ℚ) : ℝ), ((z.im.val : ℚ) : ℝ)⟩

/-- Division of floating-point numbers: none for a zero divisor. -/
def fdiv : Div? (Fl f) := fun a b => if b = 0 then none else some (a / b)

/-- The number is zero or not below the normal range: rounding it does not underflow. -/
def Normal (f : Fmt) (x : ℚ) : Prop := x = 0 ∨ (2 : ℚ) ^ (f.emin + f.p - 1) ≤ |x|

end Verif.Cx
