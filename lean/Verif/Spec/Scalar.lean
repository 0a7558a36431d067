import Mathlib.Data.Rat.Floor

/-!
# What the rounding functions are supposed to return

Stated with multiples of a positive unit, absolute values and order only.
-/

namespace Verif.ScalarS

/-- `z` is an integer multiple of `u`. -/
def Mult (u z : ℚ) : Prop := ∃ n : Int, z = n * u

/-- `z` is the multiple of `u` nearest to `x`; of two equally near ones, the one of larger magnitude. -/
def NearestAway (u x z : ℚ) : Prop :=
  Mult u z ∧ ∀ w, Mult u w → |z - x| < |w - x| ∨ (|z - x| = |w - x| ∧ |w| ≤ |z|)

/-- `z` is a multiple of `u` nearest to `x`. -/
def Nearest (u x z : ℚ) : Prop := Mult u z ∧ ∀ w, Mult u w → |z - x| ≤ |w - x|

/-- `z` is the multiple of `u` nearest to `x`; of two equally near ones, the even multiple. -/
def NearestEven (u x z : ℚ) : Prop :=
  ∃ n : Int, z = n * u ∧ ∀ w, Mult u w → |z - x| < |w - x| ∨ (|z - x| = |w - x| ∧ (w = z ∨ n % 2 = 0))

/-- `z` is the multiple of `u` of largest magnitude not beyond `x`, on the same side of zero. -/
def TowardZero (u x z : ℚ) : Prop :=
  Mult u z ∧ |z| ≤ |x| ∧ 0 ≤ z * x ∧ ∀ w, Mult u w → |w| ≤ |x| → |w| ≤ |z|

/-- `z` is the multiple of `u` of least magnitude not short of `x`, on the same side of zero. -/
def AwayFromZero (u x z : ℚ) : Prop :=
  Mult u z ∧ |x| ≤ |z| ∧ 0 ≤ z * x ∧ ∀ w, Mult u w → |x| ≤ |w| → |z| ≤ |w|

/-- `z` is the least multiple of `u` not below `x`. -/
def LeastAbove (u x z : ℚ) : Prop := Mult u z ∧ x ≤ z ∧ ∀ w, Mult u w → x ≤ w → z ≤ w

end Verif.ScalarS
