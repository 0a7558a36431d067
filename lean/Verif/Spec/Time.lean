import Verif.Model.Time
import Mathlib.Tactic.NormNum

/-!
# Units of time, independent of `formatTime`'s table
-/

namespace Verif.Time

/-- Nanoseconds in a unit. -/
def Unt.nanos : Unt → ℚ
  | .ns => 1
  | .us => 10 ^ 3
  | .ms => 10 ^ 6
  | .s => 10 ^ 9
  | .m => 60 * 10 ^ 9
  | .h => 3600 * 10 ^ 9
  | .d => 86400 * 10 ^ 9
  | .y => 365 * 86400 * 10 ^ 9

/-- The next larger unit. -/
def Unt.next : Unt → Option Unt
  | .ns => some .us
  | .us => some .ms
  | .ms => some .s
  | .s => some .m
  | .m => some .h
  | .h => some .d
  | .d => some .y
  | .y => none

end Verif.Time
