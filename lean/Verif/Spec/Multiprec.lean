import Mathlib.Data.Rat.Defs
import Mathlib.Algebra.Order.Field.Rat

/-!
# Value of positional notation, independent of the code that writes it
-/

namespace Verif.MpfS

/-- The whole number written by the digits `cs` in base `b`; `dv` gives the value of a digit. -/
def whole (b : ℚ) (dv : Char → ℚ) (cs : List Char) : ℚ := cs.foldl (fun a c => a * b + dv c) 0

/-- The value of an unsigned numeral with a point: what stands before the point, and what stands behind it divided by the
power of the base. -/
def unsigned (b : ℚ) (dv : Char → ℚ) (s : List Char) : ℚ :=
  let i := s.takeWhile (· != '.')
  let f := (s.dropWhile (· != '.')).drop 1
  whole b dv i + whole b dv f / b ^ f.length

/-- The value of a numeral. -/
def value (b : ℚ) (dv : Char → ℚ) (s : List Char) : ℚ :=
  match s with
  | '-' :: s => -unsigned b dv s
  | s => unsigned b dv s

end Verif.MpfS
