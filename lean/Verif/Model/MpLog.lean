import Verif.Model.Ieee
import Mathlib.Analysis.SpecialFunctions.Log.Basic

/-!
# Logarithms to a base in multi-precision

`log(const mpfr &, const mpfr &)`, `/repo/librapid/src/multiprecExpLogPow.cpp` 14-16. MPFR rounds its functions and operations correctly (to nearest,
ties to even); all numbers have one precision. `emin` of the format is that of MPFR.
-/

namespace Verif.MpLog

open Verif.Ieee

/-- Nearest integer, ties to even. MPFR's rounding, for src/multiprecExpLogPow.cpp 13-16. -/
noncomputable def rneR (x : ℝ) : Int :=
  if x - ⌊x⌋ < 1 / 2 then ⌊x⌋
  else if 1 / 2 < x - ⌊x⌋ then ⌊x⌋ + 1
  else if ⌊x⌋ % 2 = 0 then ⌊x⌋ else ⌊x⌋ + 1

/-- The exponent of the last place of a number rounded to the format. MPFR's rounding, for src/multiprecExpLogPow.cpp 13-16. -/
noncomputable def ulpR (f : Fmt) (x : ℝ) : Int := max (Int.log 2 |x| - (f.p - 1)) f.emin

/-- Rounding of a real number. MPFR's rounding, for src/multiprecExpLogPow.cpp 13-16. -/
noncomputable def rndR (f : Fmt) (x : ℝ) : ℝ := rneR (x / (2 : ℝ) ^ ulpR f x) * (2 : ℝ) ^ ulpR f x

/-- `log(val)`, src/multiprecExpLogPow.cpp 13. -/
noncomputable def mpLog (f : Fmt) (v : ℝ) : ℝ := rndR f (Real.log v)

/-- `log(val, base)`, src/multiprecExpLogPow.cpp 14-16. -/
noncomputable def logBase (f : Fmt) (v b : ℝ) : ℝ := rndR f (mpLog f v / mpLog f b)

end Verif.MpLog
