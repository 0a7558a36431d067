import Mathlib.Data.Int.Log
import Mathlib.Data.Rat.Floor

/-!
# Binary floating point, rounding to nearest even

The scalar functions of the library (`/repo/librapid/include/librapid/math`) compute with `float` and `double`.
Where a claim depends on how these round, the models use the definitions below: a finite floating-point number is the
rational number it denotes, and each operation rounds the exact rational result with `rnd`.

Simplifications, used by every model that mentions `rnd`:
* finite values only: no infinities, no NaN, and a result whose magnitude is too large for the format is not replaced
  by an infinity (the claims that use `rnd` either bound the magnitude or do not depend on it);
* the two zeros are not distinguished.
-/

namespace Verif.Ieee

/-- A binary format: `p` significant bits, least exponent `emin` (the exponent of the smallest positive number). Formats and rounding of
IEEE 754; no code of the library. -/
structure Fmt where
  p : Nat
  emin : Int
  hp : 2 ≤ p

/-- IEEE 754 binary64, C++ `double` -/
def binary64 : Fmt := ⟨53, -1074, by decide⟩
/-- IEEE 754 binary32, C++ `float` -/
def binary32 : Fmt := ⟨24, -149, by decide⟩

/-- `x` is a finite number of the format (ignoring the upper limit of the exponent). Formats and rounding of IEEE 754; no code of the
library. -/
def Repr (f : Fmt) (x : ℚ) : Prop := ∃ m e : Int, f.emin ≤ e ∧ |m| < 2 ^ f.p ∧ x = m * (2 : ℚ) ^ e

/-- Nearest integer, ties to even. Formats and rounding of IEEE 754; no code of the library. -/
def rne (x : ℚ) : Int :=
  if x - ⌊x⌋ < 1 / 2 then ⌊x⌋
  else if 1 / 2 < x - ⌊x⌋ then ⌊x⌋ + 1
  else if ⌊x⌋ % 2 = 0 then ⌊x⌋ else ⌊x⌋ + 1

/-- Exponent of the unit in the last place at magnitude `|x|`. Formats and rounding of IEEE 754; no code of the library. -/
def ulpExp (f : Fmt) (x : ℚ) : Int := max (Int.log 2 |x| - (f.p - 1)) f.emin

/-- Rounding to nearest, ties to even, of the exact result `x` of an operation. Formats and rounding of IEEE 754; no code of the library. -/
def rnd (f : Fmt) (x : ℚ) : ℚ := rne (x / (2 : ℚ) ^ ulpExp f x) * (2 : ℚ) ^ ulpExp f x

end Verif.Ieee
