import Verif.Model.Scalar
import Verif.Model.Ieee

/-!
# `round` of multi-precision numbers (math/round.hpp 21-64)

`template<> auto round(const mpfr &num, int64_t dp, RoundingMode mode)` (lines 47-63) specialises `template<typename T> auto round(T num, …)` with
`T = const mpfr &`. A call `librapid::round(x, dp, mode)` deduces `T = mpfr`, which is another instance: it is the general function of
lines 21-38, computing in `double`. The specialisation is used only where it is named: `round<const mpfr &>(x, dp, mode)`.

Simplified: all numbers of the specialisation have one precision (mpreal.h gives a result the precision of its operands and `mpfr(dp)` the
default precision); exponents are not limited above; numbers are finite.
-/

namespace Verif.ScalarM

open Verif.Ieee

/-- `(uint64_t) y` of an `mpfr` with `y ≥ 0` (line 59): MPFR documents that a number too large gives the largest value. -/
def satU64 (y : ℚ) : Nat := min ⌊y⌋.toNat (2 ^ 64 - 1)

/-- Lines 58-62 -/
def evenStepMp (fl : ℚ → ℚ) (mode : Mode) (y diff : ℚ) : ℚ :=
  if mode.bits.testBit 2 then
    let integer := satU64 y
    let nearestEven := if integer % 2 = 1 then fl (y + 1) else fl integer
    if mode.bits.testBit 4 ∧ diff = 1 / 2 then nearestEven else y
  else y

/-- round.hpp 47-64: `round<const mpfr &>(num, dp, mode)`; `fl` rounds to the precision of the numbers. `exp10` (src/multiprecExpLogPow.cpp 11)
is correctly rounded. -/
def roundNamed (fl : ℚ → ℚ) (num : ℚ) (dp : Int) (mode : Mode) : ℚ :=
  let alpha := fl (10 ^ dp)
  let beta := fl (10 ^ (-dp))
  let absNum := abs' (fl (num * alpha))
  let y : ℚ := ⌊absNum⌋
  let diff := fl (absNum - y)
  let y := if mode.bits.testBit 0 ∧ diff ≥ 1 / 2 then fl (y + 1) else y
  let y := evenStepMp fl mode y diff
  fl ((if num ≥ 0 then y else -y) * beta)

/-- round.hpp 21-38 with `T = mpfr`, what `round(num, dp, mode)` calls: the number is converted to `double` (line 27) and rounded there. The
sign (line 37, memUtils.hpp 78-79) is that of `num`; it differs from that of the double only where the result is zero. -/
def roundCall (num : ℚ) (dp : Int) (mode : Mode) : Out ℚ := round (rnd binary64) (rnd binary64 num) dp mode

end Verif.ScalarM
