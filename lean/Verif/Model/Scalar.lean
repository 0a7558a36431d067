import Verif.Basic
import Verif.Model.Ieee

/-!
# Scalar functions: rounding, clamping, interpolation

Models `math/round.hpp` (lines 5-38, 66-74, 86-92, 106-132), `math/coreMath.hpp` (lines 18-99),
`math/utilityFunctions.hpp`, `utils/memUtils.hpp` `copySign` (lines 63-82) and `src/fastMath.cpp` `pow10`, all instantiated
at `double` unless a definition says otherwise.

A `double` is the rational number it denotes (see `Model/Ieee.lean` for what this leaves out: NaN, infinities, overflow,
the sign of zero).
Every function takes the rounding `fl` applied to the result of each arithmetic operation:
`rnd binary64` is the arithmetic of the machine, `id` is exact arithmetic.
`std::floor`, `std::fmod`, `std::copysign`, `abs` and comparisons are exact in IEEE arithmetic and are not rounded.
-/

namespace Verif.ScalarM

/-- `min(a, b)`, coreMath.hpp 30-34 -/
def min2 (a b : ℚ) : ℚ := if a < b then a else b
/-- `max(a, b)`, coreMath.hpp 49-53 -/
def max2 (a b : ℚ) : ℚ := if a > b then a else b
/-- `abs`, coreMath.hpp 59-63 -/
def abs' (a : ℚ) : ℚ := if a < 0 then -a else a
/-- `copySign(mag, sign)` for fundamental types, memUtils.hpp 69-82: `std::copysign` (the sign of zero is positive) -/
def copySign (mag sign : ℚ) : ℚ := if sign < 0 then -abs' mag else abs' mag
/-- Conversion of a floating value to an integer type: truncation towards zero. For math/round.hpp 66-132. -/
def trunc (x : ℚ) : Int := if x < 0 then ⌈x⌉ else ⌊x⌋
/-- `mod` with a floating argument, coreMath.hpp 92-95: `std::fmod`; `m` is nonzero. -/
def fmod (x m : ℚ) : ℚ := x - m * trunc (x / m)

/-! ## `fastmath::pow10` -/

/-- The table of `fastMath.cpp` lines 5-19. -/
def pows : List ℚ :=
  [1/10000000, 1/1000000, 1/100000, 1/10000, 1/1000, 1/100, 1/10, 1,
   10, 100, 1000, 10000, 100000, 1000000, 1000000]

/-- `for (i = 0; i < n; ++i) res *= c` started at `res` -/
def mulLoop (fl : ℚ → ℚ) (c : ℚ) : Nat → ℚ → ℚ
  | 0, res => res
  | n + 1, res => mulLoop fl c n (fl (res * c))

/-- `fastmath::pow10(exponent)`, fastMath.cpp 4-31 -/
def pow10 (fl : ℚ → ℚ) (e : Int) : ℚ :=
  if h : -7 ≤ e ∧ e ≤ 7 then fl (pows[(e + 7).toNat]'(by simp [pows]; omega))
  else if e > 0 then mulLoop fl 10 e.toNat 1
  else mulLoop fl (fl (1/10)) (-e).toNat 1

/-! ## `round` -/

/-- `RoundingMode`, round.hpp 5-19, as bit masks. `TRUNC` has the value of `DOWN`. -/
inductive Mode where
  | up | down | halfEven | math
deriving DecidableEq, Repr

/-- The values of the enumerators, round.hpp 14-18. -/
def Mode.bits : Mode → Nat
  | .up => 0b00011
  | .down => 0
  | .halfEven => 0b10100
  | .math => 0b00001

/-- `(uint64_t) y` for `y ≥ 0`: undefined when the value does not fit. -/
def toU64 (y : ℚ) : Out Nat := if y < 2 ^ 64 then .ok ⌊y⌋.toNat else .ub

/-- Lines 31-35 of `round` -/
def evenStep (fl : ℚ → ℚ) (mode : Mode) (y diff : ℚ) : Out ℚ :=
  if mode.bits.testBit 2 then
    (toU64 y).bind fun integer =>
      let nearestEven := if integer % 2 = 1 then fl (y + 1) else (integer : ℚ)
      .ok (if mode.bits.testBit 4 ∧ diff = 1/2 then nearestEven else y)
  else .ok y

/-- `round(num, dp, mode)` for `T = double`, round.hpp 21-38 -/
def round (fl : ℚ → ℚ) (num : ℚ) (dp : Int) (mode : Mode) : Out ℚ :=
  let alpha := pow10 fl dp
  let beta := pow10 fl (-dp)
  let absNum := abs' (fl (num * alpha))
  let y : ℚ := ⌊absNum⌋
  let diff := fl (absNum - y)
  let y := if mode.bits.testBit 0 ∧ diff ≥ 1/2 then fl (y + 1) else y
  (evenStep fl mode y diff).bind fun y => .ok (copySign (fl (y * beta)) num)

/-! ## `roundTo`, `roundUpTo` -/

/-- `roundTo<double, double>(num, val)`, round.hpp 66-74; `val` is nonzero -/
def roundTo (fl : ℚ → ℚ) (num val : ℚ) : ℚ :=
  if num = 0 then 0
  else
    let rem := fmod (abs' num) val
    if rem ≥ fl (val / 2) then copySign (fl (fl (abs' num + val) - rem)) num
    else copySign (fl (num - rem)) num

/-- `roundUpTo<double, double>(num, val)`, round.hpp 86-92; `val` is nonzero -/
def roundUpTo (fl : ℚ → ℚ) (num val : ℚ) : ℚ :=
  let rem := fmod num val
  if rem = 0 then num else fl (fl (num + val) - rem)

/-- `copySign` of signed integers: computed by `std::copysign` in `double` (exact below `2^53`) and converted back. -/
def copySignI (mag sign : Int) : Int := if sign < 0 then -|mag| else |mag|

/-- `roundTo<int64_t, int64_t>(num, val)`: `%` and `/` truncate; a zero divisor is undefined.
Overflow and magnitudes of `2^53` and above are not modelled. -/
def roundToI (num val : Int) : Out Int :=
  if num = 0 then .ok 0
  else if val = 0 then .ub
  else
    let rem := Int.tmod |num| val
    if rem ≥ Int.tdiv val 2 then .ok (copySignI ((|num| + val) - rem) num)
    else .ok (copySignI (num - rem) num)

/-- `roundUpTo<int64_t, int64_t>(num, val)`; overflow is not modelled. -/
def roundUpToI (num val : Int) : Out Int :=
  if val = 0 then .ub
  else
    let rem := Int.tmod num val
    if rem = 0 then .ok num else .ok ((num + val) - rem)

/-! ## `clamp`, `lerp`, `map`, `smoothStep`, `isClose` -/

/-- `clamp(x, lowerLimit, upperLimit)`, utilityFunctions.hpp 20-30 -/
def clamp (asserts : Bool) (x lower upper : ℚ) : Out ℚ :=
  (Out.assert asserts (decide (lower < upper))).bind fun _ =>
    if x < lower then .ok lower else if x > upper then .ok upper else .ok x

/-- `lerp(t, lower, upper)` for three floating types, utilityFunctions.hpp 43-70, with the macro `FMA` not defined -/
def lerp (fl : ℚ → ℚ) (t lower upper : ℚ) : ℚ :=
  if (t ≤ 0 ∧ upper ≥ 0) ∨ (lower ≥ 0 ∧ upper ≤ 0) then
    fl (fl (t * upper) + fl (fl (1 - t) * lower))
  else if t = 1 then upper
  else
    let x := fl (lower + fl (t * fl (upper - lower)))
    if (decide (t > 1)) == (decide (upper > lower)) then max2 upper x else min2 upper x

/-- `lerp(t, lower, upper)` when not all types are floating and the result type is `double`, utilityFunctions.hpp 84-94 -/
def lerpMixed (fl : ℚ → ℚ) (t lower upper : ℚ) : ℚ := fl (lower + fl (fl (upper - lower) * t))

/-- `map(val, start1, stop1, start2, stop2)`, coreMath.hpp 77-80; `stop1 ≠ start1` -/
def map (fl : ℚ → ℚ) (val start1 stop1 start2 stop2 : ℚ) : ℚ :=
  fl (start2 + fl (fl (fl (val - start1) * fl (stop2 - start2)) / fl (stop1 - start1)))

/-- The polynomial of `smoothStep`, utilityFunctions.hpp 120 -/
def smoothPoly (fl : ℚ → ℚ) (tt : ℚ) : ℚ :=
  fl (fl (fl (tt * tt) * tt) * fl (fl (tt * fl (fl (tt * 6) - 15)) + 10))

/-- `smoothStep(t, lowerEdge, upperEdge)`, utilityFunctions.hpp 112-121; `lowerEdge ≠ upperEdge` -/
def smoothStep (fl : ℚ → ℚ) (asserts : Bool) (t lower upper : ℚ) : Out ℚ :=
  (clamp asserts (fl (fl (t - lower) / fl (upper - lower))) 0 1).bind fun tt => .ok (smoothPoly fl tt)

/-- `isClose(val1, val2, absTol, relTol)`, utilityFunctions.hpp 141-147 -/
def isClose (fl : ℚ → ℚ) (val1 val2 absTol relTol : ℚ) : Bool :=
  decide (abs' (fl (val2 - val1)) ≤ max2 (fl (relTol * max2 (abs' val1) (abs' val2))) absTol)

/-- `isClose` for `unsigned` (32-bit) values: the subtraction wraps and `abs` does nothing. -/
def isCloseU32 (fl : ℚ → ℚ) (val1 val2 : BitVec 32) (absTol relTol : ℚ) : Bool :=
  decide (((val2 - val1).toNat : ℚ) ≤ max2 (fl (relTol * max2 (val1.toNat : ℚ) (val2.toNat : ℚ))) absTol)

/-! ## `roundSigFig` -/

/-- `while (tmp > ten) { tmp /= ten; ++n; }` with at most `fuel` iterations; `none` when the loop has not ended by then. For
math/round.hpp 66-132. -/
def downLoop (fl : ℚ → ℚ) : Nat → ℚ → Int → Option (ℚ × Int)
  | 0, _, _ => none
  | fuel + 1, tmp, n => if tmp > 10 then downLoop fl fuel (fl (tmp / 10)) (n + 1) else some (tmp, n)

/-- `while (tmp < one) { tmp *= ten; --n; }` with at most `fuel` iterations. For math/round.hpp 66-132. -/
def upLoop (fl : ℚ → ℚ) : Nat → ℚ → Int → Option (ℚ × Int)
  | 0, _, _ => none
  | fuel + 1, tmp, n => if tmp < 1 then upLoop fl fuel (fl (tmp * 10)) (n - 1) else some (tmp, n)

/-- What `roundSigFig` does after its loops, round.hpp 131 -/
def sigFinish (fl : ℚ → ℚ) (num tmp : ℚ) (n figs : Int) : Out ℚ :=
  (round fl tmp (figs - 1) .math).bind fun r => .ok (copySign (fl (r * pow10 fl n)) num)

/-- `roundSigFig<double>(num, figs)`, round.hpp 106-132, with the loops limited to `fuel` iterations each;
`none` when a loop needs more. -/
def roundSigFig (fl : ℚ → ℚ) (asserts : Bool) (fuel : Nat) (num : ℚ) (figs : Int) : Option (Out ℚ) :=
  match Out.assert asserts (decide (0 < figs)) with
  | .throw e => some (.throw e)
  | .ub => some .ub
  | .ok _ =>
    if num = 0 then some (.ok 0)
    else do
      let (tmp, n) ← downLoop fl fuel (abs' num) 0
      let (tmp, n) ← upLoop fl fuel tmp n
      return sigFinish fl num tmp n figs

end Verif.ScalarM
