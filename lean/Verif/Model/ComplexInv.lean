import Verif.Model.ComplexFn
import Mathlib.Analysis.SpecialFunctions.Arsinh
import Mathlib.Analysis.SpecialFunctions.Complex.Arg
import Mathlib.Data.Int.Log

/-!
# Complex numbers: logarithm, powers and inverse functions

`/repo/librapid/include/librapid/math/complex.hpp` 38-412, 1139-1480, 1548-1775, 1829-1833, 1926-1971, over the real numbers as in
`Model/ComplexFn.lean`: the scalar functions are the real functions, arguments are finite, branches for NaN and infinities are left out,
and `none` stands for a result with an infinity or a NaN (the logarithm of zero).
The inverse functions negate components whose sign matters when they are zero: the sign bit of such a component is an additional argument `nz`
(`true`: a zero is negative).
-/

namespace Verif.Cx

noncomputable section

/-- `Fmp<T>`, 38-41. -/
structure Fmp where
  val0 : ℝ
  val1 : ℝ

/-- `addX2`, 55-65. -/
def addX2 (x y : ℝ) : Fmp :=
  let sum0 := x + y
  let yMod := sum0 - x
  let xMod := sum0 - yMod
  let yErr := y - yMod
  let xErr := x - xMod
  ⟨sum0, xErr + yErr⟩

/-- `addSmallX2(x, y)`, 90-98. -/
def addSmallX2 (x y : ℝ) : Fmp :=
  let sum0 := x + y
  let yMod := sum0 - x
  let yErr := y - yMod
  ⟨sum0, yErr⟩

/-- `addSmallX2(x, Fmp y)`, 108-113. -/
def addSmallX2' (x : ℝ) (y : Fmp) : Fmp :=
  let sum0 := addSmallX2 x y.val0
  addSmallX2 sum0.val0 (sum0.val1 + y.val1)

/-- `addX1`, 120-126. -/
def addX1 (x y : Fmp) : ℝ :=
  let sum0 := addX2 x.val0 y.val0
  sum0.val0 + (sum0.val1 + (x.val1 + y.val1))

/-- `sqrError`, 171-193; `high` is the part of the argument that `highHalf` (131-136) keeps. -/
def sqrError (high : ℝ → ℝ) (x prod0 : ℝ) : ℝ :=
  let xHigh := high x
  let xLow := x - xHigh
  ((xHigh * xHigh - prod0) + 2 * xHigh * xLow) + xLow * xLow

/-- `sqrX2`, 201-217. -/
def sqrX2 (high : ℝ → ℝ) (x : ℝ) : Fmp :=
  let prod0 := x * x
  ⟨prod0, sqrError high x prod0⟩

/-- `normMinusOne`, 270-277. -/
def normMinusOne (high : ℝ → ℝ) (x y : ℝ) : ℝ :=
  let xSqr := sqrX2 high x
  let ySqr := sqrX2 high y
  let xSqrM1 := addSmallX2' (-1) xSqr
  addX1 xSqrM1 ySqr

/-- The constants of `logP1` and `logHypot`: the machine epsilon, the largest number, `HypotLegTiny`, `HypotLegHuge` (220-262), the two parts of
`log(2)` (364-365), and `highHalf`. -/
structure LogConst where
  eps : ℝ
  max : ℝ
  tiny : ℝ
  huge : ℝ
  cm : ℝ
  cl : ℝ
  high : ℝ → ℝ

/-- The scalar logarithm: no (finite) value unless the argument is positive. Scalar function used by complex.hpp 38-412, 1548-1971. -/
def rlog (x : ℝ) : Option ℝ := if 0 < x then some (Real.log x) else none

/-- `logP1`, 290-316, with `safe`. -/
def logP1 (k : LogConst) (x : ℝ) : Option ℝ :=
  if x ≤ -(1 / 2) ∨ 2 ≤ x then
    if x = k.max then rlog x else rlog (1 + x)
  else if |x| < k.eps then
    if x = 0 then some x else some (x - 1 / 2 * x * x)
  else do
    let tmp := addSmallX2 1 x
    let l ← rlog tmp.val0
    pure (l + tmp.val1 / tmp.val0)

/-- `logHypot`, 349-361: no overflow or underflow. -/
def logHypotMid (k : LogConst) (absX absY : ℝ) : Option ℝ :=
  let absYSqr := absY * absY
  if absX = 1 then (logP1 k absYSqr).map (· * (1 / 2))
  else
    let norm := absX * absX + absYSqr
    if 1 / 2 < norm ∧ norm < 3 then (logP1 k (normMinusOne k.high absX absY)).map (· * (1 / 2))
    else (rlog norm).map (· * (1 / 2))

/-- `logHypot`, 362-374: scaled by a power of two. `std::ilogb` is the binary exponent. -/
def logHypotScaled (k : LogConst) (absX absY : ℝ) : Option ℝ :=
  let e := Int.log 2 absX
  let absXScaled := ldexp absX (-e)
  let absYScaled := ldexp absY (-e)
  let absYScaledSqr := absYScaled * absYScaled
  let normScaled := absXScaled * absXScaled + absYScaledSqr
  (rlog normScaled).map fun l =>
    let realShifted := l * (1 / 2)
    (realShifted + e * k.cl) + e * k.cm

/-- `logHypot`, 326-379, for finite arguments. -/
def logHypot (k : LogConst) (x y : ℝ) : Option ℝ :=
  let absX := Max.max |x| |y|
  let absY := Min.min |x| |y|
  if absY = 0 then rlog absX
  else if k.tiny < absX ∧ absX < k.huge then logHypotMid k absX absY
  else logHypotScaled k absX absY

/-- A floating-point argument that need not be finite. Scalar function used by complex.hpp 38-412, 1548-1971. -/
inductive Ext where
  | fin (x : ℝ)
  | inf (neg : Bool)
  | nan

/-- `logHypot`, 326-379, for all arguments: 338-347 when one is not finite. An infinite result for finite arguments is `-∞`, the logarithm of zero. -/
def logHypotExt (k : LogConst) : Ext → Ext → Ext
  | .fin x, .fin y => match logHypot k x y with
    | some l => .fin l
    | none => .inf true
  | .nan, _ => .nan
  | _, .nan => .nan
  | .inf s, _ => .inf s
  | _, .inf s => .inf s

/-- The scalar `atan2(y, x)`. -/
def atan2 (y x : ℝ) : ℝ := Complex.arg ⟨x, y⟩

/-- `atan2(y, x)`, where a zero `y` is negative if `nz`. -/
def atan2Z (nz : Bool) (y x : ℝ) : ℝ := if y = 0 ∧ nz = true then -atan2 y x else atan2 y x

/-- `log(const Complex<T> &)`, 1674-1679, and `_logAbs`, 1653-1668; a zero imaginary part is negative if `nz`. -/
def log (k : LogConst) (nz : Bool) (z : Cx ℝ) : Option (Cx ℝ) := do
  let logAbs ← logHypot k z.re z.im
  let theta := atan2Z nz z.im z.re
  pure ⟨logAbs, theta⟩

/-- `log(other, base)` for a complex base, 1689-1694. (The template parameter `B` of this overload cannot be deduced; such a call takes the overload
below with the same effect.) -/
def logBase (k : LogConst) (nz nb : Bool) (z b : Cx ℝ) : Option (Cx ℝ) := do
  let l ← log k nz z
  let m ← log k nb b
  div rdiv l m

/-- `log(other, base)` for a real base, 1705-1711. -/
def logBaseS (k : LogConst) (nz : Bool) (z : Cx ℝ) (b : ℝ) : Option (Cx ℝ) := do
  let l ← log k nz z
  let m ← rlog b
  divS rdiv l m

/-- `log2`, 1948-1950. -/
def log2 (k : LogConst) (nz : Bool) (z : Cx ℝ) : Option (Cx ℝ) := do
  let l ← log k nz z
  let m ← rlog 2
  divS rdiv l m

/-- `log10`, 1958-1960. -/
def log10 (k : LogConst) (nz : Bool) (z : Cx ℝ) : Option (Cx ℝ) := do
  let l ← log k nz z
  let m ← rlog 10
  divS rdiv l m

/-- The scalar `pow` for a non-negative base: infinite for a zero base and a negative exponent. Scalar function used by complex.hpp
38-412, 1548-1971. -/
def rpow (x y : ℝ) : Option ℝ := if x = 0 ∧ y < 0 then none else some (x ^ y)

/-- `_pow`, 1713-1720. -/
def powReal (k : LogConst) (l r : ℝ) : Option (Cx ℝ) :=
  if 0 ≤ l then (rpow l r).map fun x => ⟨x, 0⟩
  else (log k false (ctor1 l)).map fun m => exp (sMul r m)

/-- `pow(Complex, scalar)`, 1728-1742. -/
def powS (k : LogConst) (nz : Bool) (l : Cx ℝ) (r : ℝ) : Option (Cx ℝ) :=
  if l.im = 0 then
    if nz then (powReal k l.re r).map conj else powReal k l.re r
  else (log k nz l).map fun m => exp (sMul r m)

/-- `pow(scalar, Complex)`, 1750-1761. -/
def sPow (k : LogConst) (l : ℝ) (r : Cx ℝ) : Option (Cx ℝ) :=
  if r.im = 0 then powReal k l r.re
  else if 0 < l then (rlog l).map fun m => exp (mulS r m)
  else (log k false (ctor1 l)).map fun m => exp (mul r m)

/-- `pow(Complex, Complex)`, 1768-1777. -/
def pow (k : LogConst) (nz : Bool) (l r : Cx ℝ) : Option (Cx ℝ) :=
  if r.im = 0 then powS k nz l r.re
  else if l.im = 0 ∧ 0 < l.re then (rlog l.re).map fun m => exp (mulS r m)
  else (log k nz l).map fun m => exp (mul r m)

/-- `exp2`, 1554-1556. -/
def exp2 (k : LogConst) (z : Cx ℝ) : Option (Cx ℝ) := sPow k 2 z
/-- `exp10`, 1564-1566. -/
def exp10 (k : LogConst) (z : Cx ℝ) : Option (Cx ℝ) := sPow k 10 z
/-- `cbrt`, 1829-1833. -/
def cbrt (k : LogConst) (nz : Bool) (z : Cx ℝ) : Option (Cx ℝ) := powS k nz z (1 / 3)

/-- `copySign(x, y)`, where a zero `y` is negative if `nz`. Scalar function used by complex.hpp 38-412, 1548-1971. -/
def copySignZ (nz : Bool) (x y : ℝ) : ℝ := if y < 0 ∨ y = 0 ∧ nz = true then -|x| else |x|

/-- `sqrt`, 1787-1827, where a zero imaginary part is negative if `nz`. -/
def sqrtZ (k : FabsConst) (nz : Bool) (z : Cx ℝ) : Cx ℝ :=
  let f := fabs k z
  if f.1 = 0 then ⟨0, z.im⟩
  else
    let realMag := ldexp |z.re| (-f.1)
    let rho := ldexp (Real.sqrt (2 * (realMag + f.2))) (f.1 / 2 - 1)
    if 0 ≤ z.re then ⟨rho, z.im / (2 * rho)⟩
    else ⟨|z.im / (2 * rho)|, copySignZ nz rho z.im⟩

/-- 1204-1211, 1282-1288, 1358-1364: `asinh(beta)`, corrected for a factor `alpha` taken out of `beta`. -/
def arcLog (alpha beta : ℝ) : ℝ :=
  let v := Real.arsinh beta
  if alpha ≠ 0 then
    if 0 ≤ v then v + Real.log alpha else v - Real.log alpha
  else v

/-- `acos`, 1180-1211, finite argument; `big` is `arcBig`. -/
def acos (k : FabsConst) (big : ℝ) (nz : Bool) (z : Cx ℝ) : Cx ℝ :=
  let wx := sqrtZ k (!nz) ⟨1 + z.re, -z.im⟩
  let zx := sqrtZ k (!nz) ⟨1 - z.re, -z.im⟩
  let ux := 2 * atan2 zx.re wx.re
  let vx :=
    if big < wx.re then arcLog wx.re (zx.im + wx.im * (zx.re / wx.re))
    else if big < wx.im then arcLog wx.im (wx.re * (zx.im / wx.im) + zx.re)
    else if wx.im < -big then arcLog (-wx.im) (wx.re * (zx.im / -wx.im) - zx.re)
    else arcLog 0 (wx.re * zx.im + wx.im * zx.re)
  ⟨ux, vx⟩

/-- `acosh`, 1262-1290, finite argument. -/
def acosh (k : FabsConst) (big : ℝ) (nz : Bool) (z : Cx ℝ) : Cx ℝ :=
  let wx := sqrtZ k (!nz) ⟨z.re - 1, -z.im⟩
  let zx := sqrtZ k nz ⟨z.re + 1, z.im⟩
  let ux :=
    if big < wx.re then arcLog wx.re (zx.re - wx.im * (zx.im / wx.re))
    else if big < wx.im then arcLog wx.im (wx.re * (zx.re / wx.im) - zx.im)
    else arcLog 0 (wx.re * zx.re - wx.im * zx.im)
  let vx := 2 * atan2 (sqrtZ k nz ⟨z.re - 1, z.im⟩).im zx.re
  ⟨ux, vx⟩

/-- `asinh`, 1334-1366, finite argument; `nz` is the sign of a zero real part. -/
def asinh (k : FabsConst) (big : ℝ) (nz : Bool) (z : Cx ℝ) : Cx ℝ :=
  let wx := sqrtZ k nz ⟨1 - z.im, z.re⟩
  let zx := sqrtZ k (!nz) ⟨1 + z.im, -z.re⟩
  let ux :=
    if big < wx.re then arcLog wx.re (wx.im * (zx.re / wx.re) - zx.im)
    else if big < wx.im then arcLog wx.im (zx.re - wx.re * (zx.im / wx.im))
    else if wx.im < -big then arcLog (-wx.im) (-zx.re - wx.re * (zx.im / -wx.im))
    else arcLog 0 (wx.im * zx.re - wx.re * zx.im)
  let vx := atan2 z.im (mul wx zx).re
  ⟨ux, vx⟩

/-- `asin`, 1382-1385; `nz` is the sign of a zero imaginary part, which is negated. -/
def asin (k : FabsConst) (big : ℝ) (nz : Bool) (z : Cx ℝ) : Cx ℝ :=
  let a := asinh k big (!nz) ⟨-z.im, z.re⟩
  ⟨a.im, -a.re⟩

/-- `atanh`, 1430-1459, finite argument; the sign of a zero imaginary part is `nz`. (That of a zero real part is the sign of a zero result.) -/
def atanh (k : LogConst) (big : ℝ) (nz : Bool) (z : Cx ℝ) : Option (Cx ℝ) :=
  let magIm := |z.im|
  let oldRe := z.re
  let re := |z.re|
  if big < re then
    let fx := z.im / re
    some ⟨copySign (1 / re / (1 + fx * fx)) oldRe, copySignZ nz (Real.pi / 2) z.im⟩
  else if big < magIm then
    let fx := re / z.im
    some ⟨copySign (fx / z.im / (1 + fx * fx)) oldRe, copySignZ nz (Real.pi / 2) z.im⟩
  else if re ≠ 1 then
    let reFrom1 := 1 - re
    let imEps2 := magIm * magIm
    (logP1 k (4 * re / (reFrom1 * reFrom1 + imEps2))).map fun l =>
      ⟨copySign (1 / 4 * l) oldRe, 1 / 2 * atan2Z nz (2 * z.im) (reFrom1 * (1 + re) - imEps2)⟩
  else if z.im = 0 then none
  else
    (rlog (Real.sqrt (Real.sqrt (4 + z.im * z.im)) / Real.sqrt magIm)).map fun l =>
      ⟨copySign l oldRe, copySignZ nz (1 / 2 * (Real.pi / 2 + atan2 magIm 2)) z.im⟩

/-- `atan`, 1473-1476. The real part becomes the imaginary part of the argument, so `nz` is the sign of a zero real part. -/
def atan (k : LogConst) (big : ℝ) (nz : Bool) (z : Cx ℝ) : Option (Cx ℝ) :=
  (atanh k big nz ⟨-z.im, z.re⟩).map fun a => ⟨a.im, -a.re⟩

end

end Verif.Cx
