import Verif.Model.Ieee
import Mathlib.Data.BitVec

/-!
# Complex numbers: the sums and squares of twice the precision

`/repo/librapid/include/librapid/math/complex.hpp` 29-217, 264-277: the functions with which `log` and `atanh` of complex numbers avoid
cancellation, in floating-point arithmetic (`Model/Ieee.lean`: each operation rounds to nearest even, finite values, no overflow).
The functions take the format `f` of the type `T`.
-/

namespace Verif.ErrFree

open Verif.Ieee

/-- `Fmp<T>`, 30-34. -/
structure Fmp where
  val0 : ℚ
  val1 : ℚ

/-- `addX2`, 55-65. -/
def addX2 (f : Fmt) (x y : ℚ) : Fmp :=
  let sum0 := rnd f (x + y)
  let yMod := rnd f (sum0 - x)
  let xMod := rnd f (sum0 - yMod)
  let yErr := rnd f (y - yMod)
  let xErr := rnd f (x - xMod)
  ⟨sum0, rnd f (xErr + yErr)⟩

/-- `addSmallX2(x, y)`, 90-98. -/
def addSmallX2 (f : Fmt) (x y : ℚ) : Fmp :=
  let sum0 := rnd f (x + y)
  let yMod := rnd f (sum0 - x)
  let yErr := rnd f (y - yMod)
  ⟨sum0, yErr⟩

/-- `addSmallX2(x, Fmp y)`, 108-113. -/
def addSmallX2' (f : Fmt) (x : ℚ) (y : Fmp) : Fmp :=
  let sum0 := addSmallX2 f x y.val0
  addSmallX2 f sum0.val0 (rnd f (sum0.val1 + y.val1))

/-- `addX1`, 120-126. -/
def addX1 (f : Fmt) (x y : Fmp) : ℚ :=
  let sum0 := addX2 f x.val0 y.val0
  rnd f (sum0.val0 + rnd f (sum0.val1 + rnd f (x.val1 + y.val1)))

/-- The exponent field of a `double`. Format `double` of IEEE 754, for complex.hpp 29-217. -/
def expo (n : Nat) : Nat := n / 2 ^ 52 % 2 ^ 11

/-- The value of the bits of a finite `double` without its sign. Format `double` of IEEE 754, for complex.hpp 29-217. -/
def mag (n : Nat) : ℚ :=
  if expo n = 0 then ((n % 2 ^ 52 : Nat) : ℚ) * 2 ^ (-1074 : Int)
  else ((2 ^ 52 + n % 2 ^ 52 : Nat) : ℚ) * 2 ^ ((expo n : Int) - 1075)

/-- The value of a finite `double` given by its bits. Format `double` of IEEE 754, for complex.hpp 29-217. -/
def val (b : BitVec 64) : ℚ := if b.toNat < 2 ^ 63 then mag b.toNat else -mag b.toNat

/-- The bits are those of a finite number. Format `double` of IEEE 754, for complex.hpp 29-217. -/
def Fin (b : BitVec 64) : Prop := expo b.toNat ≠ 2047

instance (b : BitVec 64) : Decidable (Fin b) := inferInstanceAs (Decidable (_ ≠ _))

/-- `highHalf`, 131-136: the bits of the result. -/
def highHalf (b : BitVec 64) : BitVec 64 := (b + 0x3ffffff#64) &&& 0xfffffffff8000000#64

/-- `sqrError`, 173-178 (`f` is `double`) and 186-191 (any other type, whose value is converted to `double` for `highHalf`; `b` are the
bits of `x` as a `double`; the conversion of the result to the type `T` is exact for `float`, see `high_float` in Props/ErrFree.lean). -/
def sqrError (f : Fmt) (b : BitVec 64) (prod0 : ℚ) : ℚ :=
  let x := val b
  let xHigh := rnd f (val (highHalf b))
  let xLow := rnd f (x - xHigh)
  rnd f (rnd f (rnd f (rnd f (xHigh * xHigh) - prod0) + rnd f (rnd f (2 * xHigh) * xLow)) + rnd f (xLow * xLow))

/-- `sqrError`, 151-168: with a fused multiply and subtract. -/
def sqrErrorFma (f : Fmt) (b : BitVec 64) (prod0 : ℚ) : ℚ := rnd f (val b * val b - prod0)

/-- `sqrX2`, 200-204, 210-214. `fma` says whether `sqrError` is the one with intrinsics, which exists for `double` only. -/
def sqrX2 (f : Fmt) (fma : Bool) (b : BitVec 64) : Fmp :=
  let prod0 := rnd f (val b * val b)
  ⟨prod0, if fma then sqrErrorFma f b prod0 else sqrError f b prod0⟩

/-- `normMinusOne`, 270-277. -/
def normMinusOne (f : Fmt) (fma : Bool) (x y : BitVec 64) : ℚ :=
  let xSqr := sqrX2 f fma x
  let ySqr := sqrX2 f fma y
  let xSqrM1 := addSmallX2' f (-1) xSqr
  addX1 f xSqrM1 ySqr

end Verif.ErrFree
