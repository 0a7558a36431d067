import Verif.Model.Num

/-!
The square root of the elements of an integer array: `librapid::sqrt` converts an integer to `double` and takes the square root
there (math/coreMath.hpp 121-134), the functor converts the result back to the element type (array/operations.hpp 115-127, 175).

`std::sqrt` is that of IEEE 754: correctly rounded, NaN for negative numbers. Elements evaluated in packets (arrays of `int32_t`
and narrower types, core/traits.hpp 193-385) use the square root of the SIMD library and are not modelled; arrays of 64-bit
integers are evaluated element by element (core/traits.hpp 417, 449).
-/

namespace Verif.IntSqrt

open Verif.Ieee Verif.Num

/-- Exponent of the unit in the last place of the square root of `m > 0`: the root of a number from 2^(2k) to 2^(2k+2) lies between
2^k and 2^(k+1) and has 53 significant bits. For `std::sqrt`, math/coreMath.hpp 130. -/
def rootExp (m : ℚ) : Int := Int.log 2 m / 2 - 52

/-- The root in units of the last place, rounded down. For `std::sqrt`, math/coreMath.hpp 130. -/
def rootFloor (m : ℚ) : Nat := Nat.sqrt ⌊m / (4 : ℚ) ^ rootExp m⌋.toNat

/-- The correctly rounded square root of a `double` `m ≥ 0`: the root is compared with the middle between two numbers (it cannot be
equal to it). For `std::sqrt`, math/coreMath.hpp 130. -/
def sqrtRnd (m : ℚ) : ℚ :=
  if m = 0 then 0
  else if m / (4 : ℚ) ^ rootExp m < (rootFloor m + 1 / 2) ^ 2 then rootFloor m * (2 : ℚ) ^ rootExp m
  else (rootFloor m + 1) * (2 : ℚ) ^ rootExp m

/-- `std::sqrt` of a `double` (math/coreMath.hpp 130). -/
def stdSqrt : Fp → Fp
  | .nan s => .nan s
  | .inf s => if s then .nan true else .inf false
  | .fin s m => if m = 0 then .fin s 0 else if s then .nan true else .fin false (sqrtRnd m)

/-- `(T)(librapid::sqrt(arg))` for an integer type `T` (array/operations.hpp 119, math/coreMath.hpp 128-130). -/
def sqrtElem (sg : Bool) (w : Nat) (z : Int) : Out Int := truncTo sg w (stdSqrt (ofInt .dbl z))

/-- All elements, in order (array/assignOps.hpp 60-65): the first undefined one makes the evaluation undefined. -/
def sqrtAll (sg : Bool) (w : Nat) : List Int → Out (List Int)
  | [] => .ok []
  | z :: zs => (sqrtElem sg w z).bind fun r => (sqrtAll sg w zs).bind fun rs => .ok (r :: rs)

end Verif.IntSqrt
