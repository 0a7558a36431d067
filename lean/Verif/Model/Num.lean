import Verif.Basic
import Verif.Model.Ieee
import Mathlib.Order.WithBot

/-!
# Numbers of the fundamental types, and the small helpers on them

Models the scalar helpers `min`, `max`, `abs`, `mod`, `floor`, `ceil` (math/coreMath.hpp 13-120) and `copySign`, `signBit`, `ldexp`
(utils/memUtils.hpp 63-124, math/multiprec.hpp 473-531) for the integer types, `float` and `double`, together with the conversions
that C++ inserts between these types. Unlike `Model/Ieee.lean` the floating-point numbers here have infinities, NaN and two zeros.

Simplifications:
* An integer type is its width and signedness; types of one width and signedness (`long` and `long long`) are one type, and there
  is no `bool`, no character type and no `long double`.
* A NaN has a sign and nothing else.
* `std::copysign`, `std::ldexp`, `std::floor` and `std::ceil` are those of IEEE 754: correctly rounded, and for integers they
  compute in `double`, as the C++ standard says.
-/

namespace Verif.Num

open Verif.Ieee

/-- `float` and `double`. Arithmetic types and conversions of C++, for math/coreMath.hpp 13-120 and utils/memUtils.hpp 63-124. -/
inductive FTy where
  | flt
  | dbl
deriving DecidableEq

/-- The format of a floating-point type. Arithmetic types and conversions of C++, for math/coreMath.hpp 13-120 and utils/memUtils.hpp
63-124. -/
def FTy.fmt : FTy → Fmt
  | .flt => binary32
  | .dbl => binary64

/-- Numbers from `2 ^ emax` on overflow. -/
def FTy.emax : FTy → Nat
  | .flt => 128
  | .dbl => 1024

/-- The fundamental arithmetic types. Arithmetic types and conversions of C++, for math/coreMath.hpp 13-120 and utils/memUtils.hpp
63-124. -/
inductive Ty where
  | int (signed : Bool) (w : Nat)
  | fp (f : FTy)
deriving DecidableEq

/-- A floating-point datum: NaN, an infinity, or a finite number of magnitude `m`; `s` is the sign bit. Arithmetic types and conversions
of C++, for math/coreMath.hpp 13-120 and utils/memUtils.hpp 63-124. -/
inductive Fp where
  | nan (s : Bool)
  | inf (s : Bool)
  | fin (s : Bool) (m : ℚ)
deriving DecidableEq

/-- The sign bit. Arithmetic types and conversions of C++, for math/coreMath.hpp 13-120 and utils/memUtils.hpp 63-124. -/
def Fp.sign : Fp → Bool
  | .nan s => s
  | .inf s => s
  | .fin s _ => s

/-- The datum with another sign bit. Arithmetic types and conversions of C++, for math/coreMath.hpp 13-120 and utils/memUtils.hpp 63-124. -/
def Fp.withSign (s : Bool) : Fp → Fp
  | .nan _ => .nan s
  | .inf _ => .inf s
  | .fin _ m => .fin s m

/-- The rational a finite number denotes. Arithmetic types and conversions of C++, for math/coreMath.hpp 13-120 and utils/memUtils.hpp
63-124. -/
def Fp.signed (s : Bool) (m : ℚ) : ℚ := if s then -m else m

/-- The place of a datum in the order of the extended numbers; NaN has none. Arithmetic types and conversions of C++, for
math/coreMath.hpp 13-120 and utils/memUtils.hpp 63-124. -/
def Fp.key : Fp → Option (WithBot (WithTop ℚ))
  | .nan _ => none
  | .inf true => some ⊥
  | .inf false => some ((⊤ : WithTop ℚ) : WithBot (WithTop ℚ))
  | .fin s m => some (((Fp.signed s m : ℚ) : WithTop ℚ) : WithBot (WithTop ℚ))

/-- `a < b` on floating-point data: false when one is NaN. Arithmetic types and conversions of C++, for math/coreMath.hpp 13-120 and
utils/memUtils.hpp 63-124. -/
def Fp.lt (a b : Fp) : Bool :=
  match a.key, b.key with
  | some x, some y => decide (x < y)
  | _, _ => false

/-- Rounding of a magnitude to a floating-point type. Arithmetic types and conversions of C++, for math/coreMath.hpp 13-120 and
utils/memUtils.hpp 63-124. -/
def toFp (f : FTy) (s : Bool) (m : ℚ) : Fp :=
  if (2 : ℚ) ^ f.emax ≤ rnd f.fmt m then .inf s else .fin s (rnd f.fmt m)

/-- A value of a fundamental type. Arithmetic types and conversions of C++, for math/coreMath.hpp 13-120 and utils/memUtils.hpp 63-124. -/
inductive Val where
  | i (z : Int)
  | f (x : Fp)
deriving DecidableEq

/-- Least and greatest value of an integer type. Arithmetic types and conversions of C++, for math/coreMath.hpp 13-120 and
utils/memUtils.hpp 63-124. -/
def lo (signed : Bool) (w : Nat) : Int := if signed then -2 ^ (w - 1) else 0
/-- Greatest value of an integer type. Arithmetic types and conversions of C++, for math/coreMath.hpp 13-120 and utils/memUtils.hpp
63-124. -/
def hi (signed : Bool) (w : Nat) : Int := if signed then 2 ^ (w - 1) - 1 else 2 ^ w - 1

/-- The integer is a value of the type. Arithmetic types and conversions of C++, for math/coreMath.hpp 13-120 and utils/memUtils.hpp
63-124. -/
def InR (signed : Bool) (w : Nat) (z : Int) : Prop := lo signed w ≤ z ∧ z ≤ hi signed w

instance (signed : Bool) (w : Nat) (z : Int) : Decidable (InR signed w z) := by unfold InR; infer_instance

/-- Conversion between integer types: the value of the type congruent modulo `2 ^ w`. -/
def wrap (signed : Bool) (w : Nat) (z : Int) : Int :=
  let r := z % 2 ^ w
  if signed ∧ 2 ^ (w - 1) ≤ r then r - 2 ^ w else r

/-- Conversion of a floating-point number to an integer type: towards zero; undefined when the result is not in the type. Arithmetic
types and conversions of C++, for math/coreMath.hpp 13-120 and utils/memUtils.hpp 63-124. -/
def truncTo (signed : Bool) (w : Nat) : Fp → Out Int
  | .fin s m => if InR signed w (if s then -⌊m⌋ else ⌊m⌋) then .ok (if s then -⌊m⌋ else ⌊m⌋) else .ub
  | _ => .ub

/-- Conversion of an integer to a floating-point type. Arithmetic types and conversions of C++, for math/coreMath.hpp 13-120 and
utils/memUtils.hpp 63-124. -/
def ofInt (f : FTy) (z : Int) : Fp := toFp f (decide (z < 0)) |(z : ℚ)|

/-- Conversion between floating-point types. Arithmetic types and conversions of C++, for math/coreMath.hpp 13-120 and utils/memUtils.hpp
63-124. -/
def convFp (f : FTy) : Fp → Fp
  | .fin s m => toFp f s m
  | x => x

/-- `static_cast` between fundamental types. Arithmetic types and conversions of C++, for math/coreMath.hpp 13-120 and utils/memUtils.hpp
63-124. -/
def cast (t : Ty) (v : Val) : Out Val :=
  match t, v with
  | .int sg w, .i z => .ok (.i (wrap sg w z))
  | .int sg w, .f x => do return .i (← truncTo sg w x)
  | .fp f, .i z => .ok (.f (ofInt f z))
  | .fp f, .f x => .ok (.f (convFp f x))

/-- Integer promotion: types narrower than `int` become `int`. Arithmetic types and conversions of C++, for math/coreMath.hpp 13-120 and
utils/memUtils.hpp 63-124. -/
def promote (sg : Bool) (w : Nat) : Bool × Nat := if w < 32 then (true, 32) else (sg, w)

/-- The common type of two promoted integer types. Arithmetic types and conversions of C++, for math/coreMath.hpp 13-120 and
utils/memUtils.hpp 63-124. -/
def commonInt (a b : Bool × Nat) : Bool × Nat :=
  if a.1 = b.1 then (a.1, max a.2 b.2)
  else if a.1 then (if a.2 ≤ b.2 then b else a)
  else (if b.2 ≤ a.2 then a else b)

/-- The usual arithmetic conversions. Arithmetic types and conversions of C++, for math/coreMath.hpp 13-120 and utils/memUtils.hpp
63-124. -/
def common : Ty → Ty → Ty
  | .int sa wa, .int sb wb => .int (commonInt (promote sa wa) (promote sb wb)).1 (commonInt (promote sa wa) (promote sb wb)).2
  | .int _ _, .fp f => .fp f
  | .fp f, .int _ _ => .fp f
  | .fp .flt, .fp .flt => .fp .flt
  | .fp _, .fp _ => .fp .dbl

/-- The type of `c ? a : b`: the common type unless both are the same. Arithmetic types and conversions of C++, for math/coreMath.hpp
13-120 and utils/memUtils.hpp 63-124. -/
def ternary (a b : Ty) : Ty := if a = b then a else common a b

/-- Comparison of two values of one type. Arithmetic types and conversions of C++, for math/coreMath.hpp 13-120 and utils/memUtils.hpp
63-124. -/
def ltVal : Val → Val → Bool
  | .i a, .i b => decide (a < b)
  | .f a, .f b => Fp.lt a b
  | _, _ => false

/-- `a < b` for arguments of any two fundamental types. Arithmetic types and conversions of C++, for math/coreMath.hpp 13-120 and
utils/memUtils.hpp 63-124. -/
def less (a b : Ty × Val) : Out Bool := do
  let x ← cast (common a.1 b.1) a.2
  let y ← cast (common a.1 b.1) b.2
  return ltVal x y

/-- The type of `min(vs...)` and `max(vs...)`: `auto`, deduced from the conditional expressions (coreMath.hpp 22-34, 41-53). -/
def pickTy : Ty → List Ty → Ty
  | a, [] => a
  | a, b :: r => ternary (pickTy a r) (pickTy b r)

/-- `min(val1, vals...)` (coreMath.hpp 22-34). -/
def min : Ty × Val → List (Ty × Val) → Out Val
  | a, [] => .ok a.2
  | a, b :: r => do
    let c ← less a b
    let v ← if c then min a r else min b r
    cast (pickTy a.1 ((b :: r).map Prod.fst)) v

/-- `max(val1, vals...)` (coreMath.hpp 41-53). -/
def max : Ty × Val → List (Ty × Val) → Out Val
  | a, [] => .ok a.2
  | a, b :: r => do
    let c ← less b a
    let v ← if c then max a r else max b r
    cast (pickTy a.1 ((b :: r).map Prod.fst)) v

/-- Negation in the promoted type: overflow of a signed type is undefined, an unsigned one wraps around. Arithmetic types and conversions
of C++, for math/coreMath.hpp 13-120 and utils/memUtils.hpp 63-124. -/
def negI (sg : Bool) (w : Nat) (z : Int) : Out Int :=
  if (promote sg w).1 then (if InR true (promote sg w).2 (-z) then .ok (-z) else .ub)
  else .ok (wrap false w (-z))

/-- `abs(val)` (coreMath.hpp 59-63) for an integer type: the result is converted back to the type. -/
def absI (sg : Bool) (w : Nat) (z : Int) : Out Int :=
  if z < 0 then do return wrap sg w (← negI sg w z) else .ok z

/-- `abs(val)` (coreMath.hpp 59-63) for a floating-point type. -/
def absF (x : Fp) : Fp := if Fp.lt x (.fin false 0) then x.withSign (!x.sign) else x

/-- `val % mod` in one promoted type: towards zero; undefined for 0 and when the quotient is not in the type. -/
def remI (sg : Bool) (w : Nat) (a b : Int) : Out Int :=
  if b = 0 then .ub else if sg ∧ a = lo sg w ∧ b = -1 then .ub else .ok (a.tmod b)

/-- `mod(val, mod)` (coreMath.hpp 92-99) for integers. -/
def modI (sa : Bool) (wa : Nat) (sb : Bool) (wb : Nat) (a b : Int) : Out Int :=
  let c := commonInt (promote sa wa) (promote sb wb)
  remI c.1 c.2 (wrap c.1 c.2 a) (wrap c.1 c.2 b)

/-- `floor(val)` and `ceil(val)` (coreMath.hpp 105-119) for an integer type: `std::floor(double)` of a whole number is that number,
and the result is converted back. -/
def floorI (sg : Bool) (w : Nat) (z : Int) : Out Int := truncTo sg w (ofInt .dbl z)

/-- `std::copysign(mag, static_cast<T>(sign))` (memUtils.hpp 69-76) for `T` a floating-point type. -/
def copySignF (f : FTy) (mag : Fp) (sign : Val) : Fp :=
  match sign with
  | .i z => mag.withSign (ofInt f z).sign
  | .f x => mag.withSign (convFp f x).sign

/-- `std::copysign(mag, static_cast<T>(sign))` (memUtils.hpp 69-76) for `T` an integer type: `std::copysign` converts both to
`double`, and its result is converted back to `T`. -/
def copySignI (sg : Bool) (w : Nat) (mag : Int) (sign : Val) : Out Int := do
  match ← cast (.int sg w) sign with
  | .i z => truncTo sg w ((ofInt .dbl mag).withSign (ofInt .dbl z).sign)
  | .f _ => .ub

/-- `copySign(mag, sign)` (memUtils.hpp 77-80) for a type that is not fundamental, such as `half`. -/
def copySignG {α : Type} [LT α] [DecidableRel (α := α) (· < ·)] [Zero α] [Neg α] (mag sign : α) : α :=
  if sign < 0 then -mag else mag

/-- `copySign(mag, sign)` (multiprec.hpp 486-495) for `mpz`, `mpf` and `mpq`. -/
def copySignMp (mag sign : ℚ) : ℚ :=
  if 0 ≤ sign ∧ 0 ≤ mag then mag
  else if 0 ≤ sign ∧ mag < 0 then -mag
  else if sign < 0 ∧ 0 ≤ mag then -mag
  else if sign < 0 ∧ mag < 0 then mag
  else 0

/-- `signBit(val)` (memUtils.hpp 87-114): integers go through `double`. -/
def signBit : Val → Bool
  | .i z => (ofInt .dbl z).sign
  | .f x => x.sign

/-- `signBit(val)` (multiprec.hpp 502-505) for `mpz`, `mpf` and `mpq`, which have one zero: `val < 0 || val == -0.0`. -/
def signBitMp (x : ℚ) : Bool := decide (x < 0) || decide (x = 0)

/-- `std::ldexp(x, e)`. Arithmetic types and conversions of C++, for math/coreMath.hpp 13-120 and utils/memUtils.hpp 63-124. -/
def stdLdexp (f : FTy) (x : Fp) (e : Int) : Fp :=
  match x with
  | .fin s m => toFp f s (m * (2 : ℚ) ^ e)
  | x => x

/-- `ldexp(x, exp)` (memUtils.hpp 121-124) for a floating-point type: the exponent, of 64 bits, is converted to `int`. -/
def ldexpF (f : FTy) (x : Fp) (e : Int) : Fp := stdLdexp f x (wrap true 32 e)

/-- `ldexp(x, exp)` (memUtils.hpp 121-124) for an integer type: computed in `double`. -/
def ldexpI (sg : Bool) (w : Nat) (z e : Int) : Out Int := truncTo sg w (ldexpF .dbl (ofInt .dbl z) e)

/-- `ldexp(x, exp)` (multiprec.hpp 526-531) for `mpf`: `x << exp`, whose count is an unsigned number of 64 bits. -/
def ldexpMp (x : ℚ) (e : Int) : ℚ := x * (2 : ℚ) ^ (wrap false 64 e)

end Verif.Num
