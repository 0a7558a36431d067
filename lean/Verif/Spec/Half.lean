import Mathlib.Data.Rat.Defs
import Mathlib.Algebra.Order.Field.Rat

/-!
# IEEE 754 binary formats

What a bit pattern of a binary interchange format denotes (IEEE 754-2019, 3.4), independently of the conversions.
-/

namespace Verif.HalfS

/-- The datum a bit pattern denotes: a NaN, an infinity, or a sign and a magnitude. -/
inductive FV where
  | nan
  | inf (neg : Bool)
  | fin (neg : Bool) (mag : ℚ)
deriving DecidableEq

/-- Decoding, for `mb` fraction bits and `eb` exponent bits. -/
def ieee (mb eb bits : Nat) : FV :=
  let m := bits % 2 ^ mb
  let e := bits / 2 ^ mb % 2 ^ eb
  let s := decide (bits / 2 ^ (mb + eb) % 2 = 1)
  let bias : Int := 2 ^ (eb - 1) - 1
  if e = 2 ^ eb - 1 then (if m = 0 then .inf s else .nan)
  else if e = 0 then .fin s (m * (2 : ℚ) ^ (1 - bias - mb))
  else .fin s ((2 ^ mb + m : ℕ) * (2 : ℚ) ^ ((e : Int) - bias - mb))

/-- binary16 -/
def halfVal (h : Nat) : FV := ieee 10 5 h
/-- binary32 -/
def floatVal (f : Nat) : FV := ieee 23 8 f

/-- The number a finite datum denotes. -/
def FV.toRat? : FV → Option ℚ
  | .fin s q => some (if s then -q else q)
  | _ => none

/-- Less-than on data: false when one is a NaN. -/
def FV.lt : FV → FV → Prop
  | .fin s p, .fin t q => (if s then -p else p) < (if t then -q else q)
  | .inf true, .fin _ _ => True
  | .inf true, .inf false => True
  | .fin _ _, .inf false => True
  | _, _ => False

/-- Equality of data as numbers: the zeros are equal, a NaN equals nothing. -/
def FV.eq : FV → FV → Prop
  | .fin s p, .fin t q => (if s then -p else p) = (if t then -q else q)
  | .inf s, .inf t => s = t
  | _, _ => False

/-- `r` is a half nearest to the number `q`: no finite half is closer, and from `65520 = 2^16 - 2^4` on it is the infinity of the sign
of `q`. -/
def NearestHalf (r : Nat) (q : ℚ) : Prop :=
  if 65520 ≤ |q| then halfVal r = .inf (decide (q < 0))
  else ∃ v, (halfVal r).toRat? = some v ∧ ∀ h < 2 ^ 16, ∀ w, (halfVal h).toRat? = some w → |v - q| ≤ |w - q|

/-- A bit pattern of a quiet NaN of binary32 (IEEE 754-2019, 6.2.1). -/
def QuietNan (f : Nat) : Prop := f / 2 ^ 23 % 2 ^ 8 = 255 ∧ 2 ^ 22 ≤ f % 2 ^ 23

/-- `r` is a quotient of the binary32 numbers `a` and `b` (IEEE 754-2019, 5.4.1, 6.1-6.3, 7.2, 7.3) to nearest: no number of the same
sign is closer. Which of two nearest is taken is left open, and so are quotients of `2^127` or more. -/
def FloatQuotient (a b r : Nat) : Prop :=
  r < 2 ^ 32 ∧
  match floatVal a, floatVal b with
  | .nan, _ => QuietNan r
  | _, .nan => QuietNan r
  | .inf _, .inf _ => QuietNan r
  | .inf s, .fin t _ => floatVal r = .inf (s != t)
  | .fin s _, .inf t => floatVal r = .fin (s != t) 0
  | .fin s p, .fin t q =>
    if q = 0 then (if p = 0 then QuietNan r else floatVal r = .inf (s != t))
    else p / q < 2 ^ 127 → ∃ v, floatVal r = .fin (s != t) v ∧
      ∀ h < 2 ^ 32, ∀ u, floatVal h = .fin (s != t) u → |v - p / q| ≤ |u - p / q|

/-- `fdiv` is a division of binary32. -/
def FloatDivision (fdiv : Nat → Nat → Nat) : Prop := ∀ a < 2 ^ 32, ∀ b < 2 ^ 32, FloatQuotient a b (fdiv a b)

/-- `r` is a binary32 number nearest to `d` (IEEE 754-2019, 5.4.2). -/
def FloatNearest (d : ℚ) (r : Nat) : Prop :=
  r < 2 ^ 32 ∧ ∃ v, floatVal r = .fin (decide (d < 0)) v ∧
    ∀ h < 2 ^ 32, ∀ u, floatVal h = .fin (decide (d < 0)) u → |v - (|d|)| ≤ |u - (|d|)|

/-- `fcast` converts numbers of another type, below `2^127` in magnitude, to binary32. -/
def FloatConversion (fcast : ℚ → Nat) : Prop := ∀ d, |d| < 2 ^ 127 → FloatNearest d (fcast d)

end Verif.HalfS
