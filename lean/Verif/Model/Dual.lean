import Mathlib.Analysis.SpecialFunctions.Pow.Real
import Mathlib.Analysis.SpecialFunctions.Arsinh
import Mathlib.Analysis.SpecialFunctions.Arcosh
import Mathlib.Analysis.SpecialFunctions.Artanh
import Mathlib.Analysis.SpecialFunctions.Trigonometric.Arctan
import Mathlib.Analysis.SpecialFunctions.Trigonometric.Inverse
import Mathlib.Analysis.SpecialFunctions.Log.Base

/-!
# Dual numbers (`autodiff/dual.hpp`)

Models the class `Dual<T>`. The operators are those of any scalar type, run on real numbers (C45, C46) and on floating-point numbers (C159).
In the functions `T` is `ℝ` with exact arithmetic, and the functions of the C++ library that
`math/coreMath.hpp` (lines 115-420) forwards to are the real functions of that name.
Where a C++ function or a division yields an infinity or a NaN the model's outcome is `none`; the model does not follow
such values further.
The constructors and assignments between `Dual<U>` types (lines 31-54), `str` (103-111) and the type traits are not modelled.
-/

namespace Verif.DualM

/-- `Dual<T>`, dual.hpp 14-28 -/
@[ext] structure Dual (K : Type) where
  value : K
  derivative : K

section Arith
variable {K : Type} [Zero K] [Add K] [Sub K] [Neg K] [Mul K] [Div K] [DecidableEq K]

/-- Division of scalars; dividing by zero gives an infinity or a NaN. For autodiff/dual.hpp 8-448. -/
def cDiv (a b : K) : Option K := if b = 0 then none else some (a / b)

/-- `Dual(Scalar value)`, line 31 -/
def ofScalar (c : K) : Dual K := ⟨c, 0⟩

/-! ## Binary operators -/

/-- `Dual + Dual`, lines 116-120 -/
def add (a b : Dual K) : Dual K := ⟨a.value + b.value, a.derivative + b.derivative⟩
/-- `Dual + scalar`, 122-127 -/
def addS (a : Dual K) (c : K) : Dual K := ⟨a.value + c, a.derivative⟩
/-- `scalar + Dual`, 129-134 -/
def sAdd (c : K) (a : Dual K) : Dual K := ⟨c + a.value, a.derivative⟩
/-- `Dual - Dual`, 136-140 -/
def sub (a b : Dual K) : Dual K := ⟨a.value - b.value, a.derivative - b.derivative⟩
/-- `Dual - scalar`, 142-147 -/
def subS (a : Dual K) (c : K) : Dual K := ⟨a.value - c, a.derivative⟩
/-- `scalar - Dual`, 149-154 -/
def sSub (c : K) (a : Dual K) : Dual K := ⟨c - a.value, -a.derivative⟩
/-- `Dual * Dual`, 156-160 -/
def mul (a b : Dual K) : Dual K := ⟨a.value * b.value, a.derivative * b.value + a.value * b.derivative⟩
/-- `Dual * scalar`, 162-167 -/
def mulS (a : Dual K) (c : K) : Dual K := ⟨a.value * c, a.derivative * c⟩
/-- `scalar * Dual`, 169-174 -/
def sMul (c : K) (a : Dual K) : Dual K := ⟨c * a.value, c * a.derivative⟩
/-- `Dual / Dual`, 176-182 -/
def div (a b : Dual K) : Option (Dual K) := do
  let v ← cDiv a.value b.value
  let d ← cDiv (a.derivative * b.value - a.value * b.derivative) (b.value * b.value)
  some ⟨v, d⟩
/-- `Dual / scalar`, 184-189 -/
def divS (a : Dual K) (c : K) : Option (Dual K) := do
  let v ← cDiv a.value c
  let d ← cDiv a.derivative c
  some ⟨v, d⟩
/-- `scalar / Dual`, 191-196 -/
def sDiv (c : K) (a : Dual K) : Option (Dual K) := do
  let v ← cDiv c a.value
  let d ← cDiv (-c * a.derivative) (a.value * a.value)
  some ⟨v, d⟩
/-- `-Dual`, 198-201 -/
def neg (a : Dual K) : Dual K := ⟨-a.value, -a.derivative⟩
/-- `+Dual`, 203-206 -/
def pos (a : Dual K) : Dual K := ⟨a.value, a.derivative⟩

/-! ## Compound assignment

The objects live in a store, so that `a op= a` is the call with equal addresses. -/

/-- Objects by address. For autodiff/dual.hpp 8-448. -/
abbrev Store (K : Type) := Nat → Dual K

/-- Assignment to the members of the object at `i`. For autodiff/dual.hpp 8-448. -/
def setValue (m : Store K) (i : Nat) (v : K) : Store K := fun k => if k = i then { m i with value := v } else m k
/-- Assignment to the member `derivative` of the object at `i`. For autodiff/dual.hpp 8-448. -/
def setDeriv (m : Store K) (i : Nat) (v : K) : Store K := fun k => if k = i then { m i with derivative := v } else m k

/-- `operator+=(const Dual &other)`, lines 57-61; `*this` is at `i`, `other` at `j` -/
def addAssign (m : Store K) (i j : Nat) : Store K :=
  let m := setValue m i ((m i).value + (m j).value)
  setDeriv m i ((m i).derivative + (m j).derivative)

/-- `operator-=`, lines 63-67 -/
def subAssign (m : Store K) (i j : Nat) : Store K :=
  let m := setValue m i ((m i).value - (m j).value)
  setDeriv m i ((m i).derivative - (m j).derivative)

/-- `operator*=`, lines 69-73 -/
def mulAssign (m : Store K) (i j : Nat) : Store K :=
  let m := setValue m i ((m i).value * (m j).value)
  setDeriv m i ((m i).derivative * (m j).value + (m i).value * (m j).derivative)

/-- `operator/=`, lines 75-80 -/
def divAssign (m : Store K) (i j : Nat) : Option (Store K) := do
  let q ← cDiv (m i).value (m j).value
  let m := setValue m i q
  let d ← cDiv ((m i).derivative * (m j).value - (m i).value * (m j).derivative) ((m j).value * (m j).value)
  some (setDeriv m i d)

/-- `operator+=(const T &other)`, lines 82-85, for a scalar that is not a member of the object -/
def addAssignS (a : Dual K) (c : K) : Dual K := { a with value := a.value + c }
/-- `operator-=(const T &other)`, lines 87-90 -/
def subAssignS (a : Dual K) (c : K) : Dual K := { a with value := a.value - c }
/-- `operator*=(const T &other)`, lines 92-96 -/
def mulAssignS (a : Dual K) (c : K) : Dual K := ⟨a.value * c, a.derivative * c⟩
/-- `operator/=(const T &other)`, lines 98-102 -/
def divAssignS (a : Dual K) (c : K) : Option (Dual K) := do
  let v ← cDiv a.value c
  let d ← cDiv a.derivative c
  some ⟨v, d⟩

end Arith

/-! ## Elementary functions on real duals -/

noncomputable section

open Real

/-! The functions of the C++ library on real arguments. -/

/-- `std::sqrt`. math/coreMath.hpp 127-133. -/
def cSqrt (x : ℝ) : Option ℝ := if 0 ≤ x then some √x else none
/-- `std::log`. math/coreMath.hpp 242-248. -/
def cLog (x : ℝ) : Option ℝ := if 0 < x then some (log x) else none
/-- `std::log10` -/
def cLog10 (x : ℝ) : Option ℝ := if 0 < x then some (logb 10 x) else none
/-- `std::log2` -/
def cLog2 (x : ℝ) : Option ℝ := if 0 < x then some (logb 2 x) else none
/-- `std::tan`. math/coreMath.hpp 317-323. -/
def cTan (x : ℝ) : Option ℝ := if cos x = 0 then none else some (tan x)
/-- `std::asin`. math/coreMath.hpp 332-338. -/
def cAsin (x : ℝ) : Option ℝ := if -1 ≤ x ∧ x ≤ 1 then some (arcsin x) else none
/-- `std::acos`. math/coreMath.hpp 347-353. -/
def cAcos (x : ℝ) : Option ℝ := if -1 ≤ x ∧ x ≤ 1 then some (arccos x) else none
/-- `std::acosh`. math/coreMath.hpp 455-461. -/
def cAcosh (x : ℝ) : Option ℝ := if 1 ≤ x then some (arcosh x) else none
/-- `std::atanh`. math/coreMath.hpp 470-476. -/
def cAtanh (x : ℝ) : Option ℝ := if -1 < x ∧ x < 1 then some (artanh x) else none
/-- `std::cbrt`. math/coreMath.hpp 159-165. -/
def realCbrt (x : ℝ) : ℝ := if 0 ≤ x then x ^ (1 / 3 : ℝ) else -((-x) ^ (1 / 3 : ℝ))
/-- `std::pow`: a zero base is 1 to the power 0, and infinite to a negative power; a negative base needs an integral
exponent. -/
def cPow (x y : ℝ) : Option ℝ :=
  if 0 < x then some (x ^ y)
  else if x = 0 then (if y = 0 then some 1 else if 0 < y then some 0 else none)
  else if y = (⌊y⌋ : ℝ) then some (x ^ ⌊y⌋) else none

/-! The functions on duals. -/

/-- lines 208-212 -/
def dSin (x : Dual ℝ) : Option (Dual ℝ) := some ⟨sin x.value, cos x.value * x.derivative⟩
/-- lines 214-218 -/
def dCos (x : Dual ℝ) : Option (Dual ℝ) := some ⟨cos x.value, -sin x.value * x.derivative⟩
/-- lines 220-225 -/
def dTan (x : Dual ℝ) : Option (Dual ℝ) := do
  let cosX := cos x.value
  let v ← cTan x.value
  let d ← cDiv x.derivative (cosX * cosX)
  some ⟨v, d⟩
/-- lines 227-232 -/
def dAsin (x : Dual ℝ) : Option (Dual ℝ) := do
  let v ← cAsin x.value
  let s ← cSqrt (1 - x.value * x.value)
  let d ← cDiv x.derivative s
  some ⟨v, d⟩
/-- lines 234-239 -/
def dAcos (x : Dual ℝ) : Option (Dual ℝ) := do
  let v ← cAcos x.value
  let s ← cSqrt (1 - x.value * x.value)
  let d ← cDiv (-x.derivative) s
  some ⟨v, d⟩
/-- lines 241-245 -/
def dAtan (x : Dual ℝ) : Option (Dual ℝ) := do
  let d ← cDiv x.derivative (1 + x.value * x.value)
  some ⟨arctan x.value, d⟩
/-- lines 247-251 -/
def dSinh (x : Dual ℝ) : Option (Dual ℝ) := some ⟨sinh x.value, cosh x.value * x.derivative⟩
/-- lines 253-257 -/
def dCosh (x : Dual ℝ) : Option (Dual ℝ) := some ⟨cosh x.value, sinh x.value * x.derivative⟩
/-- lines 259-264 -/
def dTanh (x : Dual ℝ) : Option (Dual ℝ) := do
  let coshX := cosh x.value
  let d ← cDiv x.derivative (coshX * coshX)
  some ⟨tanh x.value, d⟩
/-- lines 266-271 -/
def dAsinh (x : Dual ℝ) : Option (Dual ℝ) := do
  let s ← cSqrt (1 + x.value * x.value)
  let d ← cDiv x.derivative s
  some ⟨arsinh x.value, d⟩
/-- lines 273-278 -/
def dAcosh (x : Dual ℝ) : Option (Dual ℝ) := do
  let v ← cAcosh x.value
  let s ← cSqrt (x.value * x.value - 1)
  let d ← cDiv x.derivative s
  some ⟨v, d⟩
/-- lines 280-284 -/
def dAtanh (x : Dual ℝ) : Option (Dual ℝ) := do
  let v ← cAtanh x.value
  let d ← cDiv x.derivative (1 - x.value * x.value)
  some ⟨v, d⟩
/-- lines 286-291 -/
def dExp (x : Dual ℝ) : Option (Dual ℝ) :=
  let expX := exp x.value
  some ⟨expX, expX * x.derivative⟩
/-- lines 293-298 -/
def dExp2 (x : Dual ℝ) : Option (Dual ℝ) := do
  let exp2X := (2 : ℝ) ^ x.value
  let l ← cLog 2
  some ⟨exp2X, exp2X * l * x.derivative⟩
/-- lines 300-305 -/
def dExp10 (x : Dual ℝ) : Option (Dual ℝ) := do
  let exp2X := (10 : ℝ) ^ x.value
  let l ← cLog 10
  some ⟨exp2X, exp2X * l * x.derivative⟩
/-- lines 307-311 -/
def dLog (x : Dual ℝ) : Option (Dual ℝ) := do
  let v ← cLog x.value
  let d ← cDiv x.derivative x.value
  some ⟨v, d⟩
/-- lines 313-318 -/
def dLog10 (x : Dual ℝ) : Option (Dual ℝ) := do
  let v ← cLog10 x.value
  let l ← cLog 10
  let d ← cDiv x.derivative (x.value * l)
  some ⟨v, d⟩
/-- lines 320-324 -/
def dLog2 (x : Dual ℝ) : Option (Dual ℝ) := do
  let v ← cLog2 x.value
  let l ← cLog 2
  let d ← cDiv x.derivative (x.value * l)
  some ⟨v, d⟩
/-- lines 326-330 -/
def dSqrt (x : Dual ℝ) : Option (Dual ℝ) := do
  let v ← cSqrt x.value
  let s ← cSqrt x.value
  let d ← cDiv x.derivative (2 * s)
  some ⟨v, d⟩
/-- lines 332-337 -/
def dCbrt (x : Dual ℝ) : Option (Dual ℝ) := do
  let d ← cDiv x.derivative (3 * realCbrt (x.value * x.value))
  some ⟨realCbrt x.value, d⟩
/-- `pow(Dual, scalar)`, lines 339-345 -/
def dPowS (x : Dual ℝ) (y : ℝ) : Option (Dual ℝ) := do
  let v ← cPow x.value y
  let p ← cPow x.value (y - 1)
  some ⟨v, y * p * x.derivative⟩
/-- `pow(scalar, Dual)`, lines 347-353 -/
def dSPow (x : ℝ) (y : Dual ℝ) : Option (Dual ℝ) := do
  let v ← cPow x y.value
  let l ← cLog x
  some ⟨v, l * v * y.derivative⟩
/-- `pow(Dual, Dual)`, lines 355-362 -/
def dPow (x y : Dual ℝ) : Option (Dual ℝ) := do
  let p ← cPow x.value y.value
  let l ← cLog x.value
  let q ← cDiv (y.value * x.derivative) x.value
  some ⟨p, p * (y.derivative * l + q)⟩

/-! ## Expressions -/

/-- The functions of one argument. For autodiff/dual.hpp 8-448. -/
inductive Fn where
  | neg | pos | sin | cos | tan | asin | acos | atan | sinh | cosh | tanh | asinh | acosh | atanh
  | exp | exp2 | exp10 | log | log10 | log2 | sqrt | cbrt
deriving DecidableEq

/-- The binary operators that have overloads for duals and scalars. For autodiff/dual.hpp 8-448. -/
inductive Op where
  | add | sub | mul | div | pow
deriving DecidableEq

/-- An expression over variables; the overloads with a scalar on one side are separate constructors. For autodiff/dual.hpp 8-448. -/
inductive Ex where
  | var (i : Nat)
  | const (c : ℝ)
  | fn (f : Fn) (e : Ex)
  | op (o : Op) (a b : Ex)
  | opS (o : Op) (a : Ex) (c : ℝ)
  | sOp (o : Op) (c : ℝ) (a : Ex)

/-- The library's function of that name. For autodiff/dual.hpp 8-448. -/
def Fn.dual : Fn → Dual ℝ → Option (Dual ℝ)
  | .neg => fun x => some (DualM.neg x) | .pos => fun x => some (DualM.pos x)
  | .sin => dSin | .cos => dCos | .tan => dTan | .asin => dAsin | .acos => dAcos | .atan => dAtan
  | .sinh => dSinh | .cosh => dCosh | .tanh => dTanh | .asinh => dAsinh | .acosh => dAcosh | .atanh => dAtanh
  | .exp => dExp | .exp2 => dExp2 | .exp10 => dExp10 | .log => dLog | .log10 => dLog10 | .log2 => dLog2
  | .sqrt => dSqrt | .cbrt => dCbrt

/-- The library's operator on two duals. For autodiff/dual.hpp 8-448. -/
def Op.dual : Op → Dual ℝ → Dual ℝ → Option (Dual ℝ)
  | .add => fun x y => some (DualM.add x y) | .sub => fun x y => some (DualM.sub x y)
  | .mul => fun x y => some (DualM.mul x y) | .div => DualM.div | .pow => dPow

/-- The library's operator on a dual and a scalar. For autodiff/dual.hpp 8-448. -/
def Op.dualS : Op → Dual ℝ → ℝ → Option (Dual ℝ)
  | .add => fun x c => some (addS x c) | .sub => fun x c => some (subS x c)
  | .mul => fun x c => some (mulS x c) | .div => divS | .pow => dPowS

/-- The library's operator on a scalar and a dual. For autodiff/dual.hpp 8-448. -/
def Op.sDual : Op → ℝ → Dual ℝ → Option (Dual ℝ)
  | .add => fun c x => some (sAdd c x) | .sub => fun c x => some (sSub c x)
  | .mul => fun c x => some (sMul c x) | .div => sDiv | .pow => dSPow

/-- Evaluation on dual numbers. For autodiff/dual.hpp 8-448. -/
def Ex.dual (env : Nat → Dual ℝ) : Ex → Option (Dual ℝ)
  | .var i => some (env i)
  | .const c => some (ofScalar c)
  | .fn f e => do f.dual (← e.dual env)
  | .op o a b => do o.dual (← a.dual env) (← b.dual env)
  | .opS o a c => do o.dualS (← a.dual env) c
  | .sOp o c a => do o.sDual c (← a.dual env)

end

end Verif.DualM
