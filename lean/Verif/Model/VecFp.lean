import Verif.Model.Vector
import Verif.Model.IntSqrt

/-!
# Lengths of vectors of `double`, with infinities and NaN

The arithmetic of IEEE 754 on `Num.Fp` (rounding to nearest, ties to even), so that the model of `mag2` and `norm`
(`Model/Vector.lean`) can be run with overflow and division by zero. Not modelled: contraction of a product and a sum to one operation.
-/

namespace Verif.Num

open Verif.Ieee

/-- `a + b` of two `double`s. Arithmetic of IEEE 754, for math/vectorImpl.hpp 239-249, 349-361. -/
def addF : Fp → Fp → Fp
  | .nan s, _ => .nan s
  | .inf _, .nan s => .nan s
  | .inf s, .inf t => if s = t then .inf s else .nan true
  | .inf s, .fin _ _ => .inf s
  | .fin _ _, .nan s => .nan s
  | .fin _ _, .inf s => .inf s
  | .fin s a, .fin t b =>
    if Fp.signed s a + Fp.signed t b = 0 then .fin (s && t) 0
    else toFp .dbl (decide (Fp.signed s a + Fp.signed t b < 0)) |Fp.signed s a + Fp.signed t b|

/-- `a * b` of two `double`s. Arithmetic of IEEE 754, for math/vectorImpl.hpp 245-249, 356-361. -/
def mulF : Fp → Fp → Fp
  | .nan s, _ => .nan s
  | .inf _, .nan s => .nan s
  | .inf s, .inf t => .inf (s != t)
  | .inf s, .fin t b => if b = 0 then .nan true else .inf (s != t)
  | .fin _ _, .nan s => .nan s
  | .fin s a, .inf t => if a = 0 then .nan true else .inf (s != t)
  | .fin s a, .fin t b => toFp .dbl (s != t) (a * b)

/-- `a / b` of two `double`s. Arithmetic of IEEE 754, for math/vectorImpl.hpp 1054-1056. -/
def divF : Fp → Fp → Fp
  | .nan s, _ => .nan s
  | .inf _, .nan s => .nan s
  | .inf _, .inf _ => .nan true
  | .inf s, .fin t _ => .inf (s != t)
  | .fin _ _, .nan s => .nan s
  | .fin s _, .inf t => .fin (s != t) 0
  | .fin s a, .fin t b =>
    if b = 0 then (if a = 0 then .nan true else .inf (s != t)) else toFp .dbl (s != t) (a / b)

/-- `Scalar(0)`, math/vectorImpl.hpp 240, 246. -/
instance : Zero Fp := ⟨.fin false 0⟩
/-- `a + b`, for math/vectorImpl.hpp 241, 247, 350-354, 357-361 -/
instance : Add Fp := ⟨addF⟩
/-- `a * b`, for math/vectorImpl.hpp 247, 358 -/
instance : Mul Fp := ⟨mulF⟩
/-- `a / b`, for math/vectorImpl.hpp 1055 -/
instance : Div Fp := ⟨divF⟩

end Verif.Num

namespace Verif.Vec

open Verif.Num Verif.IntSqrt

/-- `mag(val)` of a vector of `double`, math/vectorImpl.hpp 1014-1018. -/
def magF (asserts : Bool) (mem : Nat → Fp) (e : Expr Fp) : Out Fp := do
  let m ← mag2 asserts mem e
  .ok (stdSqrt m)

/-- `norm(val)` of a vector of `double`, evaluated: `Vector<double, n> u = norm(val)`, math/vectorImpl.hpp 1052-1056, 697-700. -/
def normF (asserts : Bool) (mem : Nat → Fp) (e : Expr Fp) : Out (V Fp) := do
  let u ← norm stdSqrt asserts mem e
  eval asserts mem u

end Verif.Vec
