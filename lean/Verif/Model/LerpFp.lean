import Verif.Model.BlasNormFp

/-!
# Model of `lerp` on doubles, with infinities and NaN (math/utilityFunctions.hpp)
-/

namespace Verif.ScalarM

open Verif.Num Verif.Blas

/-- `a - b` of two doubles. For math/utilityFunctions.hpp 56, 64. -/
def subF (a b : Fp) : Fp := a + b.withSign (!b.sign)

/-- `isNaN(x)`, math/utilityFunctions.hpp 51 -/
def nanF : Fp → Bool
  | .nan _ => true
  | _ => false

/-- `a <= b` of two doubles. For math/utilityFunctions.hpp 53. -/
def leF (a b : Fp) : Bool := !nanF a && !nanF b && !ltF b a

/-- `a == b` of two doubles. For math/utilityFunctions.hpp 60. -/
def eqF (a b : Fp) : Bool := leF a b && leF b a

/-- `max(a, b)`, math/coreMath.hpp 49-53. -/
def maxF (a b : Fp) : Fp := if ltF b a then a else b

/-- `min(a, b)`, math/coreMath.hpp 30-34. -/
def minF (a b : Fp) : Fp := if ltF a b then a else b

/-- `lerp(t, lower, upper)` of three doubles, math/utilityFunctions.hpp 43-70, with the macro `FMA` not defined. -/
def lerpF (t lower upper : Fp) : Fp :=
  if nanF t || nanF lower || nanF upper then .nan false
  else if (leF t 0 && leF 0 upper) || (leF 0 lower && leF upper 0) then t * upper + subF (.fin false 1) t * lower
  else if eqF t (.fin false 1) then upper
  else
    let x := lower + t * subF upper lower
    if ltF (.fin false 1) t == ltF lower upper then maxF upper x else minF upper x

end Verif.ScalarM
