import Verif.Model.Num

/-!
# Model of `clamp`, `lerp` and `smoothStep` for arguments of several types (math/utilityFunctions.hpp)

The result type of all three is the scalar type of the first argument, `typetraits::ScalarReturnType<T>` (core/traits.hpp 821-822), which
for the fundamental types is the type itself.
-/

namespace Verif.Num

/-- `clamp(x, lowerLimit, upperLimit)`, math/utilityFunctions.hpp 20-30. -/
def clampT (asserts : Bool) (x l u : Ty × Val) : Out Val := do
  let c ← less l u
  Out.assert asserts c
  if ← less x l then cast x.1 l.2
  else if ← less u x then cast x.1 u.2
  else .ok x.2

/-- A value computed in a promoted integer type: overflow of a signed type is undefined, an unsigned one wraps around. For
math/utilityFunctions.hpp 93, 121-122. -/
def arith (p : Bool × Nat) (z : Int) : Out Int :=
  if p.1 then (if InR true p.2 z then .ok z else .ub) else .ok (wrap false p.2 z)

/-- `lerp(t, lower, upper)` for `t` of an integer type, math/utilityFunctions.hpp 84-94: both limits are converted to the type of `t`. -/
def lerpI (sg : Bool) (w : Nat) (t : Int) (lower upper : Val) : Out Int := do
  match ← cast (.int sg w) lower, ← cast (.int sg w) upper with
  | .i l, .i u =>
    let d ← arith (promote sg w) (u - l)
    let e ← arith (promote sg w) (d * t)
    let r ← arith (promote sg w) (l + e)
    return wrap sg w r
  | _, _ => .ub

/-- `smoothStep(t, lowerEdge, upperEdge)` for three `int`s, math/utilityFunctions.hpp 112-123: the quotient is one of integers, `clamp` converts
its limits 0.0 and 1.0 back to `int`, and the polynomial is computed in `int`. -/
def smoothI (asserts : Bool) (t l u : Int) : Out Int := do
  let n ← arith (true, 32) (t - l)
  let d ← arith (true, 32) (u - l)
  if d = 0 then .ub
  else
    let q ← arith (true, 32) (n.tdiv d)
    match ← clampT asserts (.int true 32, .i q) (.fp .dbl, .f (.fin false 0)) (.fp .dbl, .f (.fin false 1)) with
    | .i tt => arith (true, 32) (tt * tt * tt * (tt * (tt * 6 - 15) + 10))
    | .f _ => .ub

end Verif.Num
