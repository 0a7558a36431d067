import Verif.Model.Ieee
import Mathlib.Algebra.BigOperators.Group.List.Basic

/-!
# Sums of products in floating-point arithmetic

What a compiler may make of `sum += a[i] * b[i]`: any order and grouping of the additions, each product rounded on its own or fused with
an addition.
-/

namespace Verif.Ieee

/-- `v` is the value of some evaluation, in the arithmetic of the format, of the sum of the products of the pairs. -/
inductive SumOf (f : Fmt) : List (ℚ × ℚ) → ℚ → Prop
  | empty : SumOf f [] 0
  | product (a b : ℚ) : SumOf f [(a, b)] (rnd f (a * b))
  | add {l l' : List (ℚ × ℚ)} {v v' : ℚ} : SumOf f l v → SumOf f l' v' → SumOf f (l ++ l') (rnd f (v + v'))
  | fused {l : List (ℚ × ℚ)} {v : ℚ} (a b : ℚ) : SumOf f l v → SumOf f (l ++ [(a, b)]) (rnd f (v + a * b))
  | reorder {l l' : List (ℚ × ℚ)} {v : ℚ} : l.Perm l' → SumOf f l v → SumOf f l' v

/-- The sum itself. -/
def exactSum (l : List (ℚ × ℚ)) : ℚ := (l.map fun p => p.1 * p.2).sum

/-- The sum of the magnitudes. -/
def magnitudeSum (l : List (ℚ × ℚ)) : ℚ := (l.map fun p => |p.1 * p.2|).sum

/-- The unit roundoff of the format: `2 ^ -53` for `double`. -/
def unitRoundoff (f : Fmt) : ℚ := 2 ^ (-(f.p : Int))

/-- Half of the smallest positive number of the format. -/
def halfTiny (f : Fmt) : ℚ := 2 ^ (f.emin - 1)

end Verif.Ieee
