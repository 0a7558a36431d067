import Verif.Model.GpuAssign

/-! What an expression means. -/

namespace Verif.Gpu
variable {V : Type}

/-- Value of an expression at element `i`; `E b i` is the element of buffer `b`. -/
def GExpr.den (E : Nat → Nat → V) (i : Nat) : GExpr V → V
  | .arr b => E b i
  | .scalar v => v
  | .un k e => k.op (e.den E i)
  | .bin k l r => k.op (l.den E i) (r.den E i)

/-- The arrays of an expression. -/
def GExpr.Uses (b : Nat) : GExpr V → Prop
  | .arr b' => b' = b
  | .scalar _ => False
  | .un _ e => e.Uses b
  | .bin _ l r => l.Uses b ∨ r.Uses b

end Verif.Gpu
