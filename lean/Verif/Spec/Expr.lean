import Verif.Model.Expr

/-! What an expression means, element by element. -/

namespace Verif.ExprM

variable {α : Type}

/-- Element `i` of the expression: the tree evaluated on the `i`-th elements of its operands. -/
def valueAt (m : Nat → List α) (i : Nat) : Expr α → Option α
  | .arr id => (m id)[i]?
  | .view id v =>
    match ViewM.scalar v (m id) i with
    | .ok x => some x
    | _ => none
  | .scalar c => some c
  | .un f e => (valueAt m i e).map f
  | .bin f l r =>
    match valueAt m i l, valueAt m i r with
    | some x, some y => some (f x y)
    | _, _ => none

/-- The extents of the array operands of an expression. -/
def operandShapes (shapes : Nat → ShapeM.AnyShape) : Expr α → List (List Nat)
  | .arr id => [ShapeM.ext (shapes id)]
  | .view _ v => [ShapeM.ext v.shape]
  | .scalar _ => []
  | .un _ e => operandShapes shapes e
  | .bin _ l r => operandShapes shapes l ++ operandShapes shapes r

/-- Every array operand has `n` elements in its storage, every view operand can be read at the flat positions below `n` and
looks at another array than `d`. -/
def Operands (m : Nat → List α) (d n : Nat) : Expr α → Prop
  | .arr id => (m id).length = n
  | .view id v => id ≠ d ∧ ∀ i, i < n → ∃ x, ViewM.scalar v (m id) i = .ok x
  | .scalar _ => True
  | .un _ e => Operands m d n e
  | .bin _ l r => Operands m d n l ∧ Operands m d n r

/-- `m'` is `m` with array `d` holding the `n` elements of the expression, and nothing else changed. -/
def Assigned (m : Nat → List α) (d n : Nat) (e : Expr α) (m' : Nat → List α) : Prop :=
  (m' d).length = n ∧ (∀ i, i < n → ∃ x, valueAt m i e = some x ∧ (m' d)[i]? = some x) ∧ ∀ id, id ≠ d → m' id = m id

end Verif.ExprM
