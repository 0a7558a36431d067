import Verif.Model.Vector

/-!
# Operators on vectors of two element types

`VECTOR_BINARY_OP`, math/vectorImpl.hpp 863-891, when the element types of the operands differ: both operands are converted to the common
type `decltype(L + R)` and to the larger of the two dimensions, and the expression is built from the converted operands. The conversion
evaluates an operand that is an expression, and calls `cast`, 601-608.

Simplifications: those of Model/Vector.lean. The conversions between the element types are total functions. The memory in which each
temporary is made is a parameter.
-/

namespace Verif.Vec

/-- How an operand of element type `K` becomes one of the common type: it has that type already, or its components are converted and
stored in packets of `width` lanes. math/vectorImpl.hpp 156-166, 883. -/
inductive To : Type → Type → Type 1
  | same {S : Type} : To S S
  | other {K S : Type} (conv : K → S) (width : Nat) : To K S

/-- The conversion of one component. math/vectorImpl.hpp 164. -/
def To.conv {K S : Type} : To K S → K → S
  | .same => id
  | .other c _ => c

/-- The lanes of the packets after the conversion, given those before. math/vectorImpl.hpp 601-608. -/
def To.lanes {K S : Type} : To K S → Nat → Nat
  | .same, w => w
  | .other _ w, _ => w

/-- `val.template cast<Scalar, maxDims>()` of a vector. math/vectorImpl.hpp 601-608. -/
def To.cast {K S : Type} [Zero S] (t : To K S) (m : Nat) (mem : Nat → S) (v : V K) : Out (V S) :=
  match K, S, ‹Zero S›, t, mem, v with
  | _, _, _, .same, mem, v => castSame m mem v
  | _, _, _, .other c w, mem, v => .ok (castTo c m w mem v)

/-- `VectorScalarDimensionExtractor`, math/vectorImpl.hpp 450-468: 0 for a scalar. -/
def Expr.dims (e : Expr K) : Nat := match e.shape with | some (n, _) => n | none => 0

/-- `cast<Scalar, maxDims>()` of an expression, math/vectorImpl.hpp 702-705, 757-760: of the evaluated expression. -/
def To.castExpr {K S : Type} [Zero K] [Zero S] (asserts : Bool) (t : To K S) (m : Nat) (mem : Nat → K) (mem' : Nat → S) (e : Expr K) :
    Out (Expr S) := do
  let v ← eval asserts mem e
  let r ← t.cast m mem' v
  .ok (.vec r)

/-- `scalarVectorCaster<Scalar, maxDims>(val)`, math/vectorImpl.hpp 843-861. -/
def To.caster {K S : Type} [Zero K] [Zero S] (asserts : Bool) (t : To K S) (m : Nat) (mem : Nat → K) (mem' : Nat → S) :
    Expr K → Out (Expr S)
  | .scalar x => .ok (.scalar (t.conv x))
  | e => t.castExpr asserts m mem mem' e

/-- `lhs OP rhs` for operands of two element types, math/vectorImpl.hpp 883-890. -/
def mixed {K L S : Type} [Zero K] [Zero L] [Zero S] (asserts : Bool) (tl : To K S) (tr : To L S) (f : S → S → S)
    (ml : Nat → K) (mr : Nat → L) (ml' mr' : Nat → S) (l : Expr K) (r : Expr L) : Out (Expr S) := do
  let a ← tl.caster asserts (max l.dims r.dims) ml ml' l
  let b ← tr.caster asserts (max l.dims r.dims) mr mr' r
  .ok (.bin f a b)

/-- Assigning an expression to a vector of another element type, math/vectorImpl.hpp 815, 831: `dst = src.cast<Scalar, N>()`. This is also
what `dst += other` does when the common type is not that of `dst`, 615-619. -/
def assignOther {S T : Type} [Zero S] [Zero T] (asserts : Bool) (conv : S → T) (mem : Nat → S) (mem' : Nat → T) (dst : V T) (e : Expr S) :
    Out (V T) := do
  let v ← eval asserts mem e
  .ok (castTo conv dst.dims dst.width mem' v)

end Verif.Vec
