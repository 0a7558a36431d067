import Verif.Model.Expr
import Verif.Model.Iterate

/-!
# Copies, subscripts and loops of expressions

An expression (`detail::Function`, array/function.hpp 149-342) holds its operands in a tuple: operands given as variables by reference,
temporaries by value (operations.hpp 668-923 `std::forward`). Copying the expression (function.hpp 176, defaulted) copies the operands that
are held by value, with their copy constructors; a view loses its offset then (generalArrayView.hpp 191-196). Models such expressions, their
copies, `operator[]` (function.hpp 278-282) and range-based `for` over them (319-327, array/arrayIterator.hpp).

Simplification: an array held by value is an array like any other that nobody else changes, so it has an id.
-/

namespace Verif.HeldM

open ShapeM Conc ExprM

variable {α : Type}

/-- An expression with the way its operands are held. For array/function.hpp 149-342. -/
inductive Held (α : Type) where
  /-- an array -/
  | arr (id : Nat)
  /-- a view given as a variable, held by reference -/
  | named (id : Nat) (v : ViewM.View)
  /-- a temporary view such as `a[1]`, held by value -/
  | temp (id : Nat) (v : ViewM.View)
  | scalar (c : α)
  | un (f : α → α) (e : Held α)
  | bin (f : α → α → α) (l r : Held α)
  /-- an expression given as a variable, held by reference -/
  | ref (e : Held α)

/-- The expression tree. For array/function.hpp 149-342. -/
def Held.tree : Held α → Expr α
  | .arr id => .arr id
  | .named id v => .view id v
  | .temp id v => .view id v
  | .scalar c => .scalar c
  | .un f e => .un f e.tree
  | .bin f l r => .bin f l.tree r.tree
  | .ref e => e.tree

/-- The copy constructor (function.hpp 176). -/
def copy : Held α → Held α
  | .arr id => .arr id
  | .named id v => .named id v
  | .temp id v => .temp id (ViewM.copy v)
  | .scalar c => .scalar c
  | .un f e => .un f (copy e)
  | .bin f l r => .bin f (copy l) (copy r)
  | .ref e => .ref e

/-- function.hpp 278-282 `operator[](index)`: `createGeneralArrayView(*this)[index]`; `s` is the shape of the expression. -/
def exprIndex (asserts : Bool) (s : AnyShape) (i : Int) : Out ViewM.View := do
  let v ← ViewM.ofArray s
  ViewM.index asserts v i

/-- `f[i][j]...` with at least one subscript. For array/function.hpp 149-342. -/
def exprChain (asserts : Bool) (s : AnyShape) (i : Int) (is : List Int) : Out ViewM.View := do
  let v ← exprIndex asserts s i
  ViewM.chainFrom asserts v is

/-- `m_ref.scalar(p)` of an expression; a negative position becomes a huge `size_t`. For array/function.hpp 149-342. -/
def readExpr (e : Held α) (m : Mem α) (p : Int) : Out α :=
  if 0 ≤ p then (run (scalarP p.toNat e.tree) m).bind fun r => .ok r.1 else .ub

/-- generalArrayView.hpp 498-512 `scalar(index)` of a view of an expression. -/
def scalar (v : ViewM.View) (e : Held α) (m : Mem α) (idx : Nat) : Out α := do
  let p ← ViewM.scalarPos v idx
  readExpr e m p

/-- generalArrayView.hpp 431-448 `get()` of a view of an expression. -/
def get (asserts : Bool) (v : ViewM.View) (e : Held α) (m : Mem α) : Out α :=
  if asserts && !(decide (ndim v.shape = 0)) then .throw .invalidArgument else scalar v e m 0

/-- The passes of `for (auto x : f)` from position `pos` on (arrayIterator.hpp 62-86); `e` is the expression inside the iterator. The first
number bounds the passes. -/
def loop {β : Type} (asserts : Bool) (s : AnyShape) (e : Held α) (body : Held α → ViewM.View → Out (List β)) (stop : Nat) :
    Nat → Nat → Out (List β)
  | 0, pos => if pos = stop then .ok [] else .ub
  | n + 1, pos =>
    if pos = stop then .ok []
    else do
      let x ← exprIndex asserts s pos
      let r ← body e x
      let rs ← loop asserts s e body stop n (pos + 1)
      return r ++ rs

/-- `for (auto x : f) body` (function.hpp 319-327): `begin()` and `end()` copy the expression into the iterator (arrayIterator.hpp
54-56). The body gets the view `x` and the expression it looks at. -/
def forExpr {β : Type} (asserts : Bool) (s : AnyShape) (e : Held α) (body : Held α → ViewM.View → Out (List β)) : Out (List β) := do
  let n ← at' asserts s 0
  loop asserts s (copy e) body n n 0

end Verif.HeldM
