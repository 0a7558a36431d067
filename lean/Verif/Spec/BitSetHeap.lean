import Verif.Model.BitSetHeap
import Mathlib.Logic.Function.Basic

/-!
# What a program with heap-allocated bit sets should do

The same statements on variables that hold their bits themselves, as `BitSet<numBits, true>` does: there is no memory to share,
delete or leave behind.
-/

namespace Verif.BitSetM.Heap

/-- The living variables and their bits. -/
abbrev Vals (n : Nat) := Nat → Option (BS n)

/-- The value of a variable. -/
def Vals.at {n : Nat} (v : Vals n) (x : Nat) : Out (BS n) :=
  match v x with
  | some b => .ok b
  | .none => .ub

/-- Begin the life of `x`. -/
def Vals.make {n : Nat} (v : Vals n) (x : Nat) (b : BS n) : Out (Vals n) :=
  match v x with
  | some _ => .ub
  | .none => .ok (Function.update v x (some b))

/-- Change the value of the living variable `x`. -/
def Vals.put {n : Nat} (v : Vals n) (x : Nat) (b : BS n) : Out (Vals n) :=
  match v x with
  | some _ => .ok (Function.update v x (some b))
  | .none => .ub

/-- The string constructor on values. -/
def Vals.ofString {n : Nat} (asserts : Bool) (v : Vals n) (x : Nat) (t : List Char) (z o : Char) : Out (Bool × Vals n) :=
  match v x with
  | some _ => .ub
  | .none =>
    match BitSetM.ofString asserts n t z o with
    | .ok b => .ok (false, Function.update v x (some b))
    | .throw _ => .ok (true, v)
    | .ub => .ub

/-- One statement that cannot throw, on values. A moved-from variable may keep any value; here it keeps its own. -/
def vstep {n : Nat} (v : Vals n) : Cmd → Out (Vals n)
  | .ctor x => v.make x (empty n)
  | .ofValue x w => do v.make x (← BitSetM.ofValue n w)
  | .ofString _ _ _ _ => .ub
  | .copy x y => do v.make x (← v.at y)
  | .move x y => do v.make x (← v.at y)
  | .assign x y => do v.put x (← v.at y)
  | .assignMove x y => do v.put x (← v.at y)
  | .upd x u => do v.put x (← u.apply (← v.at x))
  | .opAssign x o y => do v.put x (← o.apply (← v.at x) (← v.at y))
  | .binary x y o z => do v.make x (← o.apply (← v.at y) (← v.at z))
  | .shifted x y left k => do v.make x (← (if left then Upd.shl k else Upd.shr k).apply (← v.at y))
  | .compl x y => do v.make x (← BitSetM.compl (← v.at y))
  | .dtor x => do
    let _ ← v.at x
    return Function.update v x .none

/-- One statement on values. -/
def vexec {n : Nat} (asserts : Bool) (v : Vals n) : Cmd → Out (Bool × Vals n)
  | .ofString x t z o => v.ofString asserts x t z o
  | c => do return (false, ← vstep v c)

/-- A program on values. -/
def vrun {n : Nat} (asserts : Bool) : List Cmd → Vals n → Out (List Bool × Vals n)
  | [], v => .ok ([], v)
  | c :: cs, v => do
    let r ← vexec asserts v c
    let q ← vrun asserts cs r.2
    return (r.1 :: q.1, q.2)

/-- The two programs agree: both are undefined, both end with the same exception that was not caught, or both end with the same statements having thrown and with every variable
having the same life and the same words. -/
def Agree {n : Nat} (a : Out (List Bool × St)) (b : Out (List Bool × Vals n)) : Prop :=
  match a, b with
  | .ub, .ub => True
  | .throw e, .throw e' => e = e'
  | .ok (f, s), .ok (g, v) => f = g ∧ ∀ x,
      match v x with
      | some b => load s x = .ok b.words
      | .none => s.objs x = .none
  | _, _ => False

/-- Statements that do not copy a pointer into another variable. -/
def Cmd.Plain : Cmd → Prop
  | .move _ _ => False
  | .assign x y => x = y
  | .assignMove x y => x = y
  | _ => True

end Verif.BitSetM.Heap
