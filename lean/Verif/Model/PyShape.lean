import Verif.Basic

/-!
# The class `Shape` as it is stored, and its Python methods

`Model/Shape.lean` takes a `Shape` to be the list of its extents. Here it is what the code has: a number of dimensions (`int16_t`) and an
array of 16 numbers of 32 bits, of which the first ones are in use and the others may never have been written (`none`; reading one is
undefined). Models shape.hpp 16-150, 281-420 and the methods generated by bindings/generators/shapeGenerator.py, with the conversions of
their arguments (pybind11: an `int` argument takes integers of 32 bits, a `uint32_t` one those from 0 to 2^32 - 1, anything else is a
`TypeError`; `std::out_of_range` becomes `IndexError`, `std::range_error` `ValueError`).

Copying a `Shape` copies its bytes. Printing an extent is `toString`.
-/

namespace Verif.PyShape

/-- core/config.hpp 482-484: `LIBRAPID_MAX_ARRAY_DIMS`. -/
abbrev maxDims : Nat := 16

/-- shape.hpp 147-149. -/
structure Raw where
  dims : Int
  data : List (Option Nat)
deriving DecidableEq, Repr

/-- Conversion to `int16_t` (`DimType`, shape.hpp 19). -/
def int16 (n : Int) : Int := (n + 2 ^ 15) % 2 ^ 16 - 2 ^ 15

/-- `m_data` of an object that has just been created without an initialiser. Objects and programs of Python, for array/shape.hpp 281-420
and shapeGenerator.py 7-332. -/
def junk : List (Option Nat) := List.replicate maxDims none

/-- `m_data[i] = v`. Objects and programs of Python, for array/shape.hpp 281-420 and shapeGenerator.py 7-332. -/
def store (d : List (Option Nat)) (i : Nat) (v : Nat) : Out (List (Option Nat)) := if i < maxDims then .ok (d.set i (some v)) else .ub

/-- `m_data[i]` as a value. Objects and programs of Python, for array/shape.hpp 281-420 and shapeGenerator.py 7-332. -/
def load (d : List (Option Nat)) (i : Int) : Out Nat :=
  if 0 ≤ i ∧ i < maxDims then (match d[i.toNat]? with
    | some (some v) => .ok v
    | _ => .ub)
  else .ub

/-- The loops that store values from index `i` on (shape.hpp 293, 323-337). -/
def fill (d : List (Option Nat)) (i : Nat) : List Nat → Out (List (Option Nat))
  | [] => .ok d
  | v :: vs => (store d i v).bind fun d' => fill d' (i + 1) vs

/-- `Shape()`: value-initialised, hence all zero (shape.hpp 23; shapeGenerator.py 9-12). -/
def zeroed : Raw := ⟨0, List.replicate maxDims (some 0)⟩

/-- shape.hpp 291-295 from a vector. -/
def ofVec (vals : List Nat) : Out Raw := (fill junk 0 vals).bind fun d => .ok ⟨int16 vals.length, d⟩

/-- shape.hpp 323-337 `zeros`, `ones`: `dims` values `v`. -/
def const (v : Nat) (dims : Int) : Out Raw := (fill junk 0 (List.replicate dims.toNat v)).bind fun d => .ok ⟨dims, d⟩

/-- shape.hpp 339-353 `operator[]` of a constant. -/
def get (asserts : Bool) (r : Raw) (i : Int) : Out Nat :=
  if asserts && !decide (i < r.dims) then .throw .outOfRange
  else if asserts && !decide (0 ≤ i) then .throw .outOfRange
  else load r.data i

/-- shape.hpp 355-366 `operator[]` and an assignment to its result. -/
def set (asserts : Bool) (r : Raw) (i : Int) (v : Nat) : Out Raw :=
  if asserts && !decide (i < r.dims) then .throw .outOfRange
  else if asserts && !decide (0 ≤ i) then .throw .rangeError
  else if i < 0 then .ub
  else (store r.data i.toNat v).bind fun d => .ok { r with data := d }

/-- The loop of shape.hpp 370-372, `n` steps from index `i`. -/
def same (a b : List (Option Nat)) : Nat → Nat → Out Bool
  | 0, _ => .ok true
  | n + 1, i => (load a i).bind fun x => (load b i).bind fun y => if x ≠ y then .ok false else same a b n (i + 1)

/-- shape.hpp 368-374 `operator==`. -/
def eq (a b : Raw) : Out Bool := if a.dims ≠ b.dims then .ok false else same a.data b.data a.dims.toNat 0

/-- `n` values from index `i` on, read one after the other. Objects and programs of Python, for array/shape.hpp 281-420 and
shapeGenerator.py 7-332. -/
def loads (d : List (Option Nat)) : Nat → Int → Out (List Nat)
  | 0, _ => .ok []
  | n + 1, i => (load d i).bind fun x => (loads d n (i + 1)).bind fun l => .ok (x :: l)

/-- shape.hpp 382-408 `subshape`. The third assertion cannot fail. -/
def subshape (asserts : Bool) (r : Raw) (start stop : Int) : Out Raw :=
  let start := if start < 0 then 0 else start
  let stop := if stop < 0 then r.dims else stop
  if asserts && !decide (start ≤ stop) then .throw .rangeError
  else if asserts && !decide (stop ≤ r.dims) then .throw .outOfRange
  else (loads r.data (int16 (stop - start)).toNat start).bind fun l =>
    (fill junk 0 l).bind fun d => .ok ⟨int16 (stop - start), d⟩

/-- The loop of shape.hpp 414-417: `n` extents from index `i` on, `last` being the index of the last one. -/
def strFrom (d : List (Option Nat)) (last : Int) : Nat → Int → Out String
  | 0, _ => .ok ""
  | n + 1, i => (load d i).bind fun x => (strFrom d last n (i + 1)).bind fun s =>
      .ok (toString x ++ (if i ≠ last then ", " else "") ++ s)

/-- shape.hpp 411-419. -/
def str (r : Raw) : Out String := (strFrom r.data (r.dims - 1) r.dims.toNat 0).bind fun s => .ok ("Shape(" ++ s ++ ")")

/-! ## Python programs -/

/-- What a Python statement or expression does. Objects and programs of Python, for array/shape.hpp 281-420 and shapeGenerator.py 7-332. -/
inductive Res (α : Type) where
  | ok (a : α)
  | raises
  | ub
deriving DecidableEq, Repr

/-- The C++ exceptions arrive as Python exceptions. Objects and programs of Python, for array/shape.hpp 281-420 and shapeGenerator.py
7-332. -/
def Res.ofOut {α : Type} : Out α → Res α
  | .ok a => .ok a
  | .throw _ => .raises
  | .ub => .ub

/-- An `int` argument. Objects and programs of Python, for array/shape.hpp 281-420 and shapeGenerator.py 7-332. -/
def isInt (n : Int) : Bool := decide (-2 ^ 31 ≤ n) && decide (n < 2 ^ 31)

/-- A `uint32_t` argument. -/
def isU32 (n : Int) : Bool := decide (0 ≤ n) && decide (n < 2 ^ 32)

/-- Statements; variables are numbers. Objects and programs of Python, for array/shape.hpp 281-420 and shapeGenerator.py 7-332. -/
inductive Stmt where
  /-- `x = Shape()` -/
  | empty (x : Nat)
  /-- `x = Shape([...])` -/
  | new (x : Nat) (vals : List Int)
  /-- `x = Shape(y)` -/
  | copy (x y : Nat)
  /-- `x = y` -/
  | name (x y : Nat)
  /-- `x = Shape.zeros(n)` -/
  | zeros (x : Nat) (n : Int)
  /-- `x = Shape.ones(n)` -/
  | ones (x : Nat) (n : Int)
  /-- `x[i] = v` -/
  | set (x : Nat) (i v : Int)
  /-- `x = y.subshape(a, b)` -/
  | sub (x y : Nat) (a b : Int)

/-- Variables refer to objects; `next` is the number of objects made so far. Objects and programs of Python, for array/shape.hpp 281-420
and shapeGenerator.py 7-332. -/
structure State (S : Type) where
  vars : Nat → Option Nat := fun _ => none
  heap : Nat → Option S := fun _ => none
  next : Nat := 0

variable {S : Type}

/-- The object a variable refers to. Objects and programs of Python, for array/shape.hpp 281-420 and shapeGenerator.py 7-332. -/
def State.find (s : State S) (x : Nat) : Option (Nat × S) := do
  let r ← s.vars x
  let o ← s.heap r
  return (r, o)

/-- `x` is made to refer to a new object. Objects and programs of Python, for array/shape.hpp 281-420 and shapeGenerator.py 7-332. -/
def State.bind (s : State S) (x : Nat) (o : S) : State S :=
  ⟨fun y => if y = x then some s.next else s.vars y, fun r => if r = s.next then some o else s.heap r, s.next + 1⟩

/-- The object `r` is changed. Objects and programs of Python, for array/shape.hpp 281-420 and shapeGenerator.py 7-332. -/
def State.put (s : State S) (r : Nat) (o : S) : State S := { s with heap := fun q => if q = r then some o else s.heap q }

/-- `x = <new object>`. Objects and programs of Python, for array/shape.hpp 281-420 and shapeGenerator.py 7-332. -/
def made (s : State Raw) (x : Nat) : Res Raw → Res (State Raw)
  | .ok r => .ok (s.bind x r)
  | .raises => .raises
  | .ub => .ub

/-- shapeGenerator.py 7-332. A name that is not bound is an exception. -/
def exec (asserts : Bool) (s : State Raw) : Stmt → Res (State Raw)
  | .empty x => .ok (s.bind x zeroed)
  | .new x vals => if vals.all isU32 then made s x (.ofOut (ofVec (vals.map Int.toNat))) else .raises
  | .copy x y => match s.find y with
    | some (_, o) => .ok (s.bind x o)
    | none => .raises
  | .name x y => match s.vars y with
    | some r => .ok { s with vars := fun z => if z = x then some r else s.vars z }
    | none => .raises
  | .zeros x n => if isInt n then made s x (.ofOut (const 0 (int16 n))) else .raises
  | .ones x n => if isInt n then made s x (.ofOut (const 1 (int16 n))) else .raises
  | .set x i v => match s.find x with
    | some (r, o) => if isInt i && isU32 v then (match PyShape.set asserts o i v.toNat with
        | .ok o' => .ok (s.put r o')
        | .throw _ => .raises
        | .ub => .ub) else .raises
    | none => .raises
  | .sub x y a b => match s.find y with
    | some (_, o) => if isInt a && isInt b then made s x (.ofOut (subshape asserts o (int16 a) (int16 b))) else .raises
    | none => .raises

/-- A program; exceptions are caught and the program goes on. Undefined behaviour ends it. Objects and programs of Python, for
array/shape.hpp 281-420 and shapeGenerator.py 7-332. -/
def run (asserts : Bool) : List Stmt → State Raw → Option (State Raw)
  | [], s => some s
  | c :: cs, s => match exec asserts s c with
    | .ok s' => run asserts cs s'
    | .raises => run asserts cs s
    | .ub => none

/-- Expressions. Objects and programs of Python, for array/shape.hpp 281-420 and shapeGenerator.py 7-332. -/
inductive Query where
  /-- `x[i]` -/
  | get (x : Nat) (i : Int)
  /-- `len(x)` -/
  | len (x : Nat)
  /-- `x.ndim()` -/
  | ndim (x : Nat)
  /-- `x == y` -/
  | eq (x y : Nat)
  /-- `str(x)` -/
  | str (x : Nat)

/-- Values of expressions. Objects and programs of Python, for array/shape.hpp 281-420 and shapeGenerator.py 7-332. -/
inductive Val where
  | int (n : Int)
  | bool (b : Bool)
  | text (s : String)
deriving DecidableEq, Repr

/-- `len` of Python raises an exception if `__len__` returns a negative number. Objects and programs of Python, for array/shape.hpp
281-420 and shapeGenerator.py 7-332. -/
def pyLen (n : Int) : Res Val := if n < 0 then .raises else .ok (.int n)

/-- The value of an expression, shapeGenerator.py 76-95, 120-187, 254-268. -/
def query (asserts : Bool) (s : State Raw) : Query → Res Val
  | .get x i => match s.find x with
    | some (_, o) => if isInt i then .ofOut ((PyShape.get asserts o i).bind fun v => .ok (.int v)) else .raises
    | none => .raises
  | .len x => match s.find x with
    | some (_, o) => pyLen o.dims
    | none => .raises
  | .ndim x => match s.find x with
    | some (_, o) => .ok (.int o.dims)
    | none => .raises
  | .eq x y => match s.find x, s.find y with
    | some (_, o), some (_, o') => .ofOut ((PyShape.eq o o').bind fun b => .ok (.bool b))
    | _, _ => .raises
  | .str x => match s.find x with
    | some (_, o) => .ofOut ((PyShape.str o).bind fun t => .ok (.text t))
    | none => .raises

end Verif.PyShape
