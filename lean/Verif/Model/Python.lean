import Verif.Model.Alias

/-!
# The Python bindings: subscripts, operators and object lifetimes

Models the classes that librapid/bindings/generators/arrayGenerator.py and generalArrayViewGenerator.py generate for arrays and views on
the host, as seen by Python statements. The generated C++ is compiled with `LIBRAPID_DEBUG` (boilerplate.py 6-8, core/config.hpp 399-401), so
assertions are on.

What is taken from Python and pybind11:
* `x op y` calls `type(x).__op__`, then `type(y).__rop__`; `x op= y` calls `__iop__` if there is one, else it is `x = x op y`; `x[i] op= y`
  is `t = x[i]; t op= y; x[i] = t`; a `for` loop without `__iter__` calls `__getitem__` with 0, 1, ... until `IndexError`. The method of
  `/` is `__truediv__`.
* A lambda that returns a class by value gives a new Python object, moved from the result; without `keep_alive` (function.py 76-84 adds only
  return policies, and the generators name none) it holds no reference to the arguments. `return self;` copies.
* An object is destroyed when nothing refers to it. Only variables hold references here; a view's reference to its array is a C++ reference.
* `std::out_of_range` becomes `IndexError`, `std::invalid_argument` and `std::range_error` `ValueError`, other exceptions `RuntimeError`.

Simplifications: one element type; no subclasses; numbers are Python numbers that convert to the element type. The evaluation loops run
sequentially without packets (`C21`, `C22` show that the others have the same outcome).
-/

namespace Verif.PyM

open ShapeM Conc ExprM

variable {α : Type}

/-- Operators with a generated method (arrayGenerator.py 225). -/
inductive Op | add | sub | mul | div
deriving DecidableEq, Repr

/-- The middle part of a method name such as `__iadd__`. Objects and statements of Python, for arrayGenerator.py and
generalArrayViewGenerator.py. -/
inductive Base | add | sub | mul | div | truediv
deriving DecidableEq, Repr

/-- `__op__`, `__iop__`, `__rop__`. Objects and statements of Python, for arrayGenerator.py and generalArrayViewGenerator.py. -/
inductive Kind | plain | inplace | reflected
deriving DecidableEq, Repr

/-- What a generated method does: `(self op other).eval()`, `self op= other; return self`, `(other op self).eval()`. Objects and
statements of Python, for arrayGenerator.py and generalArrayViewGenerator.py. -/
inductive Body
  | binary (op : Op)
  | update (op : Op)
  | swapped (op : Op)
deriving DecidableEq, Repr

/-- arrayGenerator.py 225-296, generalArrayViewGenerator.py 158-231: the methods generated for each operator. The text of the `__i...__`
methods is `self += other` for every operator (245, 178). (Three overloads each, for arrays, views and numbers.) -/
def generated : List ((Kind × Base) × Body) :=
  [(Base.add, Op.add), (Base.sub, Op.sub), (Base.mul, Op.mul), (Base.div, Op.div)].flatMap fun p =>
    [((.inplace, p.1), .update .add), ((.plain, p.1), .binary p.2), ((.reflected, p.1), .swapped p.2)]

/-- Attribute lookup in the class. Objects and statements of Python, for arrayGenerator.py and generalArrayViewGenerator.py. -/
def method (k : Kind) (b : Base) : Option Body := generated.lookup (k, b)

/-- The method name that Python 3 looks for. -/
def pyBase : Op → Base
  | .add => .add
  | .sub => .sub
  | .mul => .mul
  | .div => .truediv

/-- A Python value. Objects and statements of Python, for arrayGenerator.py and generalArrayViewGenerator.py. -/
inductive Val (α : Type) where
  | num (c : α)
  | ref (id : Nat)

/-- A live object. Objects and statements of Python, for arrayGenerator.py and generalArrayViewGenerator.py. -/
inductive Obj where
  | array (e : List Nat)
  | view (target : Nat) (v : ViewM.View)

/-- Objects, storage of the arrays, the next unused identity, variables. Objects and statements of Python, for arrayGenerator.py and
generalArrayViewGenerator.py. -/
structure St (α : Type) where
  objs : Nat → Option Obj
  mem : Mem α
  next : Nat
  vars : List (Nat × Val α)

/-- Exceptions. Objects and statements of Python, for arrayGenerator.py and generalArrayViewGenerator.py. -/
inductive PyExc | indexError | typeError | valueError | runtimeError | nameError
deriving DecidableEq, Repr

/-- How a statement ends. Objects and statements of Python, for arrayGenerator.py and generalArrayViewGenerator.py. -/
inductive Done (α : Type) where
  | ok (s : St α)
  | raise (e : PyExc) (s : St α)
  | ub

/-- pybind11's translation of C++ exceptions. -/
def pyExc : Exc → PyExc
  | .outOfRange => .indexError
  | .invalidArgument => .valueError
  | .rangeError => .valueError
  | .lengthError => .valueError
  | _ => .runtimeError

/-- The array still exists. Objects and statements of Python, for arrayGenerator.py and generalArrayViewGenerator.py. -/
def live (s : St α) (id : Nat) : Bool :=
  match s.objs id with
  | some (.array _) => true
  | _ => false

/-- Shape of an array object. Objects and statements of Python, for arrayGenerator.py and generalArrayViewGenerator.py. -/
def shapes (s : St α) (id : Nat) : AnyShape :=
  match s.objs id with
  | some (.array e) => .shape e
  | _ => .shape []

/-- A method argument as an operand of an expression; a view is used through its reference to the array. Objects and statements of
Python, for arrayGenerator.py and generalArrayViewGenerator.py. -/
def operand (s : St α) : Val α → Out (Expr α)
  | .num c => .ok (.scalar c)
  | .ref id =>
    match s.objs id with
    | some (.array _) => .ok (.arr id)
    | some (.view t v) => if live s t then .ok (.view t v) else .ub
    | none => .ub

/-- A new object. Objects and statements of Python, for arrayGenerator.py and generalArrayViewGenerator.py. -/
def alloc (s : St α) (o : Obj) : St α := { s with objs := fun id => if id = s.next then some o else s.objs id, next := s.next + 1 }

/-- A new array object with these elements. Objects and statements of Python, for arrayGenerator.py and generalArrayViewGenerator.py. -/
def newArray (s : St α) (e : List Nat) (data : List α) : St α :=
  { alloc s (.array e) with mem := AliasM.setData s.mem s.next data }

/-- Shape of an expression with at least one array in it. Objects and statements of Python, for arrayGenerator.py and
generalArrayViewGenerator.py. -/
def exprShape (s : St α) (e : Expr α) : Out AnyShape := do
  let r ← build true (shapes s) e
  match r with
  | some sh => .ok sh
  | none => .ub

/-- The assignment loop of `array d = expression` (see `ExprM`), after the resize, which rejects empty arrays. Objects and statements of
Python, for arrayGenerator.py and generalArrayViewGenerator.py. -/
def store (d : Nat) (e : Expr α) (n : Nat) (m : Mem α) : Out (Mem α) :=
  if n = 0 then .throw .assertion
  else do
    let r ← run (seqAll (scalarBody d e) (indices 0 n 1)) m
    return r.2

/-- `(l op r).eval()` (array/function.hpp 284-289) as a new object. `fresh n` are the elements of a new block. -/
def binary (fresh : Nat → List α) (f : α → α → α) (s : St α) (l r : Val α) : Out (St α × Val α) := do
  let el ← operand s l
  let er ← operand s r
  let sh ← exprShape s (.bin f el er)
  let m ← store s.next (.bin f el er) (size sh) (AliasM.setData s.mem s.next (fresh (size sh)))
  return ({ alloc s (.array (ext sh)) with mem := m }, .ref s.next)

/-- `*this = *this + other` (arrayContainer.hpp 837-841, generalArrayView.hpp 514-520), on the object `id`. -/
def update (f : α → α → α) (s : St α) (id : Nat) (other : Val α) : Out (St α) := do
  let er ← operand s other
  let es ← operand s (.ref id)
  let sh ← exprShape s (.bin f es er)
  match s.objs id with
  | some (.array _) => do
    let m ← store id (.bin f es er) (size sh) s.mem
    return { s with mem := m }
  | some (.view t v) => do
    let data ← AliasM.assignExpr true t v sh (.bin f es er) s.mem
    return { s with mem := AliasM.setData s.mem t data }
  | none => .ub

/-- `return self;`: a copy as a new object. The copy of a view has offset 0 (generalArrayView.hpp 198-203). -/
def returnSelf (s : St α) (id : Nat) : Out (St α × Val α) :=
  match s.objs id with
  | some (.array e) => .ok (newArray s e (s.mem id), .ref s.next)
  | some (.view t v) => .ok (alloc s (.view t (ViewM.copy v)), .ref s.next)
  | none => .ub

/-- `self[index]`: the array behind the new view, and the view. The constructor of the view reads the array's shape. Objects and
statements of Python, for arrayGenerator.py and generalArrayViewGenerator.py. -/
def item (s : St α) (id : Nat) (i : Int) : Out (Nat × ViewM.View) :=
  match s.objs id with
  | some (.array e) => do
    let v ← ViewM.arrayIndex true (.shape e) i
    return (id, v)
  | some (.view t v) => if live s t then do
      let v' ← ViewM.index true v i
      return (t, v')
    else .ub
  | none => .ub

/-- arrayGenerator.py 123-141, generalArrayViewGenerator.py 56-74 `__getitem__`. -/
def getitem (s : St α) (id : Nat) (i : Int) : Out (St α × Val α) := do
  let r ← item s id i
  return (alloc s (.view r.1 r.2), .ref s.next)

/-- `view = other` (generalArrayView.hpp 212-321) for a number, an array or a view. -/
def assignTo (s : St α) (t : Nat) (v : ViewM.View) : Val α → Out (List α)
  | .num c => ViewM.assignScalar true v (s.mem t) c
  | .ref id => do
    let e ← operand s (.ref id)
    let sh ← exprShape s e
    AliasM.assignExpr true t v sh e s.mem

/-- arrayGenerator.py 143-222, generalArrayViewGenerator.py 76-155 `__setitem__`: `self[index] = other`. (The copy of `self` that it
returns is dropped by Python.) -/
def setitem (s : St α) (id : Nat) (i : Int) (x : Val α) : Out (St α) := do
  let r ← item s id i
  let data ← assignTo s r.1 r.2 x
  return { s with mem := AliasM.setData s.mem r.1 data }

/-- The method found for `l op r` when one of them is an object: `none` is a `TypeError`. Objects and statements of Python, for
arrayGenerator.py and generalArrayViewGenerator.py. -/
def dispatch (op : Op) : Val α → Val α → Option Body
  | .ref _, .num _ => method .plain (pyBase op)
  | .ref _, .ref _ => (method .plain (pyBase op)).or (method .reflected (pyBase op))
  | .num _, _ => method .reflected (pyBase op)

/-- `l op r`. `ar` is the arithmetic of the elements. `none` is a `TypeError`. Objects and statements of Python, for arrayGenerator.py
and generalArrayViewGenerator.py. -/
def binOp (ar : Op → α → α → α) (fresh : Nat → List α) (s : St α) (op : Op) (l r : Val α) : Option (Out (St α × Val α)) :=
  match l, r with
  | .num a, .num b => some (.ok (s, .num (ar op a b)))
  | l, r =>
    match dispatch op l r with
    | some (.binary o) => some (binary fresh (ar o) s l r)
    | some (.swapped o) => some (binary fresh (ar o) s l r)
    | _ => none

/-- The value of `x op= r`, which is then bound to `x`. Objects and statements of Python, for arrayGenerator.py and
generalArrayViewGenerator.py. -/
def augOp (ar : Op → α → α → α) (fresh : Nat → List α) (s : St α) (op : Op) (x r : Val α) : Option (Out (St α × Val α)) :=
  match x with
  | .num _ => binOp ar fresh s op x r
  | .ref id =>
    match method .inplace (pyBase op) with
    | some (.update o) => some (do
        let s' ← update (ar o) s id r
        returnSelf s' id)
    | _ => binOp ar fresh s op x r

/-- An operand in the program text. Objects and statements of Python, for arrayGenerator.py and generalArrayViewGenerator.py. -/
inductive Opd (α : Type) where
  | lit (c : α)
  | var (x : Nat)

/-- Statements. Objects and statements of Python, for arrayGenerator.py and generalArrayViewGenerator.py. -/
inductive Stmt (α : Type) where
  /-- `x = Array(data)` -/
  | new (x : Nat) (e : List Nat) (data : List α)
  /-- `x = y` -/
  | name (x y : Nat)
  /-- `x = y[i]` -/
  | get (x y : Nat) (i : Int)
  /-- `x[i] = y` -/
  | set (x : Nat) (i : Int) (y : Opd α)
  /-- `x = l op r` -/
  | bin (x : Nat) (op : Op) (l r : Opd α)
  /-- `x op= r` -/
  | aug (x : Nat) (op : Op) (r : Opd α)
  /-- `x[i] op= r` -/
  | augItem (x : Nat) (i : Int) (op : Op) (r : Opd α)
  /-- `del x` -/
  | del (x : Nat)

/-- The value of a variable. Objects and statements of Python, for arrayGenerator.py and generalArrayViewGenerator.py. -/
def lookup (s : St α) (x : Nat) : Option (Val α) := s.vars.lookup x

/-- The value of an operand; `none` is a `NameError`. Objects and statements of Python, for arrayGenerator.py and
generalArrayViewGenerator.py. -/
def opd (s : St α) : Opd α → Option (Val α)
  | .lit c => some (.num c)
  | .var x => lookup s x

/-- Bind a variable. Objects and statements of Python, for arrayGenerator.py and generalArrayViewGenerator.py. -/
def bindVar (s : St α) (x : Nat) (v : Val α) : St α := { s with vars := (x, v) :: s.vars.filter (fun p => p.1 != x) }

/-- Some variable refers to the object. Objects and statements of Python, for arrayGenerator.py and generalArrayViewGenerator.py. -/
def referenced (s : St α) (id : Nat) : Bool :=
  s.vars.any fun p => match p.2 with
    | .ref j => j == id
    | .num _ => false

/-- Destroy the objects that nothing refers to. Objects and statements of Python, for arrayGenerator.py and generalArrayViewGenerator.py. -/
def collect (s : St α) : St α := { s with objs := fun id => if referenced s id then s.objs id else none }

/-- The end of a statement that binds its value to `x`; an exception leaves the state `s`. Objects and statements of Python, for
arrayGenerator.py and generalArrayViewGenerator.py. -/
def finishBind (s : St α) (x : Nat) : Out (St α × Val α) → Done α
  | .ok (s', v) => .ok (collect (bindVar s' x v))
  | .throw e => .raise (pyExc e) s
  | .ub => .ub

/-- The same for a method that was looked up. Objects and statements of Python, for arrayGenerator.py and generalArrayViewGenerator.py. -/
def finishOp (s : St α) (x : Nat) : Option (Out (St α × Val α)) → Done α
  | some r => finishBind s x r
  | none => .raise .typeError s

/-- The end of a statement without a value. Objects and statements of Python, for arrayGenerator.py and generalArrayViewGenerator.py. -/
def finish (s : St α) : Out (St α) → Done α
  | .ok s' => .ok (collect s')
  | .throw e => .raise (pyExc e) (collect s)
  | .ub => .ub

/-- The last step of `x[i] op= r`: `x[i] = t`. Objects and statements of Python, for arrayGenerator.py and generalArrayViewGenerator.py. -/
def augSet (s : St α) (id : Nat) (i : Int) : Option (Out (St α × Val α)) → Done α
  | none => .raise .typeError (collect s)
  | some (.throw e) => .raise (pyExc e) (collect s)
  | some .ub => .ub
  | some (.ok (s', t)) => finish s' (setitem s' id i t)

/-- `x[i] op= r`. Objects and statements of Python, for arrayGenerator.py and generalArrayViewGenerator.py. -/
def augItem (ar : Op → α → α → α) (fresh : Nat → List α) (s : St α) (id : Nat) (i : Int) (op : Op) (r : Val α) : Done α :=
  match getitem s id i with
  | .ok (s', t) => augSet s' id i (augOp ar fresh s' op t r)
  | .throw e => .raise (pyExc e) s
  | .ub => .ub

/-- One statement. Objects and statements of Python, for arrayGenerator.py and generalArrayViewGenerator.py. -/
def step (ar : Op → α → α → α) (fresh : Nat → List α) (s : St α) : Stmt α → Done α
  | .new x e data => .ok (collect (bindVar (newArray s e data) x (.ref s.next)))
  | .name x y =>
    match lookup s y with
    | some v => .ok (collect (bindVar s x v))
    | none => .raise .nameError s
  | .get x y i =>
    match lookup s y with
    | some (.ref id) => finishBind s x (getitem s id i)
    | some (.num _) => .raise .typeError s
    | none => .raise .nameError s
  | .set x i y =>
    match lookup s x, opd s y with
    | some (.ref id), some v => finish s (setitem s id i v)
    | some (.num _), some _ => .raise .typeError s
    | _, _ => .raise .nameError s
  | .bin x op l r =>
    match opd s l, opd s r with
    | some a, some b => finishOp s x (binOp ar fresh s op a b)
    | _, _ => .raise .nameError s
  | .aug x op r =>
    match lookup s x, opd s r with
    | some v, some b => finishOp s x (augOp ar fresh s op v b)
    | _, _ => .raise .nameError s
  | .augItem x i op r =>
    match lookup s x, opd s r with
    | some (.ref id), some b => augItem ar fresh s id i op b
    | some (.num _), some _ => .raise .typeError s
    | _, _ => .raise .nameError s
  | .del x => .ok (collect { s with vars := s.vars.filter (fun p => p.1 != x) })

/-- A program. Objects and statements of Python, for arrayGenerator.py and generalArrayViewGenerator.py. -/
def runAll (ar : Op → α → α → α) (fresh : Nat → List α) (s : St α) : List (Stmt α) → Done α
  | [] => .ok s
  | p :: ps =>
    match step ar fresh s p with
    | .ok s' => runAll ar fresh s' ps
    | d => d

/-- The elements that printing a variable reads (`__str__`, arrayGenerator.py 299-313, generalArrayViewGenerator.py 234-248). -/
def elements (fresh : Nat → List α) (s : St α) : Val α → Out (List α)
  | .num c => .ok [c]
  | .ref id =>
    match s.objs id with
    | some (.array _) => .ok (s.mem id)
    | some (.view t v) => if live s t then ViewM.eval v (s.mem t) (fresh (size v.shape)) else .ub
    | none => .ub

/-- The views that `for x in a` binds to `x` one after another, from index `i`; `none` if the loop has not ended after `fuel` passes.
Objects and statements of Python, for arrayGenerator.py and generalArrayViewGenerator.py. -/
def forLoop (s : St α) (id : Nat) : (fuel : Nat) → (i : Nat) → Option (Out (List (Nat × ViewM.View)))
  | 0, _ => none
  | fuel + 1, i =>
    match item s id i with
    | .ok p => (forLoop s id fuel (i + 1)).map fun r => r >>= fun ps => .ok (p :: ps)
    | .throw .outOfRange => some (.ok [])
    | .throw e => some (.throw e)
    | .ub => some .ub

end Verif.PyM
