import Verif.Model.Python

/-!
# The Python function `Array` and the class `Shape`

Models librapid/__init__.py 48-134 `Array`, which picks a class from its arguments, and the `Shape` class that
librapid/bindings/generators/shapeGenerator.py generates.

Python semantics used: positional arguments come in order, keyword arguments have distinct names, `==` on a `Backend` compares names (31-32)
and asks an object without `name` in vain (`AttributeError`), a lookup in the dictionary of types finds an equal `DataType` (15-19). Other
objects given as data types are hashable and equal to none.
-/

namespace Verif.PyArray

open ShapeM

/-- The six data types (238-243). -/
inductive DType | float32 | float64 | int32 | int64 | uint32 | uint64
deriving DecidableEq, Repr

/-- `DataType.size`, 238-243. -/
def DType.size : DType → Nat
  | .float32 => 4
  | .float64 => 8
  | .int32 => 4
  | .int64 => 8
  | .uint32 => 4
  | .uint64 => 8

/-- The element types of the generated classes (arrayGenerator.py 12-20, without complex numbers). -/
inductive Scalar | int32_t | int64_t | uint32_t | uint64_t | float | double
deriving DecidableEq, Repr

/-- `sizeof`. For librapid/__init__.py 48-134. -/
def Scalar.sizeof : Scalar → Nat
  | .int32_t => 4
  | .int64_t => 8
  | .uint32_t => 4
  | .uint64_t => 8
  | .float => 4
  | .double => 8

/-- The three backends (286-288). -/
inductive Backend | CPU | OpenCL | CUDA
deriving DecidableEq, Repr

/-- An argument. `obj` are the objects that are neither of these. For librapid/__init__.py 48-134. -/
inductive Arg (β : Type) where
  | none
  | dtype (d : DType)
  | backend (b : Backend)
  | obj (x : β)
deriving DecidableEq

/-- Exceptions. For librapid/__init__.py 48-134. -/
inductive Err | valueError | runtimeError | attributeError
deriving DecidableEq, Repr

/-- Which constructor is called with what: `arrayType(Shape(shape))` or `arrayType(data)`. For librapid/__init__.py 48-134. -/
inductive Made (β : Type) where
  | ofShape (s : Scalar) (x : Arg β)
  | ofData (s : Scalar) (x : Arg β)
deriving DecidableEq

/-- The four local variables, 68-71. -/
structure Slots (β : Type) where
  shape : Arg β := .none
  data : Arg β := .none
  dtype : Arg β := .none
  backend : Arg β := .none
deriving DecidableEq

variable {β : Type}

/-- 73-79: the loop over the positional arguments, from index `i`. -/
def positional (s : Slots β) : Nat → List (Arg β) → Slots β
  | _, [] => s
  | 0, a :: as => positional { s with data := a } 1 as
  | 1, a :: as => positional { s with dtype := a } 2 as
  | 2, a :: as => positional { s with backend := a } 3 as
  | i + 3, _ :: as => positional s (i + 4) as

/-- 81-91: the loop over the keyword arguments. -/
def keywords (s : Slots β) : List (String × Arg β) → Except Err (Slots β)
  | [] => .ok s
  | (k, a) :: ks =>
    if k = "shape" then keywords { s with shape := a } ks
    else if k = "data" then keywords { s with data := a } ks
    else if k = "dtype" then keywords { s with dtype := a } ks
    else if k = "backend" then keywords { s with backend := a } ks
    else .error .valueError

/-- `x is None`. For librapid/__init__.py 48-134. -/
def Arg.isNone : Arg β → Bool
  | .none => true
  | _ => false

/-- 247-256 `__cpuTypeList.get(dtype, None)`. -/
def cpuType : Arg β → Option Scalar
  | .dtype .int32 => some .int32_t
  | .dtype .int64 => some .int64_t
  | .dtype .uint32 => some .uint32_t
  | .dtype .uint64 => some .uint64_t
  | .dtype .float32 => some .float
  | .dtype .float64 => some .double
  | _ => none

/-- 105-127: the class, `hasOpenCL` and `hasCUDA` are false in every build (boilerplate.py 45-63). -/
def classOf (dtype backend : Arg β) : Except Err Scalar :=
  match backend with
  | .backend .CPU =>
    match cpuType dtype with
    | some t => .ok t
    | none => .error .valueError
  | .backend _ => .error .runtimeError
  | .dtype _ => .error .valueError
  | .none => .error .attributeError
  | .obj _ => .error .attributeError

/-- 93-97: exactly one of the two. -/
def oneOf (s : Slots β) : Except Err Unit :=
  if s.shape.isNone && s.data.isNone then .error .valueError
  else if !s.shape.isNone && !s.data.isNone then .error .valueError
  else .ok ()

/-- 99-103: defaults. -/
def orElse (a b : Arg β) : Arg β := if a.isNone then b else a

/-- 129-134: the call of the constructor. -/
def construct (s : Slots β) (t : Scalar) : Made β := if !s.shape.isNone then .ofShape t s.shape else .ofData t s.data

/-- librapid/__init__.py 48-134 `Array(*args, **kwargs)`. -/
def array (args : List (Arg β)) (kwargs : List (String × Arg β)) : Except Err (Made β) := do
  let s ← keywords (positional {} 0 args) kwargs
  oneOf s
  let t ← classOf (orElse s.dtype (.dtype .float32)) (orElse s.backend (.backend .CPU))
  return construct s t

/-! ## Shapes -/

/-- `for d in shape`: `__getitem__` (shapeGenerator.py 76-95) with 0, 1, ... until `IndexError`; `none` if not ended after `fuel` passes. -/
def shapeLoop (s : AnyShape) : (fuel : Nat) → (i : Nat) → Option (Out (List Nat))
  | 0, _ => none
  | fuel + 1, i =>
    match at' true s i with
    | .ok d => (shapeLoop s fuel (i + 1)).map fun r => r >>= fun ds => .ok (d :: ds)
    | .throw .outOfRange => some (.ok [])
    | .throw e => some (.throw e)
    | .ub => some .ub

/-- `shape[i]` as Python sees it. For librapid/__init__.py 48-134. -/
def shapeGet (e : List Nat) (i : Int) : Except PyM.PyExc Nat :=
  match at' true (.shape e) i with
  | .ok d => .ok d
  | .throw x => .error (PyM.pyExc x)
  | .ub => .error .runtimeError

end Verif.PyArray
