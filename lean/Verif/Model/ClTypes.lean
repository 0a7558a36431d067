import Verif.Basic

/-!
Element types of OpenCL arrays in element-wise expressions: array/assignOps.hpp 280-351, opencl/openclKernelProcessor.hpp 6-45,
opencl/openclStorage.hpp 220-252, array/function.hpp 75-103, array/operations.hpp 5-33 and 115-127,
opencl/kernels/arithmetic.cl 1-43.

Memory is modelled byte by byte. A value is the bit pattern of a number; what the operators and the conversions do with bit patterns
is left to the parameter `Arith`. Work items run one after the other; that their order does not matter is C66. The checks for
`int gid` (fewer than 2^31 elements) and for equal shapes are those of C66, too, and are not repeated. Halves, complex and dual
numbers are not modelled here.
-/

namespace Verif.ClTypes

/-- The arithmetic element types for which the kernels exist (opencl/kernels/arithmetic.cl 20-31, core.cl 12-19). -/
inductive Ty where
  | i8 | i16 | i32 | i64 | u8 | u16 | u32 | u64 | f32 | f64
deriving DecidableEq, Repr

/-- `sizeof` (core/traits.hpp 193-505; core.cl 12-19 declares the same widths on the device). -/
def Ty.bytes : Ty → Nat
  | .i8 | .u8 => 1
  | .i16 | .u16 => 2
  | .i32 | .u32 | .f32 => 4
  | .i64 | .u64 | .f64 => 8

/-- Whether the type is an integer type (core/traits.hpp 193-505). -/
def Ty.isInt : Ty → Bool
  | .f32 | .f64 => false
  | _ => true

/-- The integer promotions applied to the operands of `lhs OP_ rhs` (array/operations.hpp 9). -/
def Ty.promote : Ty → Ty
  | .i8 | .i16 | .u8 | .u16 => .i32
  | t => t

/-- The usual arithmetic conversions on promoted operands: the type of `lhs OP_ rhs` (array/operations.hpp 9). -/
def usualP : Ty → Ty → Ty
  | .f64, _ | _, .f64 => .f64
  | .f32, _ | _, .f32 => .f32
  | .u64, _ | _, .u64 => .u64
  | .i64, _ | _, .i64 => .i64
  | .u32, _ | _, .u32 => .u32
  | _, _ => .i32

/-- Type of `lhs OP_ rhs` for an arithmetic operator (array/operations.hpp 5-10). -/
def usual (a b : Ty) : Ty := usualP a.promote b.promote

/-- `std::common_type_t<T, V>`, the type of a comparison functor's result (array/operations.hpp 19-25). -/
def common (a b : Ty) : Ty := if a = b then a else usual a b

/-- The binary functors (array/operations.hpp 142-154). -/
inductive BinOp where
  | add | sub | mul | div | lt | gt | le | ge | eq | ne
deriving DecidableEq, Repr

/-- Whether the functor is defined by `LIBRAPID_BINARY_COMPARISON_FUNCTOR` (array/operations.hpp 19-33, 149-154). -/
def BinOp.isCmp : BinOp → Bool
  | .add | .sub | .mul | .div => false
  | _ => true

/-- `Function::Scalar` of a binary function (array/function.hpp 85-88). -/
def BinOp.resTy (op : BinOp) (a b : Ty) : Ty := if op.isCmp then common a b else usual a b

/-- Unary functors are numbered; their result has the type of their argument (array/operations.hpp 115-127). -/
abbrev UnOp := Nat

/-- What the operators and `static_cast` do with bit patterns: `un op k`, `bin op k` are the kernels for the type `k`
(arithmetic.cl 1-43), `cast a k` is a conversion from `a` to `k` (openclKernelProcessor.hpp 15). -/
structure Arith where
  un : UnOp → Ty → Nat → Nat
  bin : BinOp → Ty → Nat → Nat → Nat
  cast : Ty → Ty → Nat → Nat

/-- Bytes of a value, least significant first (the layout of a `__global DTYPE *`, arithmetic.cl 2-6). -/
def enc : Nat → Nat → List Nat
  | 0, _ => []
  | c + 1, v => v % 256 :: enc c (v / 256)

/-- Value of some bytes, least significant first (arithmetic.cl 2-6). -/
def dec : List Nat → Nat
  | [] => 0
  | b :: bs => b + 256 * dec bs

/-- Buffer of an array: `size * sizeof(Scalar)` bytes (opencl/openclStorage.hpp 220-235). -/
def encAll (c : Nat) : List Nat → List Nat
  | [] => []
  | v :: vs => enc c v ++ encAll c vs

/-- `p[i]` for a `__global const DTYPE *p` of element size `c`: undefined behaviour outside the buffer (arithmetic.cl 5). -/
def load (c : Nat) (buf : List Nat) (i : Nat) : Out Nat :=
  if (i + 1) * c ≤ buf.length then .ok (dec ((buf.drop (i * c)).take c)) else .ub

/-- `p[i] = v` for a `__global DTYPE *p` of element size `c` (arithmetic.cl 5). -/
def store (c : Nat) (buf : List Nat) (i v : Nat) : Out (List Nat) :=
  if (i + 1) * c ≤ buf.length then .ok (buf.take (i * c) ++ enc c v ++ buf.drop ((i + 1) * c)) else .ub

/-- The buffers on the device, numbered in order of their creation (opencl/openclStorage.hpp 220-235). -/
abbrev Mem := List (List Nat)

/-- Kernel arguments: a `cl::Buffer`, or a scalar of its own type (array/assignOps.hpp 282-304). -/
inductive Arg where
  | buf (id : Nat)
  | scalar (ty : Ty) (v : Nat)
deriving DecidableEq, Repr

/-- Value of an argument in work item `i` of a kernel for the type `k`: an element of the buffer read as `k`, or the scalar converted
to `k` (openclKernelProcessor.hpp 9-22, arithmetic.cl 5, 11, 17). -/
def fetch (A : Arith) (k : Ty) (m : Mem) (i : Nat) : Arg → Out Nat
  | .scalar ty v => .ok (A.cast ty k v)
  | .buf id => match m[id]? with
    | none => .ub
    | some b => load k.bytes b i

/-- A kernel call (array/assignOps.hpp 316-329). -/
inductive Call where
  | un (op : UnOp) (x : Arg)
  | bin (op : BinOp) (x y : Arg)

/-- The right-hand side of the kernel's assignment in work item `i` (arithmetic.cl 5, 11, 17). -/
def Call.val (A : Arith) (k : Ty) (m : Mem) (i : Nat) : Call → Out Nat
  | .un op x => (fetch A k m i x).bind fun v => .ok (A.un op k v)
  | .bin op x y => (fetch A k m i x).bind fun v => (fetch A k m i y).bind fun w => .ok (A.bin op k v w)

/-- `dst[i] = v` in the memory (arithmetic.cl 5). -/
def write (k : Ty) (m : Mem) (dst i v : Nat) : Out Mem :=
  match m[dst]? with
  | none => .ub
  | some b => (store k.bytes b i v).bind fun b' => .ok (m.set dst b')

/-- Work item `i` (arithmetic.cl 2-6). -/
def item (A : Arith) (k : Ty) (dst : Nat) (c : Call) (i : Nat) (m : Mem) : Out Mem :=
  (c.val A k m i).bind fun v => write k m dst i v

/-- The first `n` work items of a kernel for the type `k` (openclKernelProcessor.hpp 32-38). -/
def run (A : Arith) (k : Ty) (dst : Nat) (c : Call) (m : Mem) : Nat → Out Mem
  | 0 => .ok m
  | i + 1 => (run A k dst c m i).bind fun m' => item A k dst c i m'

/-- An element-wise expression over OpenCL arrays and scalars (array/function.hpp 150-260). An array is given by its buffer and its element
type. -/
inductive Expr where
  | arr (id : Nat) (ty : Ty)
  | scalar (ty : Ty) (v : Nat)
  | un (op : UnOp) (x : Expr)
  | bin (op : BinOp) (x y : Expr)
deriving DecidableEq, Repr

/-- `TypeInfo<T>::Scalar` of an operand (array/function.hpp 43-45, 75-88). -/
def Expr.ty : Expr → Ty
  | .arr _ t => t
  | .scalar t _ => t
  | .un _ x => x.ty
  | .bin op x y => op.resTy x.ty y.ty

/-- The buffer of a temporary array of `n` elements of type `t`, with arbitrary contents (array/assignOps.hpp 309-312). -/
def fresh (junk : Nat → Nat) (n : Nat) (t : Ty) : List Nat := (List.range (n * t.bytes)).map junk

/-- `dataSourceExtractor(openCLTupleEvaluatorImpl(x))`: arrays and scalars are passed on, functions are evaluated into a temporary array
of their own scalar type (array/assignOps.hpp 282-314). -/
def operand (A : Arith) (junk : Nat → Nat) (n : Nat) : Expr → Mem → Out (Mem × Arg)
  | .arr id _, m => .ok (m, .buf id)
  | .scalar t v, m => .ok (m, .scalar t v)
  | .un op x, m => (operand A junk n x m).bind fun r =>
      (run A x.ty r.1.length (.un op r.2) (r.1 ++ [fresh junk n x.ty]) n).bind fun m' => .ok (m', .buf r.1.length)
  | .bin op x y, m => (operand A junk n x m).bind fun r => (operand A junk n y r.1).bind fun s =>
      (run A (op.resTy x.ty y.ty) s.1.length (.bin op r.2 s.2) (s.1 ++ [fresh junk n (op.resTy x.ty y.ty)]) n).bind fun m' =>
        .ok (m', .buf s.1.length)

/-- `assign(lhs, function)` where the destination has the buffer `dst`: the kernel is that of the function's scalar type, whatever the
element type of the destination (array/assignOps.hpp 331-351). Expressions that are not functions are assigned by other overloads and
leave the memory as it is here. -/
def assign (A : Arith) (junk : Nat → Nat) (n dst : Nat) : Expr → Mem → Out Mem
  | .arr _ _, m => .ok m
  | .scalar _ _, m => .ok m
  | .un op x, m => (operand A junk n x m).bind fun r => run A x.ty dst (.un op r.2) r.1 n
  | .bin op x y, m => (operand A junk n x m).bind fun r => (operand A junk n y r.1).bind fun s =>
      run A (op.resTy x.ty y.ty) dst (.bin op r.2 s.2) s.1 n

/-- The expression is accepted by the compiler: `static_assert(sizeof(Scalar) > 2)` for every function in it
(openclKernelProcessor.hpp 26-28). -/
def Expr.compiles : Expr → Bool
  | .arr _ _ => true
  | .scalar _ _ => true
  | .un _ x => x.compiles && decide (2 < x.ty.bytes)
  | .bin op x y => x.compiles && y.compiles && decide (2 < (op.resTy x.ty y.ty).bytes)

/-- A function: an operator applied to operands (array/function.hpp 150-260). -/
def Expr.isFn : Expr → Bool
  | .un _ _ | .bin _ _ _ => true
  | _ => false

end Verif.ClTypes
