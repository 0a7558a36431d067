import Verif.Model.ClTypes
import Verif.Model.GpuAssign

/-!
Element types of CUDA arrays in element-wise expressions, with the packets (`float4`, `double2`, ...) the kernels are instantiated for:
array/assignOps.hpp 354-545, array/function.hpp 6-18 and 75-103, core/traits.hpp 402-760, core/cudaConfig.hpp 76-86,
cuda/cudaKernelProcesor.hpp 23-90, cuda/kernels/arithmetic.cu, negate.cu, abs.cu, expLogPow.cu, floorCeilRound.cu, trigonometry.cu,
vectorOps.cuh.

Types, operators and expressions are those of Verif.Model.ClTypes. The kernels are templates, so an element is always read with the type
it was written with: a buffer is a list of elements (bit patterns). Threads run one after the other, and the components of a packet, too;
each component is computed from the components with the same index, and that the order of the threads does not matter is C66. Not
modelled: arrays without elements (a launch without threads is refused), more than 2^32 packets (C66), halves, complex and dual numbers,
functors without a kernel (C66).
-/

namespace Verif.CudaTypes

open Verif.ClTypes (Ty BinOp UnOp Expr usual common)

/-- What the device does with bit patterns. `wt op t` is the type in which the function of a unary kernel is computed on a `t`: `t` itself
for floating-point types, the promoted type for `-x`, `double` for `exp(x)` with an integer `x` (expLogPow.cu 1-5, negate.cu 4-8);
`raw op t v` is its value in that type. `bin op k` is an operator on two values of type `k` (arithmetic.cu 4-191), `cast` a conversion. -/
structure Arith where
  wt : UnOp → Ty → Ty
  raw : UnOp → Ty → Nat → Nat
  bin : BinOp → Ty → Nat → Nat → Nat
  cast : Ty → Ty → Nat → Nat

/-- `LIBRAPID_CUDA_FLOAT_VECTOR_WIDTH` and `LIBRAPID_CUDA_DOUBLE_VECTOR_WIDTH` (core/cudaConfig.hpp 76-86; CMakeLists.txt 455-474 keeps them
between 1 and 4). -/
structure Widths where
  f : Nat
  d : Nat
deriving DecidableEq, Repr

/-- `TypeInfo<T>::allowVectorisation` (core/traits.hpp 193-513; false for the 64-bit integers, 417 and 449). -/
def allowVec : Ty → Bool
  | .i64 | .u64 => false
  | _ => true

/-- A type a kernel is instantiated for: a number, or a packet of `c` numbers (`jitify::float4`, ...; core/traits.hpp 563-760). -/
inductive KTy where
  | sc (t : Ty)
  | vec (t : Ty) (c : Nat)
deriving DecidableEq, Repr

/-- `CudaVectorExtractor<T>::Scalar` (array/assignOps.hpp 401-417, core/cudaConfig.hpp 76-86). -/
def packet (w : Widths) : Ty → KTy
  | .f32 => if w.f > 1 then .vec .f32 w.f else .sc .f32
  | .f64 => if w.d > 1 then .vec .f64 w.d else .sc .f64
  | t => .sc t

/-- `TypeInfo<T>::cudaPacketWidth` (core/traits.hpp 197-517, 582-742): 1 for numbers and, unlike the others, for `float2` (582). -/
def cudaPacketWidth : KTy → Nat
  | .sc _ => 1
  | .vec .f32 2 => 1
  | .vec _ c => c

/-- `TypeInfo<T>::allowVectorisation` of an operand (array/arrayContainer.hpp 59-65, array/function.hpp 6-18 and 97): all operands of a
function must allow it and have the same element type. -/
def fnVec : Expr → Bool
  | .arr _ t => allowVec t
  | .scalar t _ => allowVec t
  | .un _ x => fnVec x
  | .bin _ x y => fnVec x && fnVec y && decide (x.ty = y.ty)

/-- `CudaCanVectorise<Dst, Function>::value` for a destination with elements of type `dt` (array/assignOps.hpp 419-454). `dtypesAreSame`
compares each type with itself (440-443) and says nothing. -/
def canVectorise (w : Widths) (dt : Ty) (e : Expr) : Bool :=
  allowVec dt && fnVec e && decide (cudaPacketWidth (packet w dt) > 1) && decide (cudaPacketWidth (packet w e.ty) > 1)

/-- `CudaVectorHelper<...>::extractor<T>()` for an array or function with elements of type `t` (array/assignOps.hpp 456-473). -/
def extractor (w : Widths) (can : Bool) (t : Ty) : KTy := if can then packet w t else .sc t

/-- The kernel's type for an operand: scalars are passed as they are (array/assignOps.hpp 463-465, 500-501). -/
def argTy (w : Widths) (can : Bool) : Expr → KTy
  | .scalar t _ => .sc t
  | x => extractor w can x.ty

/-- Type of `lhs[i] OP rhs[i]` in a kernel, `none` if it does not compile: packets have operators for packets of the same kind and for
numbers of the same type (cuda/kernels/vectorOps.cuh 30-161, 209-340). Operators that convert the number are not needed here, since
packets are used only when all operands have the same element type. -/
def kernelBin (op : BinOp) : KTy → KTy → Option KTy
  | .sc a, .sc b => some (.sc (op.resTy a b))
  | .vec a c, .vec b d => if a = b ∧ c = d then some (.vec a c) else none
  | .vec a c, .sc b => if a = b then some (.vec a c) else none
  | .sc a, .vec b c => if a = b then some (.vec b c) else none

/-- Type of the right-hand side of a kernel for the function `e` (arithmetic.cu 4-191, expLogPow.cu 1-5, vectorOps.cuh 162-208, 341-385). -/
def rhsTy (A : Arith) (w : Widths) (can : Bool) : Expr → Option KTy
  | .arr _ t => some (.sc t)
  | .scalar t _ => some (.sc t)
  | .un op x => match argTy w can x with
    | .sc t => some (.sc (A.wt op t))
    | .vec t c => some (.vec t c)
  | .bin op x y => kernelBin op (argTy w can x) (argTy w can y)

/-- Whether `dst[i] = v` compiles: numbers convert into each other, packets do not (arithmetic.cu 7). -/
def assignable : KTy → KTy → Bool
  | .sc _, .sc _ => true
  | .vec a c, .vec b d => decide (a = b ∧ c = d)
  | _, _ => false

/-- Components of a packet (core/traits.hpp 563-760). -/
def comps : KTy → Nat
  | .sc _ => 1
  | .vec _ c => c

/-- The kernel for the function `e` and a destination of type `dt` compiles (array/assignOps.hpp 486-510, 537-544). -/
def kernelCompiles (A : Arith) (w : Widths) (dt : Ty) (e : Expr) : Bool :=
  match rhsTy A w (canVectorise w dt e) e with
  | none => false
  | some r => assignable (extractor w (canVectorise w dt e) dt) r

/-- The buffers on the device, as lists of the elements allocated (cuda/cudaStorage.hpp 249-251). -/
abbrev Mem := List (List Nat)

/-- Kernel arguments: a pointer or a number (array/assignOps.hpp 355-364). -/
inductive Arg where
  | buf (id : Nat)
  | scalar (v : Nat)
deriving DecidableEq, Repr

/-- Component `i` of an argument; undefined outside the allocation (arithmetic.cu 7, 14, 22). -/
def fetch (m : Mem) (i : Nat) : Arg → Out Nat
  | .scalar v => .ok v
  | .buf id => match m[id]? with
    | none => .ub
    | some b => match b[i]? with
      | none => .ub
      | some v => .ok v

/-- A kernel call with the element types of its arguments (array/assignOps.hpp 500-510). -/
inductive Call where
  | un (op : UnOp) (t : Ty) (x : Arg)
  | bin (op : BinOp) (s t : Ty) (x y : Arg)

/-- The value stored by the kernel in component `i` of a destination of type `dt`: the right-hand side is computed in its own type and
converted once, to the type of the destination (arithmetic.cu 7, expLogPow.cu 4). -/
def Call.val (A : Arith) (dt : Ty) (m : Mem) (i : Nat) : Call → Out Nat
  | .un op t x => (fetch m i x).bind fun v => .ok (A.cast (A.wt op t) dt (A.raw op t v))
  | .bin op s t x y => (fetch m i x).bind fun v => (fetch m i y).bind fun u =>
      .ok (A.cast (op.resTy s t) dt (A.bin op (op.resTy s t) (A.cast s (op.resTy s t) v) (A.cast t (op.resTy s t) u)))

/-- `dst[i] = v` (arithmetic.cu 7). -/
def write (m : Mem) (dst i v : Nat) : Out Mem :=
  match m[dst]? with
  | none => .ub
  | some b => if i < b.length then .ok (m.set dst (b.set i v)) else .ub

/-- Component `i` of the kernel (arithmetic.cu 4-8). -/
def item (A : Arith) (dt : Ty) (dst : Nat) (c : Call) (i : Nat) (m : Mem) : Out Mem :=
  (c.val A dt m i).bind fun v => write m dst i v

/-- The first `k` components (arithmetic.cu 4-8). -/
def run (A : Arith) (dt : Ty) (dst : Nat) (c : Call) (m : Mem) : Nat → Out Mem
  | 0 => .ok m
  | k + 1 => (run A dt dst c m k).bind fun m' => item A dt dst c k m'

/-- Components written by a kernel: as many threads as there are packets of the function's type, each of which writes one packet of the
destination's type (array/assignOps.hpp 492-507, 537-544). -/
def extent (w : Widths) (dt : Ty) (e : Expr) (n : Nat) : Nat :=
  Gpu.packets n (cudaPacketWidth (extractor w (canVectorise w dt e) e.ty)) * comps (extractor w (canVectorise w dt e) dt)

/-- `runKernel`: the kernel is compiled when it is first used; if it does not compile, jitify throws (array/assignOps.hpp 500-510,
cuda/cudaKernelProcesor.hpp 50-56). -/
def launch (A : Arith) (w : Widths) (n dst : Nat) (dt : Ty) (e : Expr) (c : Call) (m : Mem) : Out Mem :=
  if kernelCompiles A w dt e then run A dt dst c m (extent w dt e n) else .throw .runtimeError

/-- The buffer of a temporary array of `n` elements, with arbitrary contents (array/assignOps.hpp 392-396, cuda/cudaStorage.hpp
249-251). -/
def fresh (junk : Nat → Nat) (n : Nat) : List Nat := (List.range (Gpu.cudaAllocated n)).map junk

/-- `dataSourceExtractor(cudaTupleEvaluatorImpl(x))`: arrays and scalars are passed on, functions are evaluated into a temporary array of
their own scalar type (array/assignOps.hpp 355-399). -/
def operand (A : Arith) (w : Widths) (junk : Nat → Nat) (n : Nat) : Expr → Mem → Out (Mem × Arg)
  | .arr id _, m => .ok (m, .buf id)
  | .scalar _ v, m => .ok (m, .scalar v)
  | .un op x, m => (operand A w junk n x m).bind fun r =>
      (launch A w n r.1.length x.ty (.un op x) (.un op x.ty r.2) (r.1 ++ [fresh junk n])).bind fun m' => .ok (m', .buf r.1.length)
  | .bin op x y, m => (operand A w junk n x m).bind fun r => (operand A w junk n y r.1).bind fun s =>
      (launch A w n s.1.length (op.resTy x.ty y.ty) (.bin op x y) (.bin op x.ty y.ty r.2 s.2) (s.1 ++ [fresh junk n])).bind fun m' =>
        .ok (m', .buf s.1.length)

/-- `assign(lhs, function)` for a destination with buffer `dst` and elements of type `dt` (array/assignOps.hpp 513-545). Expressions that are
not functions are assigned by other overloads and leave the memory as it is here. -/
def assign (A : Arith) (w : Widths) (junk : Nat → Nat) (n dst : Nat) (dt : Ty) : Expr → Mem → Out Mem
  | .arr _ _, m => .ok m
  | .scalar _ _, m => .ok m
  | .un op x, m => (operand A w junk n x m).bind fun r => launch A w n dst dt (.un op x) (.un op x.ty r.2) r.1
  | .bin op x y, m => (operand A w junk n x m).bind fun r => (operand A w junk n y r.1).bind fun s =>
      launch A w n dst dt (.bin op x y) (.bin op x.ty y.ty r.2 s.2) s.1

end Verif.CudaTypes
