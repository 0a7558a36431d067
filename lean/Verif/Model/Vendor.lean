import Verif.Model.Matmul

/-!
# Model of the products and scaled sums that are handed to cuBLAS, cuBLASLt and CLBlast
(array/linalg/level3/gemm.hpp 50-70 and 117-285, level2/gemv.hpp 50-75 and 199-212, level3/geam.hpp 95-300, arrayMultiply.hpp 404-474,
math/complex.hpp 2075, core/traits.hpp 484, 516, math/half.hpp 731)

The three libraries are not part of the repository. `ltMatmul`, `geamRoutine`, `clGemm` and `clGemv` are their documented contracts:
which arguments they refuse and what they store otherwise, in exact arithmetic and for arrays that do not overlap. What cuBLASLt does
with a matrix without elements is left open (`zero`). The custom kernels used for other element types are in Model/Gpu.lean.
-/

namespace Verif.VendorM

open ShapeM MulM

/-- The two orders of `cublasLtOrder_t` and `clblast::Layout` in use (level3/gemm.hpp 60, 216; cuBLAS itself is column major). -/
inductive Order where
  | row | col
deriving DecidableEq

/-- A matrix as a vendor library sees it: extents, leading dimension, order (level3/gemm.hpp 209-213). -/
structure Layout where
  rows : Nat
  cols : Nat
  ld : Nat
  order : Order

namespace Layout

/-- The position of an element. For level3/gemm.hpp 209-223. -/
def pos (l : Layout) (i j : Nat) : Nat :=
  match l.order with
  | .row => i * l.ld + j
  | .col => j * l.ld + i

/-- The number of elements from the first to the last one. For level3/gemm.hpp 209-223. -/
def span (l : Layout) : Nat :=
  match l.order with
  | .row => (l.rows - 1) * l.ld + l.cols
  | .col => (l.cols - 1) * l.ld + l.rows

/-- The leading dimension must not be smaller than a row (a column). For level3/gemm.hpp 209-223. -/
def valid (l : Layout) : Bool :=
  match l.order with
  | .row => decide (l.cols ≤ l.ld)
  | .col => decide (l.rows ≤ l.ld)

/-- Whether the matrix has no elements. For level3/gemm.hpp 209-223. -/
def none? (l : Layout) : Bool := decide (l.rows = 0) || decide (l.cols = 0)

/-- The row and the column of the element at a position, if there is one. For level3/gemm.hpp 209-223. -/
def find (l : Layout) (p : Nat) : Option (Nat × Nat) :=
  match l.order with
  | .row => if p / l.ld < l.rows ∧ p % l.ld < l.cols then some (p / l.ld, p % l.ld) else none
  | .col => if p % l.ld < l.rows ∧ p / l.ld < l.cols then some (p % l.ld, p / l.ld) else none

/-- The rows of the matrix or of its transpose. For level3/gemm.hpp 178-179. -/
def opRows (l : Layout) (trans : Bool) : Nat := if trans then l.cols else l.rows

/-- The columns of the matrix or of its transpose. For level3/gemm.hpp 178-179. -/
def opCols (l : Layout) (trans : Bool) : Nat := if trans then l.rows else l.cols

variable {α : Type}

/-- Element (i, j) of the matrix or of its transpose. For level3/gemm.hpp 178-179. -/
def read [Zero α] (l : Layout) (trans : Bool) (data : List α) (i j : Nat) : α :=
  if trans then data.getD (l.pos j i) 0 else data.getD (l.pos i j) 0

/-- Storing a matrix over another; nothing between the rows (columns) is touched. For level3/gemm.hpp 243-258. -/
def store (l : Layout) (f : Nat → Nat → α → α) (data : List α) : List α :=
  data.mapIdx fun p v =>
    match l.find p with
    | some (i, j) => f i j v
    | none => v

end Layout

/-- What a call of a vendor library does: it stores something, it returns an error status, or it reads or writes outside the arrays it
was given. For level3/gemm.hpp 66, 243 and level3/geam.hpp 172. -/
inductive Ret (α : Type) where
  | done (c : List α)
  | refused
  | stray
deriving DecidableEq

variable {α : Type} [Zero α] [Add α] [Mul α]

/-- The sum `Σ f l`, `l < k`, in order. For level3/gemm.hpp 5-9. -/
def total (k : Nat) (f : Nat → α) : α := ((List.range k).map f).foldr (· + ·) 0

/-- `alpha op(A) op(B) + beta C` over `c`. For level3/gemm.hpp 5-9. -/
def productOver (la lb lc : Layout) (transA transB : Bool) (alpha : α) (a b : List α) (beta : α) (c : List α) : List α :=
  lc.store (fun i j v => alpha * total (la.opCols transA) (fun l => la.read transA a i l * lb.read transB b l j) + beta * v) c

/-! ### cuBLASLt -/

/-- The element types for which `IsBlasType` holds (linalg.hpp 5-21). -/
inductive Elt where
  | half | float | double | cfloat | cdouble
deriving DecidableEq

/-- The values of `cudaDataType_t` that occur (level3/gemm.hpp 142-165). -/
inductive DataType where
  | r16f | r32f | r64f | c32f | c64f
deriving DecidableEq

/-- Their numbers in CUDA's library_types.h, which `::librapid::min` compares (level3/gemm.hpp 142). -/
def DataType.number : DataType → Nat
  | .r32f => 0
  | .r64f => 1
  | .r16f => 2
  | .c32f => 4
  | .c64f => 5

/-- `TypeInfo<T>::CudaType` (half.hpp 731, traits.hpp 484 and 516, complex.hpp 2075: every `Complex<T>` has `CUDA_C_64F`). -/
def Elt.cudaType : Elt → DataType
  | .half => .r16f
  | .float => .r32f
  | .double => .r64f
  | .cfloat => .c64f
  | .cdouble => .c64f

/-- The values of `cublasComputeType_t` that occur; `fast` is the one chosen with `LIBRAPID_FAST_MATH` (level3/gemm.hpp 146-165). -/
inductive Compute where
  | f16 (fast : Bool)
  | f32 (fast : Bool)
  | f64 (fast : Bool)
deriving DecidableEq

/-- The type with the smaller number (level3/gemm.hpp 142). -/
def DataType.min (a b : DataType) : DataType := if b.number < a.number then b else a

/-- level3/gemm.hpp 146-160: the compute type and the type of the scales. -/
def computeFor (fast : Bool) : DataType → Compute × DataType
  | .r16f => (.f16 fast, .r16f)
  | .r32f => (.f32 fast, .r32f)
  | .c32f => (.f32 fast, .r32f)
  | .r64f => (.f64 fast, .r64f)
  | .c64f => (.f64 fast, .r64f)

/-- level3/gemm.hpp 124-166 `cublasGemmComputeType`. -/
def cublasGemmComputeType (asserts fast : Bool) (a b c : DataType) : Out (Compute × DataType) := do
  Out.assert asserts (decide (a = b))
  Out.assert asserts (decide (a = c))
  return computeFor fast ((a.min b).min c)

/-- The combinations of types that `cublasLtMatmul` accepts, among those that occur: compute type, type of the scales, types of A and B,
type of C (table in the documentation of `cublasLtMatmul`). For level3/gemm.hpp 192-194. -/
def supported (compute : Compute) (scale a b c : DataType) : Bool :=
  match compute, scale with
  | .f16 _, .r16f => decide (a = .r16f ∧ b = .r16f ∧ c = .r16f)
  | .f32 false, .r32f => decide ((a = .r32f ∧ b = .r32f ∧ c = .r32f) ∨ (a = .r16f ∧ b = .r16f ∧ (c = .r16f ∨ c = .r32f)))
  | .f32 true, .r32f => decide (a = .r32f ∧ b = .r32f ∧ c = .r32f)
  | .f32 _, .c32f => decide (a = .c32f ∧ b = .c32f ∧ c = .c32f)
  | .f64 _, .r64f => decide (a = .r64f ∧ b = .r64f ∧ c = .r64f)
  | .f64 _, .c64f => decide (a = .c64f ∧ b = .c64f ∧ c = .c64f)
  | _, _ => false

/-- The contract of `cublasLtMatmul` and `cublasLtMatmulAlgoGetHeuristic` (level3/gemm.hpp 226-258): unsupported types, extents that do
not belong together and leading dimensions that are too small are refused. -/
def ltMatmul (zero : List α → Ret α) (compute : Compute) (scale : DataType) (transA transB : Bool) (tA tB tC : DataType)
    (la lb lc : Layout) (alpha : α) (a b : List α) (beta : α) (c : List α) : Ret α :=
  if !supported compute scale tA tB tC then .refused
  else if !(la.valid && lb.valid && lc.valid) then .refused
  else if ¬ (la.opRows transA = lc.rows ∧ la.opCols transA = lb.opRows transB ∧ lb.opCols transB = lc.cols) then .refused
  else if la.none? || lb.none? || lc.none? then zero c
  else if ¬ (la.span ≤ a.length ∧ lb.span ≤ b.length ∧ lc.span ≤ c.length) then .stray
  else .done (productOver la lb lc transA transB alpha a b beta c)

/-- `cublasSafeCall` (core/cudaConfig.hpp 39-43): a status other than success is reported whatever the build, as far as the macro can be
compiled. -/
def safeCall : Ret α → Out (List α)
  | .done c => .ok c
  | .refused => .throw .runtimeError
  | .stray => .ub

/-- level3/gemm.hpp 166-272 `gemm` on CUDA for the types of `Elt`; the scales have the type `eS`. A pointer to a scale of another type
than cuBLASLt was told reads a wrong value or beyond the scale. -/
def gemmCuda (asserts fast : Bool) (zero : List α → Ret α) (eA eB eC eS : Elt) (transA transB : Bool) (m n k : Nat) (alpha : α)
    (a : List α) (lda : Nat) (b : List α) (ldb : Nat) (beta : α) (c : List α) (ldc : Nat) : Out (List α) := do
  let types ← cublasGemmComputeType asserts fast eA.cudaType eB.cudaType eC.cudaType
  let r ← safeCall (ltMatmul zero types.1 types.2 transA transB eA.cudaType eB.cudaType eC.cudaType
    ⟨if transA then k else m, if transA then m else k, lda, .row⟩ ⟨if transB then n else k, if transB then k else n, ldb, .row⟩
    ⟨m, n, ldc, .row⟩ alpha a b beta c)
  if types.2 = eS.cudaType then .ok r else .ub

/-- level2/gemv.hpp 199-212 `gemv` on CUDA: a product with a matrix of one column. -/
def gemvCuda (asserts fast : Bool) (zero : List α → Ret α) (eA eX eY eS : Elt) (trans : Bool) (m n : Nat) (alpha : α) (a : List α)
    (lda : Nat) (x : List α) (incX : Nat) (beta : α) (y : List α) (incY : Nat) : Out (List α) :=
  gemmCuda asserts fast zero eA eX eY eS trans false m 1 n alpha a lda x incX beta y incY

/-! ### CLBlast -/

/-- `LIBRAPID_ASSERT(status == kSuccess)` (gemm.hpp 80, gemv.hpp 76): without assertions the program goes on with the array as it was. -/
def checked (asserts : Bool) (c : List α) : Ret α → Out (List α)
  | .done r => .ok r
  | .refused => if asserts then .throw .assertion else .ok c
  | .stray => .ub

/-- The contract of `clblast::Gemm`, row major (level3/gemm.hpp 59-78): extents of 0, leading dimensions that are too small and buffers
that are too small are refused. -/
def clGemm (transA transB : Bool) (m n k : Nat) (alpha : α) (a : List α) (lda : Nat) (b : List α) (ldb : Nat) (beta : α) (c : List α)
    (ldc : Nat) : Ret α :=
  let la : Layout := ⟨if transA then k else m, if transA then m else k, lda, .row⟩
  let lb : Layout := ⟨if transB then n else k, if transB then k else n, ldb, .row⟩
  let lc : Layout := ⟨m, n, ldc, .row⟩
  if m = 0 ∨ n = 0 ∨ k = 0 then .refused
  else if !(la.valid && lb.valid && lc.valid) then .refused
  else if ¬ (la.span ≤ a.length ∧ lb.span ≤ b.length ∧ lc.span ≤ c.length) then .refused
  else .done (productOver la lb lc transA transB alpha a b beta c)

/-- The contract of `clblast::Gemv`, row major (level2/gemv.hpp 58-74): `m` and `n` are the extents of the matrix as it is stored; `x` and `y` are
matrices of one column whose leading dimension is the increment. -/
def clGemv (trans : Bool) (m n : Nat) (alpha : α) (a : List α) (lda : Nat) (x : List α) (incX : Nat) (beta : α) (y : List α)
    (incY : Nat) : Ret α :=
  let la : Layout := ⟨m, n, lda, .row⟩
  let lx : Layout := ⟨if trans then m else n, 1, incX, .row⟩
  let ly : Layout := ⟨if trans then n else m, 1, incY, .row⟩
  if m = 0 ∨ n = 0 then .refused
  else if !la.valid then .refused
  else if ¬ la.span ≤ a.length then .refused
  else if incX = 0 ∨ incY = 0 then .refused
  else if ¬ (lx.span ≤ x.length ∧ ly.span ≤ y.length) then .refused
  else .done (productOver la lx ly trans false alpha a x beta y)

/-! ### `applyTo` -/

/-- Where the arrays are, with what the routines need to know of the build (`backend::CUDA`, `backend::OpenCL`; linalg.hpp 5-21,
level3/gemm.hpp 126-133). The element types of the two arrays, of the result and of the scales. On OpenCL (`float` and `double`) the
arrays have one element type. -/
inductive Place (α : Type) where
  | cuda (fast : Bool) (zero : List α → Ret α) (eA eB eC eS : Elt)
  | opencl

/-- `gemv` on either backend (level2/gemv.hpp 50-75, 199-212). -/
def gemvOn (asserts : Bool) (trans : Bool) (m n : Nat) (alpha : α) (a : List α) (lda : Nat) (x : List α) (incX : Nat) (beta : α)
    (y : List α) (incY : Nat) : Place α → Out (List α)
  | .cuda fast zero eA eB eC eS => gemvCuda asserts fast zero eA eB eC eS trans m n alpha a lda x incX beta y incY
  | .opencl => checked asserts y (clGemv trans m n alpha a lda x incX beta y incY)

/-- `gemm` on either backend (level3/gemm.hpp 50-83, 166-272). -/
def gemmOn (asserts : Bool) (transA transB : Bool) (m n k : Nat) (alpha : α) (a : List α) (lda : Nat) (b : List α) (ldb : Nat)
    (beta : α) (c : List α) (ldc : Nat) : Place α → Out (List α)
  | .cuda fast zero eA eB eC eS => gemmCuda asserts fast zero eA eB eC eS transA transB m n k alpha a lda b ldb beta c ldc
  | .opencl => checked asserts c (clGemm transA transB m n k alpha a lda b ldb beta c ldc)

/-- arrayMultiply.hpp 417-470: the cases of `applyTo`. -/
def applyKind (asserts : Bool) (place : Place α) (op : MulOp α) (outShape : List Nat) (a b c : List α) : Kind → Out (List α)
  | .dot => notImplemented asserts
  | .gemv => do
    let e ← gemvArgs asserts op
    gemvOn asserts op.transA e.1 e.2.1 op.alpha a e.2.2 b 1 op.beta c 1 place
  | .gemm => do
    let e ← gemmArgs asserts op outShape
    gemmOn asserts op.transA op.transB e.1.1 e.1.2.1 e.1.2.2 op.alpha a e.2.1 b e.2.2.1 op.beta c e.2.2.2 place

/-- arrayMultiply.hpp 404-474 `applyTo` for arrays on a GPU: what the output holds afterwards. -/
def applyTo (asserts : Bool) (place : Place α) (op : MulOp α) (shape outShape : List Nat) (a b c : List α) : Out (List α) := do
  Out.assert asserts (decide (outShape = shape))
  let k ← matmulClass asserts op
  applyKind asserts place op outShape a b c k

/-! ### cuBLAS: scaled sums -/

/-- The contract of `cublas<t>geam`, column major (level3/geam.hpp 172-184): `alpha op(A) + beta op(B)` over C, m by n. A matrix whose
scale is 0 is not read, but its leading dimension is checked like the others. -/
def geamRoutine [DecidableEq α] (transA transB : Bool) (m n : Int) (alpha : α) (a : List α) (lda : Int) (beta : α) (b : List α) (ldb : Int)
    (c : List α) (ldc : Int) : Ret α :=
  let la : Layout := ⟨if transA then n.toNat else m.toNat, if transA then m.toNat else n.toNat, lda.toNat, .col⟩
  let lb : Layout := ⟨if transB then n.toNat else m.toNat, if transB then m.toNat else n.toNat, ldb.toNat, .col⟩
  let lc : Layout := ⟨m.toNat, n.toNat, ldc.toNat, .col⟩
  if m < 0 ∨ n < 0 ∨ lda < 0 ∨ ldb < 0 ∨ ldc < 0 then .refused
  else if !(la.valid && lb.valid && lc.valid) then .refused
  else if m = 0 ∨ n = 0 then .done c
  else if ¬ ((alpha = 0 ∨ la.span ≤ a.length) ∧ (beta = 0 ∨ lb.span ≤ b.length) ∧ lc.span ≤ c.length) then .stray
  else .done (lc.store (fun i j _ => alpha * la.read transA a i j + beta * lb.read transB b i j) c)

/-- An argument of `geam`: an array, or the `Transpose` of one, with the extents of the array as it is stored. The scale of a
`Transpose` is not used (level3/geam.hpp 150-300). -/
structure Arg (α : Type) where
  trans : Bool
  rows : Nat
  cols : Nat
  data : List α

/-- `a.shape()[0]` (level3/geam.hpp 176-184; transpose.hpp for `Transpose`). -/
def Arg.dim0 (x : Arg α) : Nat := if x.trans then x.cols else x.rows

/-- `a.shape()[1]` (level3/geam.hpp 176-184; transpose.hpp for `Transpose`). -/
def Arg.dim1 (x : Arg α) : Nat := if x.trans then x.rows else x.cols

/-- A `uint32_t` extent as the `int` that cuBLAS takes (level3/geam.hpp 175-184). -/
def toInt (x : Nat) : Int := if x < 2 ^ 31 then x else x - 2 ^ 32

/-- level3/geam.hpp 150-295, the four versions of `LIBRAPID_CUDA_GEAM_IMPL`, with `GEAM_VALIDATION` (6-11): rows and columns are
exchanged when the first argument is transposed. -/
def geamCuda [DecidableEq α] (asserts : Bool) (a : Arg α) (alpha : α) (b : Arg α) (beta : α) (c : Arg α) : Out (List α) := do
  Out.assert asserts (decide (a.dim0 = b.dim0 ∧ a.dim1 = b.dim1))
  Out.assert asserts (decide (a.dim0 = c.dim0 ∧ a.dim1 = c.dim1))
  safeCall (geamRoutine a.trans b.trans (toInt (if a.trans then a.dim1 else a.dim0)) (toInt (if a.trans then a.dim0 else a.dim1)) alpha
    a.data (toInt a.dim0) beta b.data (toInt b.dim0) c.data (toInt c.dim0))

end Verif.VendorM
