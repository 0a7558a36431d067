import Verif.Model.ClTypes

/-!
Element types of OpenCL matrices: the product of a matrix and a vector (array/linalg/arrayMultiply.hpp 50, 399-437,
level2/gemv.hpp 50-107, level2/gemv.cl 1-41) and the transpose (array/linalg/transpose.hpp 369-390 and 638-672,
opencl/kernels/transpose.cl 4-31).

Buffers are modelled byte by byte as in `ClTypes`. Work items run in the order of the elements they write; that the order does not matter, and
how the transpose goes through tiles, is C60. Products of `float` and `double` matrices are computed by clBLAST and are not modelled; nor are
products of two matrices, whose element types are chosen in the same way (level3/gemm.hpp 55-105).
-/

namespace Verif.ClTypes

/-- Work items that write elements `0`, ..., `p - 1` of the destination, as a kernel for the type `k`; `g p o` is the value for the element `p` when the
destination holds `o` (gemv.cl 17-30, transpose.cl 18-23). -/
def scatter (k : Ty) (g : Nat → List Nat → Out Nat) (out : List Nat) : Nat → Out (List Nat)
  | 0 => .ok out
  | p + 1 => (scatter k g out p).bind fun o => (g p o).bind fun v => store k.bytes o p v

/-- `acc += A[idx * lda + j] * x[j * incX]` for `r` more values of `j`, with `lda = n` and `incX = 1` (gemv.cl 21-23,
arrayMultiply.hpp 419-424). -/
def dotLoop (A : Arith) (k : Ty) (a x : List Nat) (row n : Nat) : Nat → Nat → Nat → Out Nat
  | 0, _, acc => .ok acc
  | r + 1, j, acc => (load k.bytes a (row * n + j)).bind fun va => (load k.bytes x j).bind fun vx =>
      dotLoop A k a x row n r (j + 1) (A.bin .add k acc (A.bin .mul k va vx))

/-- `y[idx] = alpha * acc + beta * y[idx]` (gemv.cl 19-29). -/
def gemvItem (A : Arith) (k : Ty) (al be : Nat) (a x : List Nat) (n row : Nat) (y : List Nat) : Out Nat :=
  (dotLoop A k a x row n n 0 0).bind fun acc => (load k.bytes y row).bind fun vy =>
    .ok (A.bin .add k (A.bin .mul k al acc) (A.bin .mul k be vy))

/-- The type of the kernel: `decltype(ScalarA * ScalarB)`, the type of `alpha * beta` after the casts (arrayMultiply.hpp 50, 428-434,
gemv.hpp 55). -/
def prodTy (ta tb : Ty) : Ty := usual (usual ta tb) (usual ta tb)

/-- The product of an `m` by `n` matrix of type `ta` and a vector of type `tb`, not transposed, for integer types: the kernel of the type of the
product on the buffers as they are (gemv.hpp 78-107). -/
def gemvCl (A : Arith) (ta tb : Ty) (al be m n : Nat) (a x y : List Nat) : Out (List Nat) :=
  scatter (prodTy ta tb) (fun row o => gemvItem A (prodTy ta tb) al be a x n row o) y m

/-- The types `transpose.cl` 26-31 defines a kernel for. -/
def hasTranspose : Ty → Bool
  | .i8 | .i16 | .i32 | .i64 | .f32 | .f64 => true
  | _ => false

/-- `out[y * rows + x] = in[x * cols + y] * alpha` for the element `p = y * rows + x` (transpose.cl 11-23). -/
def transposeItem (A : Arith) (t : Ty) (rows cols al : Nat) (inp : List Nat) (p : Nat) (_out : List Nat) : Out Nat :=
  (load t.bytes inp (p % rows * cols + p / rows)).bind fun v => .ok (A.bin .mul t v al)

/-- `transposeImpl<Scalar>`: without a kernel of that name nothing is launched, which only an assertion notices (transpose.hpp 370-389). -/
def transposeCl (A : Arith) (asserts : Bool) (t : Ty) (rows cols al : Nat) (inp out : List Nat) : Out (List Nat) :=
  if hasTranspose t then scatter t (transposeItem A t rows cols al inp) out (rows * cols)
  else if asserts then .throw .assertion
  else .ok out

end Verif.ClTypes
