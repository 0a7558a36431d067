import Verif.Model.Shape
import Verif.Model.Transpose

/-!
# Model of matrix products (array/linalg/arrayMultiply.hpp, level2/gemv.hpp, level3/gemm.hpp, /repo/librapid/cxxblas)

The generic routines of cxxblas (used for every scalar type when no CBLAS is configured, and for other than the four BLAS types
otherwise), row major, for real scalars (no conjugation). The arrays live in a `Conc.Mem`; a pointer is an array id and an offset.
-/

namespace Verif.MulM

open ShapeM Conc TransM

variable {α : Type} [Zero α] [One α] [Add α] [Mul α] [DecidableEq α]

/-- A pointer into an array. For array/linalg/arrayMultiply.hpp 370-660 and the calls of cxxblas. -/
structure Ptr where
  id : Nat
  off : Nat

/-- `p[i]`. For array/linalg/arrayMultiply.hpp 370-660 and the calls of cxxblas. -/
def Ptr.addr (p : Ptr) (i : Nat) : Addr := (p.id, p.off + i)

/-- cxxblas/level1/dot.tcc 40-49 `dotu_generic`: `i` from `i` for `n` more elements, with the sum so far. -/
def dotFrom (x : Ptr) (incX : Nat) (y : Ptr) (incY : Nat) : (n i : Nat) → (acc : α) → Prog α α
  | 0, _, acc => .ret acc
  | n + 1, i, acc => .read (x.addr (i * incX)) fun a => .read (y.addr (i * incY)) fun b => dotFrom x incX y incY n (i + 1) (acc + a * b)

/-- cxxblas/level1/dot.tcc 40-49 `dotu_generic`. -/
def dotu (n : Nat) (x : Ptr) (incX : Nat) (y : Ptr) (incY : Nat) : Prog α α := dotFrom x incX y incY n 0 0

/-- cxxblas/level1/scal.tcc 47-56 `scal_init_generic` (and 40-44 `scal_generic`). -/
def scalInit (n : Nat) (alpha : α) (y : Ptr) (incY : Nat) : Prog α Unit :=
  if alpha = 0 then seqAll (fun i => .write (y.addr (i * incY)) 0 (.ret ())) (List.range n)
  else seqAll (fun i => .read (y.addr (i * incY)) fun v => .write (y.addr (i * incY)) (v * alpha) (.ret ())) (List.range n)

/-- `y[iY] += alpha * y_` of cxxblas/level2/gemv.tcc 65, 99. -/
def addTo (a : Addr) (alpha d : α) : Prog α Unit := .read a fun v => .write a (v + alpha * d) (.ret ())

/-- cxxblas/level2/gemv.tcc 40-118 `gemv_generic`, row major, without conjugation; `m` and `n` are the numbers of rounds of the
loops. -/
def gemvGeneric (trans : Bool) (m n : Nat) (alpha : α) (A : Ptr) (ldA : Nat) (x : Ptr) (incX : Nat) (beta : α) (y : Ptr) (incY : Nat) :
    Prog α Unit :=
  if trans then
    (scalInit n beta y incY).bind fun _ =>
      seqAll (fun i => (dotu m ⟨A.id, A.off + i⟩ ldA x incX).bind fun d => addTo (y.addr (i * incY)) alpha d) (List.range n)
  else
    (scalInit m beta y incY).bind fun _ =>
      seqAll (fun i => (dotu n ⟨A.id, A.off + i * ldA⟩ 1 x incX).bind fun d => addTo (y.addr (i * incY)) alpha d) (List.range m)

/-- cxxblas/level2/gemv.tcc 122-131 `gemv`. -/
def gemv (trans : Bool) (m n : Nat) (alpha : α) (A : Ptr) (ldA : Nat) (x : Ptr) (incX : Nat) (beta : α) (y : Ptr) (incY : Nat) :
    Prog α Unit :=
  if m = 0 ∨ n = 0 then .ret () else gemvGeneric trans m n alpha A ldA x incX beta y incY

/-- cxxblas/level1extensions/gescal.tcc 41-53 `gescal_init`, row major. -/
def gescalInit (m n : Nat) (alpha : α) (A : Ptr) (ldA : Nat) : Prog α Unit :=
  if ldA = n then scalInit (m * n) alpha A 1
  else seqAll (fun i => scalInit n alpha ⟨A.id, A.off + i * ldA⟩ 1) (List.range m)

/-- One iteration of the loops of cxxblas/level3/gemm.tcc (57-61, 68-83, 141-145, 151-166 and the same loops of the parallel
version): column `l` of the result. -/
def gemmColumn (transA transB : Bool) (m k : Nat) (alpha : α) (A : Ptr) (ldA : Nat) (B : Ptr) (ldB : Nat) (C : Ptr) (ldC l : Nat) :
    Prog α Unit :=
  match transA, transB with
  | false, false => gemv false m k alpha A ldA ⟨B.id, B.off + l⟩ ldB 1 ⟨C.id, C.off + l⟩ ldC
  | false, true => gemv false m k alpha A ldA ⟨B.id, B.off + l * ldB⟩ 1 1 ⟨C.id, C.off + l⟩ ldC
  | true, false => gemv true k m alpha A ldA ⟨B.id, B.off + l⟩ ldB 1 ⟨C.id, C.off + l⟩ ldC
  | true, true => gemv true k m alpha A ldA ⟨B.id, B.off + l * ldB⟩ 1 1 ⟨C.id, C.off + l⟩ ldC

/-- How a build runs products: with OpenMP or not, `global::numThreads`, `global::gemmMultithreadThreshold`. For
array/linalg/arrayMultiply.hpp 370-660 and the calls of cxxblas. -/
structure Threads where
  omp : Bool
  numThreads : Nat
  threshold : Nat

/-- cxxblas/level3/gemm.tcc 470-478: whether the parallel version is used. -/
def Threads.parallel (t : Threads) (n : Nat) : Bool := t.omp && decide (t.threshold ≤ n) && decide (2 ≤ t.numThreads)

/-- cxxblas/level3/gemm.tcc 462-490 `gemm` with 40-222 `gemm_generic` and 228-456 `gemm_generic_parallel`, row major. -/
inductive Gemm (t : Threads) (transA transB : Bool) (m n k : Nat) (alpha : α) (A : Ptr) (ldA : Nat) (B : Ptr) (ldB : Nat) (beta : α)
    (C : Ptr) (ldC : Nat) (mem : Mem α) : Out (Mem α) → Prop
  | empty : m = 0 ∨ n = 0 → Gemm t transA transB m n k alpha A ldA B ldB beta C ldC mem (.ok mem)
  | initUb : ¬ (m = 0 ∨ n = 0) → run (gescalInit m n beta C ldC) mem = .ub →
      Gemm t transA transB m n k alpha A ldA B ldB beta C ldC mem .ub
  | noAlpha {u : Unit} {m1 : Mem α} : ¬ (m = 0 ∨ n = 0) → run (gescalInit m n beta C ldC) mem = .ok (u, m1) → alpha = 0 →
      Gemm t transA transB m n k alpha A ldA B ldB beta C ldC mem (.ok m1)
  | loop {u : Unit} {m1 : Mem α} {o : Out (Mem α)} : ¬ (m = 0 ∨ n = 0) → run (gescalInit m n beta C ldC) mem = .ok (u, m1) →
      alpha ≠ 0 → LoopOutcome (gemmColumn transA transB m k alpha A ldA B ldB C ldC) (List.range n) (t.parallel n) m1 o →
      Gemm t transA transB m n k alpha A ldA B ldB beta C ldC mem o

/-- `static_cast<int32_t>` of an extent (below 2^32), as the number of rounds of a loop: none when it comes out negative. -/
def rounds (x : Nat) : Nat := if x < 2 ^ 31 then x else 0

/-- Whether an index of `gemv_generic` leaves `int32_t` (cxxblas/level2/gemv.tcc 64 `i * ldA`; level1/dot.tcc 46 `iX += incX`, which
is also done after the last element): signed overflow. A negative leading dimension (extent from 2^31 on) is only used when the
extent is negative too; `A + i * ldA` then leaves the array unless `i` is 0. -/
def overflows (trans : Bool) (m n ldA : Nat) : Bool :=
  if trans then decide (0 < rounds n) && decide (2 ^ 31 ≤ rounds m * ldA)
  else decide (2 ^ 31 ≤ (rounds m - 1) * ldA)

/-- level2/gemv.hpp 28-45 `gemv` on the CPU: the extents are cast to `int32_t`. -/
def gemvCpu (trans : Bool) (m n : Nat) (alpha : α) (A : Ptr) (ldA : Nat) (x : Ptr) (incX : Nat) (beta : α) (y : Ptr) (incY : Nat) :
    Prog α Unit :=
  if m = 0 ∨ n = 0 then .ret ()
  else if overflows trans m n ldA then .fail
  else gemvGeneric trans (rounds m) (rounds n) alpha A ldA x incX beta y incY

/-- The kinds of products (arrayMultiply.hpp 30-35; `OUTER` is never used). -/
inductive Kind where
  | dot | gemv | gemm
deriving DecidableEq

/-- The object `ArrayMultiply` (arrayMultiply.hpp 174-186): the flags, the shapes of its copies of the arrays, the scales. -/
structure MulOp (α : Type) where
  transA : Bool
  transB : Bool
  shapeA : List Nat
  shapeB : List Nat
  alpha : α
  beta : α

/-- An index given as a `bool`. For array/linalg/arrayMultiply.hpp 370-660 and the calls of cxxblas. -/
def ix (b : Bool) : Int := if b then 1 else 0

/-- `LIBRAPID_NOT_IMPLEMENTED`. core/config.hpp 416-418, as used in array/linalg/transpose.hpp 400. -/
def notImplemented {β : Type} (asserts : Bool) : Out β := .throw (if asserts then .assertion else .runtimeError)

/-- arrayMultiply.hpp 215-277 `matmulClass`. -/
def matmulClass (asserts : Bool) (op : MulOp α) : Out Kind :=
  match op.shapeA, op.shapeB with
  | [a0], [b0] => do
    Out.assert asserts (decide (a0 = b0))
    return .dot
  | [a0], [b0, b1] => do
    let d ← at' asserts (.shape [b0, b1]) (ix (!op.transB))
    Out.assert asserts (decide (a0 = d))
    return .gemv
  | [a0, a1], [b0] => do
    let d ← at' asserts (.shape [a0, a1]) (ix (!op.transA))
    Out.assert asserts (decide (d = b0))
    return .gemv
  | [a0, a1], [b0, b1] => do
    let d ← at' asserts (.shape [a0, a1]) (ix (!op.transA))
    let e ← at' asserts (.shape [b0, b1]) (ix op.transB)
    Out.assert asserts (decide (d = e))
    return .gemm
  | _, _ => notImplemented asserts

/-- arrayMultiply.hpp 288-300: the cases of `calculateShape`. -/
def shapeFor (asserts : Bool) (op : MulOp α) : Kind → Out (List Nat)
  | .dot => .ok [1]
  | .gemv => do
    let d ← at' asserts (.shape op.shapeA) (ix op.transA)
    return [d]
  | .gemm => do
    let d ← at' asserts (.shape op.shapeA) (ix op.transA)
    let e ← at' asserts (.shape op.shapeB) (ix (!op.transB))
    return [d, e]

/-- arrayMultiply.hpp 281-305 `calculateShape`, run by the constructor. -/
def calculateShape (asserts : Bool) (op : MulOp α) : Out (List Nat) := do
  let k ← matmulClass asserts op
  shapeFor asserts op k

/-- The extents that `applyTo` passes to `gemv` (arrayMultiply.hpp 424-427). -/
def gemvArgs (asserts : Bool) (op : MulOp α) : Out (Nat × Nat × Nat) := do
  let m ← at' asserts (.shape op.shapeA) (ix op.transA)
  let n ← at' asserts (.shape op.shapeA) (1 - ix op.transA)
  let lda ← at' asserts (.shape op.shapeA) 1
  return (m, n, lda)

/-- The extents that `applyTo` passes to `gemm` (arrayMultiply.hpp 446-452). -/
def gemmArgs (asserts : Bool) (op : MulOp α) (outShape : List Nat) : Out ((Nat × Nat × Nat) × (Nat × Nat × Nat)) := do
  let m ← at' asserts (.shape op.shapeA) (ix op.transA)
  let n ← at' asserts (.shape op.shapeB) (1 - ix op.transB)
  let k ← at' asserts (.shape op.shapeA) (1 - ix op.transA)
  let lda ← at' asserts (.shape op.shapeA) 1
  let ldb ← at' asserts (.shape op.shapeB) 1
  let ldc ← at' asserts (.shape outShape) 1
  return ((m, n, k), (lda, ldb, ldc))

/-- The outcome of running a program, without its result. For array/linalg/arrayMultiply.hpp 370-660 and the calls of cxxblas. -/
def runMem (p : Prog α Unit) (m : Mem α) : Out (Mem α) := do
  let r ← run p m
  return r.2

/-- arrayMultiply.hpp 404-474 `applyTo`, host arrays with ids `a`, `b` and `c`; `shape` is the stored result of `calculateShape`. -/
inductive Apply (asserts : Bool) (t : Threads) (op : MulOp α) (shape outShape : List Nat) (a b c : Nat) (mem : Mem α) : Out (Mem α) → Prop
  | shapeMismatch : asserts = true → outShape ≠ shape → Apply asserts t op shape outShape a b c mem (.throw .assertion)
  | classThrow {e : Exc} : (asserts = true → outShape = shape) → matmulClass asserts op = .throw e →
      Apply asserts t op shape outShape a b c mem (.throw e)
  | classUb : (asserts = true → outShape = shape) → matmulClass asserts op = .ub →
      Apply asserts t op shape outShape a b c mem .ub
  | dot : (asserts = true → outShape = shape) → matmulClass asserts op = .ok .dot →
      Apply asserts t op shape outShape a b c mem (notImplemented asserts)
  | gemv {m n lda : Nat} : (asserts = true → outShape = shape) → matmulClass asserts op = .ok .gemv →
      gemvArgs asserts op = .ok (m, n, lda) →
      Apply asserts t op shape outShape a b c mem
        (runMem (gemvCpu op.transA m n op.alpha ⟨a, 0⟩ lda ⟨b, 0⟩ 1 op.beta ⟨c, 0⟩ 1) mem)
  | gemvThrow {e : Exc} : (asserts = true → outShape = shape) → matmulClass asserts op = .ok .gemv →
      gemvArgs asserts op = .throw e → Apply asserts t op shape outShape a b c mem (.throw e)
  | gemvUb : (asserts = true → outShape = shape) → matmulClass asserts op = .ok .gemv → gemvArgs asserts op = .ub →
      Apply asserts t op shape outShape a b c mem .ub
  | gemm {m n k lda ldb ldc : Nat} {o : Out (Mem α)} : (asserts = true → outShape = shape) → matmulClass asserts op = .ok .gemm →
      gemmArgs asserts op outShape = .ok ((m, n, k), (lda, ldb, ldc)) →
      Gemm t op.transA op.transB m n k op.alpha ⟨a, 0⟩ lda ⟨b, 0⟩ ldb op.beta ⟨c, 0⟩ ldc mem o →
      Apply asserts t op shape outShape a b c mem o
  | gemmThrow {e : Exc} : (asserts = true → outShape = shape) → matmulClass asserts op = .ok .gemm →
      gemmArgs asserts op outShape = .throw e → Apply asserts t op shape outShape a b c mem (.throw e)
  | gemmUb : (asserts = true → outShape = shape) → matmulClass asserts op = .ok .gemm → gemmArgs asserts op outShape = .ub →
      Apply asserts t op shape outShape a b c mem .ub

/-! ### `dot` and the folding of its operands -/

/-- Operands of `dot`: an array (by its id and shape), `Transpose` objects and products with a scalar on either side. For
array/linalg/arrayMultiply.hpp 370-660 and the calls of cxxblas. -/
inductive Operand (α : Type) where
  | arr (id : Nat) (shape : List Nat)
  | tr (x : Operand α) (alpha : α)
  | mulRight (x : Operand α) (s : α)
  | mulLeft (s : α) (x : Operand α)

/-- arrayMultiply.hpp 595-613 `dotHelper`, with `transposeExtractor` (539) and `multiplyExtractor` (565-586): transposition
flag, scale, array. -/
def dotHelper : Operand α → Bool × α × (Nat × List Nat)
  | .arr id shape => (false, 1, (id, shape))
  | .tr x alpha =>
    let r := dotHelper x
    (Bool.xor true r.1, alpha * r.2.1, r.2.2)
  | .mulRight x s =>
    let r := dotHelper x
    (r.1, s * r.2.1, r.2.2)
  | .mulLeft s x =>
    let r := dotHelper x
    (r.1, s * r.2.1, r.2.2)

/-- arrayMultiply.hpp 637-659 `dot`: the object it builds, and the ids of the two arrays copied into it. -/
def dotOp (x y : Operand α) : MulOp α × Nat × Nat :=
  let p := dotHelper x
  let q := dotHelper y
  (⟨p.1, q.1, p.2.2.2, q.2.2.2, p.2.1 * q.2.1, 0⟩, p.2.2.1, q.2.2.1)

end Verif.MulM
