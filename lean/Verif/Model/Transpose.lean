import Verif.Model.Conc
import Verif.Model.Shape

/-!
# Model of transposition (array/linalg/transpose.hpp)

The arrays live in a `Conc.Mem`: `src` and `dst` are the ids of the two storages. `mul` is the scalar multiplication.
-/

namespace Verif.TransM

open ShapeM Conc

variable {α : Type}

/-- transpose.hpp 249, 262: `out[col * rows + row] = in[row * cols + col] * alpha`. -/
def cell (mul : α → α → α) (src dst rows cols : Nat) (alpha : α) (row col : Nat) : Prog α Unit :=
  .read (src, row * cols + col) fun v => .write (dst, col * rows + row) (mul v alpha) (.ret ())

/-- `for (x = lo; x < lo + blockSize && x < hi; ++x)`: the values of `x`. For array/linalg/transpose.hpp 223-260. -/
def blockRange (lo blockSize hi : Nat) : List Nat := List.range' lo (min (lo + blockSize) hi - lo)

/-- transpose.hpp 247-251, 260-264: the block whose first row and column are `i` and `j`. -/
def block (mul : α → α → α) (src dst rows cols : Nat) (alpha : α) (blockSize i j : Nat) : Prog α Unit :=
  seqAll (fun row => seqAll (fun col => cell mul src dst rows cols alpha row col) (blockRange j blockSize cols))
    (blockRange i blockSize rows)

/-- transpose.hpp 246-252, 259-265: one iteration of the outer loop. A block size of 0 (a scalar larger than a cache line) never
ends. -/
def rowOfBlocks (mul : α → α → α) (src dst rows cols : Nat) (alpha : α) (blockSize i : Nat) : Prog α Unit :=
  if blockSize = 0 then .fail
  else seqAll (fun j => block mul src dst rows cols alpha blockSize i j) (indices 0 cols blockSize)

/-- transpose.hpp 242-243: whether the loop runs in parallel (`small` is `LIBRAPID_OPTIMISE_SMALL_ARRAYS`). -/
def inParallel (small : Bool) (threshold rows cols : Nat) : Bool := !small && decide (rows * cols > threshold)

/-- The possible outcomes of a loop over `its` run sequentially or in parallel: undefined if some execution has a race or an
access out of bounds. For array/linalg/transpose.hpp 223-260. -/
inductive LoopOutcome (body : Nat → Prog α Unit) (its : List Nat) (par : Bool) (m : Mem α) : Out (Mem α) → Prop
  | seq {u : Unit} {m' : Mem α} : par = false → run (seqAll body its) m = .ok (u, m') → LoopOutcome body its par m (.ok m')
  | seqUb : par = false → run (seqAll body its) m = .ub → LoopOutcome body its par m .ub
  | par {sched : List (List Nat)} {c : Config α} : par = true → IsSchedule sched its → Reach (start body sched m) c → Final c →
      LoopOutcome body its par m (.ok c.mem)
  | parUb {sched : List (List Nat)} {c : Config α} : par = true → IsSchedule sched its → Reach (start body sched m) c →
      (Race c ∨ Bad c) → LoopOutcome body its par m .ub

/-- transpose.hpp 238-268 `transposeImpl`, generic version. -/
def TransposeImpl (mul : α → α → α) (small : Bool) (threshold : Nat) (src dst rows cols : Nat) (alpha : α) (blockSize : Nat)
    (m : Mem α) (o : Out (Mem α)) : Prop :=
  LoopOutcome (rowOfBlocks mul src dst rows cols alpha blockSize) (indices 0 rows (max blockSize 1))
    (inParallel small threshold rows cols) m o

/-- The object `Transpose` (transpose.hpp 570-582): shape of the argument, axes, output shape, scale. -/
structure TObj (α : Type) where
  input : List Nat
  output : List Nat
  axes : List Nat
  alpha : α

/-- transpose.hpp 592-594: `m_outputShape[i] = m_inputShape[m_axes[i]]` for every dimension. -/
def permute (input : List Nat) : List Nat → Out (List Nat)
  | [] => .ok []
  | a :: as => do
    let d ← readAt input (a : Nat)
    let ds ← permute input as
    return d :: ds

/-- transpose.hpp 584-596 constructor. Without assertions a missing axis is read from the unused part of the axes' array: undefined
here. -/
def mkT (asserts : Bool) (input axes : List Nat) (alpha : α) : Out (TObj α) :=
  if asserts && !(decide (input.length = axes.length)) then .throw .assertion
  else if input.length ≤ axes.length then do
    let out ← permute input (axes.take input.length)
    return ⟨input, out, axes, alpha⟩
  else .ub

/-- Product of the extents (shape.hpp `size`). For array/linalg/transpose.hpp 223-260. -/
def prod : List Nat → Nat
  | [] => 1
  | d :: ds => d * prod ds

/-- transpose.hpp 717-724: the axes that `transpose(array, axes)` uses: the given ones, unless `axes.size() == 0`, where `size` is
the product of the axes. -/
def chooseAxes (ndim : Nat) (axes : List Nat) : List Nat :=
  if prod axes = 0 then (List.range ndim).map fun i => ndim - i - 1 else axes

/-- transpose.hpp 715-726 `transpose(array, axes)`. -/
def transposeFn (asserts : Bool) (input axes : List Nat) (one : α) : Out (TObj α) :=
  mkT asserts input (chooseAxes input.length axes) one

/-- transpose.hpp 744-786: `assign` of `aT * s` and of `s * aT` replaces the scale and keeps the axes. -/
def scaleT (asserts : Bool) (mul : α → α → α) (t : TObj α) (s : α) : Out (TObj α) := mkT asserts t.input t.axes (mul t.alpha s)

/-- transpose.hpp 641-660 `applyTo` on the host with the generic kernel: storage `src` into storage `dst` whose shape is `outShape`.
Other than two dimensions is not implemented (throws). The axes are not consulted. -/
inductive Apply (mul : α → α → α) (asserts small : Bool) (threshold blockSize : Nat) (t : TObj α) (src dst : Nat) (outShape : List Nat)
    (m : Mem α) : Out (Mem α) → Prop
  | inPlace : asserts = true → src = dst → Apply mul asserts small threshold blockSize t src dst outShape m (.throw .assertion)
  | mismatch : asserts = true → src ≠ dst → outShape ≠ t.output →
      Apply mul asserts small threshold blockSize t src dst outShape m (.throw .assertion)
  | notImplemented : (asserts = true → src ≠ dst ∧ outShape = t.output) → t.input.length ≠ 2 →
      Apply mul asserts small threshold blockSize t src dst outShape m (.throw (if asserts then .assertion else .runtimeError))
  | matrix {rows cols : Nat} {o : Out (Mem α)} : (asserts = true → src ≠ dst ∧ outShape = t.output) → t.input = [rows, cols] →
      TransposeImpl mul small threshold src dst rows cols t.alpha blockSize m o →
      Apply mul asserts small threshold blockSize t src dst outShape m o

end Verif.TransM
