import Verif.Model.View
import Verif.Model.Conc

/-!
# Lazy expressions and their evaluation into arrays

Models `detail::Function` (librapid/include/librapid/array/function.hpp), the element-wise operators (array/operations.hpp),
the assignment loops (array/assignOps.hpp 7-255) and `ArrayContainer::assign` (array/arrayContainer.hpp 486-520).

Arrays are named by numbers; `Mem` holds their storage, `shapes` their shapes. The element type is an arbitrary type `α`; an
element-wise operation is an arbitrary function on it.

Simplifications:
* All operands have the same element type. (Operands of different element types only change `allowVec` to false.)
* `functor.packet` applies the scalar operation to each lane. The xsimd versions of transcendental functions may differ from
  the scalar versions in the last place; that is outside the model.
* Shapes are compared by their extents, as `Shape::operator==` does. (`MatrixShape` and `VectorShape` have no `operator==` for
  their own class, so expressions of two such arrays do not compile with assertions on.)
* Allocation failure and alignment of packet loads are not modelled.
-/

namespace Verif.ExprM

open ShapeM Conc

/-- An expression tree: `detail::Function` nodes (function.hpp 149-247), arrays and views held by reference, scalars. -/
inductive Expr (α : Type) where
  | arr (id : Nat)
  | view (id : Nat) (v : ViewM.View)
  | scalar (c : α)
  | un (f : α → α) (e : Expr α)
  | bin (f : α → α → α) (l r : Expr α)

variable {α : Type}

/-- Shape check of a binary node: `operator+` etc. (operations.hpp 668-923) and `getShapeImpl` (operations.hpp 88-106).
Operands that are not array types have no shape. -/
def binShape (asserts : Bool) : Option AnyShape → Option AnyShape → Out (Option AnyShape)
  | some s, some s' => if asserts && !shapeEq (ext s) (ext s') then .throw .rangeError else .ok (some s)
  | some s, none => .ok (some s)
  | none, s => .ok s

/-- Building an expression from the leaves up; the result is the shape stored in the root `Function` (function.hpp 251-255).
A tree without arrays is an ordinary C++ scalar expression and has no shape. -/
def build (asserts : Bool) (shapes : Nat → AnyShape) : Expr α → Out (Option AnyShape)
  | .arr id => .ok (some (shapes id))
  | .view _ v => .ok (some v.shape)
  | .scalar _ => .ok none
  | .un _ e => build asserts shapes e
  | .bin _ l r => do
    let sl ← build asserts shapes l
    let sr ← build asserts shapes r
    binShape asserts sl sr

/-- `TypeInfo<Function>::allowVectorisation` (function.hpp 7-17, 98): no operand is a view. -/
def vectorisable : Expr α → Bool
  | .arr _ => true
  | .view _ _ => false
  | .scalar _ => true
  | .un _ e => vectorisable e
  | .bin _ l r => vectorisable l && vectorisable r

/-- `Function::scalar(index)` (function.hpp 305-317, scalarExtractor 123-130; ArrayContainer::scalar arrayContainer.hpp
798-802; GeneralArrayView::scalar). -/
def scalarP (i : Nat) : Expr α → Prog α α
  | .arr id => .read (id, i) .ret
  | .view id v =>
    match ViewM.scalarPos v i with
    | .ok p => if 0 ≤ p then .read (id, p.toNat) .ret else .fail
    | _ => .fail
  | .scalar c => .ret c
  | .un f e => (scalarP i e).bind fun x => .ret (f x)
  | .bin f l r => (scalarP i l).bind fun x => (scalarP i r).bind fun y => .ret (f x y)

/-- A packet load: the `w` elements from `i` on (arrayContainer.hpp 786-796). -/
def loadP (id i : Nat) : Nat → Prog α (List α)
  | 0 => .ret []
  | w + 1 => .read (id, i) fun x => (loadP id (i + 1) w).bind fun xs => .ret (x :: xs)

/-- A packet store (arrayContainer.hpp 804-814). -/
def storeP (id i : Nat) : List α → Prog α Unit
  | [] => .ret ()
  | x :: xs => .write (id, i) x (storeP id (i + 1) xs)

/-- `Function::packet(index)` (function.hpp 291-303, packetExtractor 112-121). Views have no packets. -/
def packetP (i w : Nat) : Expr α → Prog α (List α)
  | .arr id => loadP id i w
  | .view _ _ => .fail
  | .scalar c => .ret (List.replicate w c)
  | .un f e => (packetP i w e).bind fun xs => .ret (xs.map f)
  | .bin f l r => (packetP i w l).bind fun xs => (packetP i w r).bind fun ys => .ret (List.zipWith f xs ys)

/-- `lhs.writePacket(index, function.packet(index))` (assignOps.hpp 53, 113, 176, 239). -/
def packetBody (d : Nat) (e : Expr α) (w i : Nat) : Prog α Unit := (packetP i w e).bind (storeP d i)

/-- `lhs.write(index, function.scalar(index))` (assignOps.hpp 58, 63, 118, 123, 181, 187, 244, 250). -/
def scalarBody (d : Nat) (e : Expr α) (i : Nat) : Prog α Unit := (scalarP i e).bind fun x => .write (d, i) x (.ret ())

/-- What the assignment depends on besides the arrays: `asserts` (assertions compiled in), `fixed` (the destination has fixed
storage), `allowVec` (all operands have the destination's element type and it has packets), `width` (packet width of the
element type), `threshold` and `numThreads` (global settings), `small` (`LIBRAPID_OPTIMISE_SMALL_ARRAYS`). array/assignOps.hpp 7-255. -/
structure Cfg where
  asserts : Bool
  fixed : Bool
  allowVec : Bool
  width : Nat
  threshold : Nat
  numThreads : Nat
  small : Bool
deriving DecidableEq, Repr

/-- The `allowVectorisation` of the loops. array/assignOps.hpp 7-255. -/
def Cfg.vec (cfg : Cfg) (e : Expr α) : Bool := cfg.allowVec && vectorisable e

/-- `packetWidth` of the loops (assignOps.hpp 29-35 etc.). -/
def Cfg.packetWidth (cfg : Cfg) (e : Expr α) : Nat := if cfg.vec e then cfg.width else 1

/-- `vectorSize = size - (size % packetWidth)`. array/assignOps.hpp 7-255. -/
def vectorSize (n w : Nat) : Nat := n - n % w

/-- The loops of `detail::assign` (assignOps.hpp 51-65, 111-125), run alone. -/
def seqLoops (cfg : Cfg) (d : Nat) (e : Expr α) (n : Nat) : Prog α Unit :=
  if cfg.vec e then
    (seqAll (packetBody d e (cfg.packetWidth e)) (indices 0 (vectorSize n (cfg.packetWidth e)) (cfg.packetWidth e))).bind
      fun _ => seqAll (scalarBody d e) (indices (vectorSize n (cfg.packetWidth e)) n 1)
  else seqAll (scalarBody d e) (indices 0 n 1)

/-- Body of the parallel loop of `detail::assignParallel` (assignOps.hpp 171-190, 234-253). -/
def parBody (cfg : Cfg) (d : Nat) (e : Expr α) : Nat → Prog α Unit :=
  if cfg.vec e then packetBody d e (cfg.packetWidth e) else scalarBody d e

/-- Iterations of the parallel loop. The non-vectorised loop of the fixed-size version starts at `vectorSize`
(assignOps.hpp 249) where the dynamic one starts at 0 (assignOps.hpp 186). -/
def parIterations (cfg : Cfg) (e : Expr α) (n : Nat) : List Nat :=
  if cfg.vec e then indices 0 (vectorSize n (cfg.packetWidth e)) (cfg.packetWidth e)
  else if cfg.fixed then indices (vectorSize n (cfg.packetWidth e)) n 1
  else indices 0 n 1

/-- The sequential loop after the parallel one (assignOps.hpp 179-182, 242-245). -/
def parTail (cfg : Cfg) (d : Nat) (e : Expr α) (n : Nat) : Prog α Unit :=
  if cfg.vec e then seqAll (scalarBody d e) (indices (vectorSize n (cfg.packetWidth e)) n 1) else .ret ()

/-- `m_storage.resize(newSize, 0)` (storage.hpp 593-611, 739-742). `junk` is the uninitialised content of the new block.
Simplification: the destination owns its storage. -/
def resizeDiscard (cfg : Cfg) (junk : List α) (d n : Nat) (m : Mem α) : Out (Mem α) :=
  if cfg.fixed then (if cfg.asserts && decide (n ≠ (m d).length) then .throw .assertion else .ok m)
  else if cfg.asserts && decide (n = 0) then .throw .assertion
  else if (m d).length = n then .ok m
  else .ok (fun id => if id = d then junk else m id)

/-- The multi-threaded version is chosen (arrayContainer.hpp 496-501). -/
def usesThreads (cfg : Cfg) (len : Nat) : Bool := !cfg.small && decide (len > cfg.threshold) && decide (cfg.numThreads > 1)

/-- Number of elements assigned: `function.shape().size()` for dynamic storage (assignOps.hpp 38, 158), the number of elements
of the storage for fixed storage (assignOps.hpp 97, 222). -/
def assignSize (cfg : Cfg) (s : AnyShape) (m : Mem α) (d : Nat) : Nat := if cfg.fixed then (m d).length else size s

/-- The outcomes that `array d = expression` can have, given the storage after the resize (assignOps.hpp 17-255). A race or an
access out of bounds in some reachable state of the parallel loop makes the outcome undefined. -/
inductive Loops (cfg : Cfg) (shapes : Nat → AnyShape) (d : Nat) (e : Expr α) (s : AnyShape) (m : Mem α) :
    Out (Mem α) → Prop
  | mismatch : cfg.asserts = true → shapeEq (ext (shapes d)) (ext s) = false → Loops cfg shapes d e s m (.throw .rangeError)
  | zeroWidth : cfg.packetWidth e = 0 → Loops cfg shapes d e s m .ub
  | seq {o : Out (Unit × Mem α)} : (cfg.asserts = true → shapeEq (ext (shapes d)) (ext s) = true) → 0 < cfg.packetWidth e →
      usesThreads cfg (m d).length = false → run (seqLoops cfg d e (assignSize cfg s m d)) m = o →
      Loops cfg shapes d e s m (o >>= fun r => pure r.2)
  | par {sched : List (List Nat)} {c : Config α} {o : Out (Unit × Mem α)} :
      (cfg.asserts = true → shapeEq (ext (shapes d)) (ext s) = true) → 0 < cfg.packetWidth e →
      usesThreads cfg (m d).length = true →
      IsSchedule sched (parIterations cfg e (assignSize cfg s m d)) → Reach (start (parBody cfg d e) sched m) c → Final c →
      run (parTail cfg d e (assignSize cfg s m d)) c.mem = o → Loops cfg shapes d e s m (o >>= fun r => pure r.2)
  | parBad {sched : List (List Nat)} {c : Config α} :
      (cfg.asserts = true → shapeEq (ext (shapes d)) (ext s) = true) → 0 < cfg.packetWidth e →
      usesThreads cfg (m d).length = true →
      IsSchedule sched (parIterations cfg e (assignSize cfg s m d)) → Reach (start (parBody cfg d e) sched m) c →
      (Bad c ∨ Race c) → Loops cfg shapes d e s m .ub

/-- The outcomes of `array d = expression`: build the expression, resize the storage, run the loops
(arrayContainer.hpp 486-504). An expression without arrays is not a `Function`; its assignment is not this function. -/
inductive Assign (cfg : Cfg) (shapes : Nat → AnyShape) (junk : List α) (d : Nat) (e : Expr α) (m : Mem α) :
    Out (Mem α) → Prop
  | buildThrows {x : Exc} : build cfg.asserts shapes e = .throw x → Assign cfg shapes junk d e m (.throw x)
  | resizeThrows {s : AnyShape} {x : Exc} : build cfg.asserts shapes e = .ok (some s) →
      resizeDiscard cfg junk d (size s) m = .throw x → Assign cfg shapes junk d e m (.throw x)
  | loops {s : AnyShape} {m' : Mem α} {o : Out (Mem α)} : build cfg.asserts shapes e = .ok (some s) →
      resizeDiscard cfg junk d (size s) m = .ok m' → Loops cfg shapes d e s m' o → Assign cfg shapes junk d e m o

end Verif.ExprM
