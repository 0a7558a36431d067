import Verif.Model.Storage

/-!
# Array containers over storages

Models the members `m_shape`, `m_size`, `m_storage` of `ArrayContainer<Shape, Storage<T>>` and the member functions that change
them (librapid/include/librapid/array/arrayContainer.hpp), on top of the storage model.

Simplifications:
* A shape is its list of extents; its size is their product, not reduced modulo 2^64 (the reduction is in `Model/Shape.lean`).
* The right-hand side of an assignment from an expression, view, transpose or product is its shape and its element values in
  order; that these are evaluated correctly is the subject of the other models (`Model/Expr.lean`, `Model/Transpose.lean`, ...).
-/

namespace Verif.ContM

open StorageM

/-- `Shape::size()`. State and programs of the model, for array/arrayContainer.hpp 97-560. -/
def extent (dims : List Nat) : Nat := dims.prod

/-- A program state: the storages, and the members `m_shape` and `m_size` of the array whose storage is variable `x`. State and programs
of the model, for array/arrayContainer.hpp 97-560. -/
structure ASt (α : Type) where
  st : St α
  shape : Nat → List Nat
  msize : Nat → Nat

/-- The result of a step. State and programs of the model, for array/arrayContainer.hpp 97-560. -/
inductive ARes (α : Type) where
  | ok (s : ASt α)
  | throw (e : Exc) (s : ASt α)
  | ub (k : UB)

variable {α : Type}

/-- Run storage code. State and programs of the model, for array/arrayContainer.hpp 97-560. -/
def onStorage (x : SM α Unit) (s : ASt α) : ARes α :=
  match x s.st with
  | .ok _ t => .ok { s with st := t }
  | .throw e t => .throw e { s with st := t }
  | .ub k => .ub k

/-- Sequencing. State and programs of the model, for array/arrayContainer.hpp 97-560. -/
def ARes.andThen (r : ARes α) (f : ASt α → ARes α) : ARes α :=
  match r with
  | .ok s => f s
  | .throw e s => .throw e s
  | .ub k => .ub k

/-- `m_shape = dims; m_size = n` of array `x`. State and programs of the model, for array/arrayContainer.hpp 97-560. -/
def setMeta (x : Nat) (dims : List Nat) (n : Nat) (s : ASt α) : ASt α :=
  { s with shape := fun y => if y = x then dims else s.shape y, msize := fun y => if y = x then n else s.msize y }

/-- A (possibly compiled-out) assertion that throws `e`. State and programs of the model, for array/arrayContainer.hpp 97-560. -/
def check (asserts c : Bool) (e : Exc) (s : ASt α) : ARes α := if asserts && !c then .throw e s else .ok s

/-- Write values from index `i` on: the loops of `detail::assign` (assignOps.hpp 51-65) and of `operator=(GeneralArrayView)`
(arrayContainer.hpp 553). -/
def fillWith (asserts : Bool) (x : Nat) : Nat → List α → SM α Unit
  | _, [] => pure ()
  | i, v :: vs => do
    StorageM.writeAt asserts x i v
    fillWith asserts x (i + 1) vs

/-- `ArrayContainer()` (arrayContainer.hpp 359-361; `defaultShape` storage.hpp 560-563). -/
def actorDefault (x : Nat) (s : ASt α) : ARes α := onStorage (ctorDefault x) (setMeta x [0] 0 s)

/-- `ArrayContainer(shape)` (arrayContainer.hpp 363-394, 464-468). -/
def actorShape (x : Nat) (dims : List Nat) (s : ASt α) : ARes α :=
  onStorage (ctorSize x (extent dims)) (setMeta x dims (extent dims) s)

/-- `ArrayContainer(shape, value)` (arrayContainer.hpp 396-451). -/
def actorFill (asserts : Bool) (x : Nat) (dims : List Nat) (v : α) (s : ASt α) : ARes α :=
  onStorage (ctorFill asserts x (extent dims) v) (setMeta x dims (extent dims) s)

/-- `ArrayContainer(const ArrayContainer &) = default` (arrayContainer.hpp 150). -/
def actorCopy (asserts : Bool) (x y : Nat) (s : ASt α) : ARes α :=
  onStorage (ctorCopy asserts x y) (setMeta x (s.shape y) (s.msize y) s)

/-- `ArrayContainer(ArrayContainer &&) = default` (arrayContainer.hpp 154). `Shape` and `size_t` are copied by a move. -/
def actorMove (x y : Nat) (s : ASt α) : ARes α := onStorage (ctorMove x y) (setMeta x (s.shape y) (s.msize y) s)

/-- `operator=(const ArrayContainer &) = default` (arrayContainer.hpp 190): member by member. -/
def aassignCopy (asserts : Bool) (x y : Nat) (s : ASt α) : ARes α :=
  onStorage (assignCopy asserts x y) (setMeta x (s.shape y) (s.msize y) s)

/-- `operator=(ArrayContainer &&) = default` (arrayContainer.hpp 201-202). -/
def aassignMove (x y : Nat) (s : ASt α) : ARes α := onStorage (assignMove x y) (setMeta x (s.shape y) (s.msize y) s)

/-- `assign(Function)` and `operator=(Function)` (arrayContainer.hpp 484-504, 515-520) with the shape check of `detail::assign`
(assignOps.hpp 45-49): the storage is resized first, then the shapes are compared; `m_shape` and `m_size` are not touched. -/
def aassignExpr (asserts : Bool) (x : Nat) (dims : List Nat) (vals : List α) (s : ASt α) : ARes α :=
  (onStorage (resizeDiscard asserts x (extent dims)) s).andThen fun s =>
    (check asserts (decide (s.shape x = dims)) .rangeError s).andThen
      (onStorage (fillWith asserts x 0 vals))

/-- `operator=` from a transpose, product or view (arrayContainer.hpp 522-555). -/
def aassignOp (asserts : Bool) (x : Nat) (dims : List Nat) (vals : List α) (s : ASt α) : ARes α :=
  (onStorage (resizeDiscard asserts x (extent dims)) (setMeta x dims (extent dims) s)).andThen
    (onStorage (fillWith asserts x 0 vals))

/-- A constructor that throws destroys the members already constructed. State and programs of the model, for array/arrayContainer.hpp
97-560. -/
def ARes.unwind (x : Nat) : ARes α → ARes α
  | .ok s => .ok s
  | .throw e s =>
    match onStorage (dtor x) s with
    | .ok s' => .throw e s'
    | r => r
  | .ub k => .ub k

/-- `ArrayContainer(Function)` (arrayContainer.hpp 506-513). -/
def actorExpr (asserts : Bool) (x : Nat) (dims : List Nat) (vals : List α) (s : ASt α) : ARes α :=
  (onStorage (ctorSize x (extent dims)) (setMeta x dims (extent dims) s)).andThen
    fun s => (aassignExpr asserts x dims vals s).unwind x

/-- `operator=(const Scalar &)` (arrayContainer.hpp 557-567). -/
def aassignScalar (asserts : Bool) (x : Nat) (v : α) (s : ASt α) : ARes α :=
  (check asserts (decide ((s.shape x).length = 0)) .invalidArgument s).andThen (onStorage (StorageM.writeAt asserts x 0 v))

/-- `resize(shape)` (arrayContainer.hpp 822-833). -/
def aresize (asserts : Bool) (x : Nat) (dims : List Nat) (s : ASt α) : ARes α :=
  (check asserts (decide (extent dims = s.msize x)) .assertion s).andThen fun s => .ok (setMeta x dims (extent dims) s)

/-- `copy()` (arrayContainer.hpp 577-583) into a new variable `x`; `tmp` is the temporary that `m_storage.copy()` returns, which
is moved from and destroyed. -/
def acopyOf (asserts : Bool) (x tmp y : Nat) (s : ASt α) : ARes α :=
  ((((onStorage (ctorSize x (extent (s.shape y))) (setMeta x (s.shape y) (extent (s.shape y)) s)).andThen
    (onStorage (copyOf asserts tmp y))).andThen
    (onStorage (assignMove x tmp))).andThen
    (onStorage (dtor tmp)))

/-- What a program can do with arrays. State and programs of the model, for array/arrayContainer.hpp 97-560. -/
inductive ACmd (α : Type) where
  | ctorDefault (x : Nat)
  | ctorShape (x : Nat) (dims : List Nat)
  | ctorFill (x : Nat) (dims : List Nat) (v : α)
  | ctorCopy (x y : Nat)
  | ctorMove (x y : Nat)
  | ctorExpr (x : Nat) (dims : List Nat) (vals : List α)
  | copyOf (x tmp y : Nat)
  | assignCopy (x y : Nat)
  | assignMove (x y : Nat)
  | assignExpr (x : Nat) (dims : List Nat) (vals : List α)
  | assignOp (x : Nat) (dims : List Nat) (vals : List α)
  | assignScalar (x : Nat) (v : α)
  | resize (x : Nat) (dims : List Nat)
  | write (x i : Nat) (v : α)
  | dtor (x : Nat)

/-- Run a command. State and programs of the model, for array/arrayContainer.hpp 97-560. -/
def aexec (asserts : Bool) : ACmd α → ASt α → ARes α
  | .ctorDefault x => actorDefault x
  | .ctorShape x dims => actorShape x dims
  | .ctorFill x dims v => actorFill asserts x dims v
  | .ctorCopy x y => actorCopy asserts x y
  | .ctorMove x y => actorMove x y
  | .ctorExpr x dims vals => actorExpr asserts x dims vals
  | .copyOf x tmp y => acopyOf asserts x tmp y
  | .assignCopy x y => aassignCopy asserts x y
  | .assignMove x y => aassignMove x y
  | .assignExpr x dims vals => aassignExpr asserts x dims vals
  | .assignOp x dims vals => aassignOp asserts x dims vals
  | .assignScalar x v => aassignScalar asserts x v
  | .resize x dims => aresize asserts x dims
  | .write x i v => onStorage (StorageM.writeAt asserts x i v)
  | .dtor x => onStorage (dtor x)

/-- The variables a command creates. State and programs of the model, for array/arrayContainer.hpp 97-560. -/
def ACmd.creates : ACmd α → List Nat
  | .ctorDefault x | .ctorShape x _ | .ctorFill x _ _ | .ctorCopy x _ | .ctorMove x _ | .ctorExpr x _ _ => [x]
  | .copyOf x tmp _ => [x, tmp]
  | _ => []

/-- Run a program, catching exceptions after the command that threw. A variable may be created only while it is not alive. State and
programs of the model, for array/arrayContainer.hpp 97-560. -/
def arunAll (asserts : Bool) : List (ACmd α) → ASt α → ARes α
  | [], s => .ok s
  | c :: cs, s =>
    if c.creates.all fun x => (s.st.objs x).isNone then
      match aexec asserts c s with
      | .ok s' => arunAll asserts cs s'
      | .throw _ s' => arunAll asserts cs s'
      | .ub k => .ub k
    else .ub .badObject

/-- Before the program. State and programs of the model, for array/arrayContainer.hpp 97-560. -/
def ainit : ASt α := ⟨StorageM.init, fun _ => [], fun _ => 0⟩

/-! ### Fixed-size arrays -/

/-- The members of an `ArrayContainer<Shape, FixedStorage<T, D...>>`. State and programs of the model, for array/arrayContainer.hpp
97-560. -/
structure FixedArr (α : Type) (n : Nat) where
  shape : List Nat
  msize : Nat
  data : Fixed α n

/-- `ArrayContainer()` with a fixed storage (arrayContainer.hpp 359-361; `defaultShape` storage.hpp 729-732). -/
def fixedArrDefault (dims : List Nat) : FixedArr α dims.prod := ⟨dims, 0, fixedDefault dims.prod⟩

/-- `ArrayContainer(const Scalar &)` with a fixed storage (arrayContainer.hpp 453-462). -/
def fixedArrFill (dims : List Nat) (v : α) : FixedArr α dims.prod := ⟨dims, dims.prod, fun _ => some v⟩

end Verif.ContM
