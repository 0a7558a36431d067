import Verif.Basic

/-!
# Storage

Models `Storage<T>` and `FixedStorage<T, D...>` (librapid/include/librapid/array/storage.hpp) for a trivially constructible and
destructible element type. Memory is a list of blocks, each live or freed; a program has any number of `Storage` variables.

Simplifications:
* Allocation always succeeds (the code only checks for failure in an assertion) and alignment is not modelled.
* Uninitialised elements are `none`.
* Pointers are block numbers, always to the start of a block, which is how the library's own code creates them.
* The type-converting `fastCopy` is the same as the one that does not convert.
-/

namespace Verif.StorageM

/-- Kinds of undefined behaviour the model tells apart. `badObject` is the use of a variable outside its lifetime by the program
itself. Memory and programs of the model, for array/storage.hpp 30-831. -/
inductive UB where
  | nullAccess
  | outOfBounds
  | useAfterFree
  | doubleFree
  | badObject
  deriving DecidableEq, Repr

/-- A block of memory: live with its cells, or freed. Memory and programs of the model, for array/storage.hpp 30-831. -/
inductive Block (α : Type) where
  | live (cells : List (Option α))
  | freed

/-- The data members of a `Storage` (storage.hpp 174-181). -/
structure Obj where
  ptr : Option Nat
  size : Nat
  owns : Bool
  deriving DecidableEq, Repr

/-- A program state: all blocks allocated so far, and the `Storage` variables that are alive. Memory and programs of the model, for
array/storage.hpp 30-831. -/
structure St (α : Type) where
  blocks : List (Block α)
  objs : Nat → Option Obj

/-- The result of a step: a value and a new state, an exception and the state in which it was thrown, or undefined behaviour. Memory and
programs of the model, for array/storage.hpp 30-831. -/
inductive Res (α β : Type) where
  | ok (b : β) (s : St α)
  | throw (e : Exc) (s : St α)
  | ub (k : UB)

/-- Code with access to the state. Memory and programs of the model, for array/storage.hpp 30-831. -/
def SM (α β : Type) : Type := St α → Res α β

/-- Sequencing. Memory and programs of the model, for array/storage.hpp 30-831. -/
def SM.bind (x : SM α β) (f : β → SM α γ) : SM α γ := fun s =>
  match x s with
  | .ok b s' => f b s'
  | .throw e s' => .throw e s'
  | .ub k => .ub k

instance : Monad (SM α) where
  pure b := fun s => .ok b s
  bind := SM.bind

/-- `LIBRAPID_ASSERT(c, ...)`. Memory and programs of the model, for array/storage.hpp 30-831. -/
def assertThat (asserts c : Bool) : SM α Unit := fun s => if asserts && !c then .throw .assertion s else .ok () s

/-- The data members of variable `x`. Memory and programs of the model, for array/storage.hpp 30-831. -/
def getObj (x : Nat) : SM α Obj := fun s =>
  match s.objs x with
  | some o => .ok o s
  | none => .ub .badObject

/-- Set the data members of variable `x`. Memory and programs of the model, for array/storage.hpp 30-831. -/
def setObj (x : Nat) (o : Obj) : SM α Unit := fun s =>
  .ok () { s with objs := fun y => if y = x then some o else s.objs y }

/-- `detail::safeAllocate` (storage.hpp 352-392): no allocation for size 0; the elements are not initialised. -/
def safeAllocate (n : Nat) : SM α (Option Nat) := fun s =>
  if n = 0 then .ok none s else .ok (some s.blocks.length) { s with blocks := s.blocks ++ [.live (List.replicate n none)] }

/-- `detail::safeDeallocate` (storage.hpp 321-340). -/
def safeDeallocate (p : Option Nat) : SM α Unit := fun s =>
  match p with
  | none => .ok () s
  | some b =>
    match s.blocks[b]? with
    | some (.live _) => .ok () { s with blocks := s.blocks.set b .freed }
    | some .freed => .ub .doubleFree
    | none => .ub .badObject

/-- The cells a pointer points to. Memory and programs of the model, for array/storage.hpp 30-831. -/
def cellsAt (p : Option Nat) : SM α (List (Option α)) := fun s =>
  match p with
  | none => .ub .nullAccess
  | some b =>
    match s.blocks[b]? with
    | some (.live cs) => .ok cs s
    | some .freed => .ub .useAfterFree
    | none => .ub .badObject

/-- Store cells at a pointer. Memory and programs of the model, for array/storage.hpp 30-831. -/
def setCells (p : Option Nat) (cs : List (Option α)) : SM α Unit := fun s =>
  match p with
  | none => .ub .nullAccess
  | some b =>
    match s.blocks[b]? with
    | some (.live _) => .ok () { s with blocks := s.blocks.set b (.live cs) }
    | some .freed => .ub .useAfterFree
    | none => .ub .badObject

/-- The bounds check of `copyInto`. Memory and programs of the model, for array/storage.hpp 30-831. -/
def boundsCheck (c : Bool) : SM α Unit := fun s => if c then .ok () s else .ub .outOfBounds

/-- Write `vals` over the first elements at a pointer, as `std::copy` does. Memory and programs of the model, for array/storage.hpp
30-831. -/
def copyInto (dst : Option Nat) (vals : List (Option α)) : SM α Unit := do
  let cs ← cellsAt dst
  boundsCheck (decide (vals.length ≤ cs.length))
  setCells dst (vals ++ cs.drop vals.length)

/-- `detail::fastCopy(dst, src, n)` (storage.hpp 395-415) from values outside the storages (a list or vector). -/
def fastCopyVals (asserts : Bool) (dst : Option Nat) (vals : List (Option α)) : SM α Unit :=
  if vals = [] then pure ()
  else do
    assertThat asserts dst.isSome
    copyInto dst vals

/-- `detail::fastCopy(dst, src, n)` (storage.hpp 395-415) between blocks. -/
def fastCopy (asserts : Bool) (dst src : Option Nat) (n : Nat) : SM α Unit :=
  if n = 0 then pure ()
  else do
    assertThat asserts dst.isSome
    assertThat asserts src.isSome
    let cs ← cellsAt src
    boundsCheck (decide (n ≤ cs.length))
    copyInto dst (cs.take n)

/-- The members before any constructor has run (storage.hpp 174-181). -/
def fresh : Obj := ⟨none, 0, true⟩

/-- `Storage()` (storage.hpp 41). -/
def ctorDefault (x : Nat) : SM α Unit := setObj x fresh

/-- `Storage(size)` (storage.hpp 418-421). -/
def ctorSize (x n : Nat) : SM α Unit := do
  let p ← safeAllocate n
  setObj x ⟨p, n, true⟩

/-- `Storage(size, value)` (storage.hpp 428-433). For size 0 the loop does nothing. -/
def ctorFill (asserts : Bool) (x n : Nat) (v : α) : SM α Unit := do
  let p ← safeAllocate n
  setObj x ⟨p, n, true⟩
  fastCopyVals asserts p (List.replicate n (some v))

/-- `initData(begin, end)` (storage.hpp 524-536) from values outside the storages. -/
def initVals (asserts : Bool) (x : Nat) (vals : List α) : SM α Unit :=
  if vals = [] then pure ()
  else do
    let p ← safeAllocate vals.length
    setObj x ⟨p, vals.length, true⟩
    fastCopyVals asserts p (vals.map some)

/-- `Storage(initializer_list)`, `Storage(vector)`, `fromData` (storage.hpp 452-476). -/
def ctorList (asserts : Bool) (x : Nat) (vals : List α) : SM α Unit := do
  setObj x fresh
  initVals asserts x vals

/-- `initData(begin, end)` (storage.hpp 524-536) from another storage's memory. -/
def initFrom (asserts : Bool) (x : Nat) (src : Option Nat) (n : Nat) : SM α Unit :=
  if src = none ∨ n = 0 then pure ()
  else do
    let p ← safeAllocate n
    setObj x ⟨p, n, true⟩
    fastCopy asserts p src n

/-- `Storage(const Storage &)` (storage.hpp 435-441). -/
def ctorCopy (asserts : Bool) (x y : Nat) : SM α Unit := do
  let o ← getObj y
  setObj x ⟨none, o.size, true⟩
  if o.size = 0 then pure () else initFrom asserts x o.ptr o.size

/-- `Storage(Storage &&)` (storage.hpp 443-450). -/
def ctorMove (x y : Nat) : SM α Unit := do
  let o ← getObj y
  setObj x o
  setObj y ⟨none, 0, false⟩

/-- `copy()` (storage.hpp 552-557), into a new variable. -/
def copyOf (asserts : Bool) (x y : Nat) : SM α Unit := do
  let o ← getObj y
  setObj x fresh
  initFrom asserts x o.ptr o.size

/-- `Storage(begin, end, false)` (storage.hpp 423-426): a storage that depends on the memory of `y`. -/
def ctorDependent (x y : Nat) : SM α Unit := do
  let o ← getObj y
  setObj x ⟨o.ptr, o.size, false⟩

/-- The reallocation in `operator=(const Storage &)` (storage.hpp 487-496); `o` holds the members before the assignment. -/
def reallocate (asserts : Bool) (x : Nat) (o : Obj) (n : Nat) : SM α Unit :=
  if o.size ≠ n then
    if o.owns then do
      safeDeallocate o.ptr
      let p ← safeAllocate n
      setObj x ⟨p, n, o.owns⟩
    else assertThat asserts false
  else pure ()

/-- `operator=(const Storage &)` (storage.hpp 478-501). -/
def assignCopy (asserts : Bool) (x y : Nat) : SM α Unit := do
  let o ← getObj x
  let o' ← getObj y
  if x = y then pure ()
  else if o'.size = 0 then pure ()
  else do
    setObj x { o with size := o'.size }
    reallocate asserts x o o'.size
    let o'' ← getObj x
    fastCopy asserts o''.ptr o'.ptr o''.size

/-- `operator=(Storage &&)` (storage.hpp 503-515). -/
def assignMove (x y : Nat) : SM α Unit := do
  let _ ← getObj x
  let o ← getObj y
  if x = y then pure ()
  else do
    setObj x o
    setObj y ⟨none, 0, false⟩

/-- The end of the life of a variable. Memory and programs of the model, for array/storage.hpp 30-831. -/
def dropObj (x : Nat) : SM α Unit := fun s => .ok () { s with objs := fun y => if y = x then none else s.objs y }

/-- The body of the destructor (storage.hpp 519). -/
def release (o : Obj) : SM α Unit := if o.owns then safeDeallocate o.ptr else pure ()

/-- `~Storage()` (storage.hpp 517-520). -/
def dtor (x : Nat) : SM α Unit := do
  let o ← getObj x
  release o
  dropObj x

/-- `resize(newSize)` (storage.hpp 570-591). -/
def resize (asserts : Bool) (x n : Nat) : SM α Unit := do
  let o ← getObj x
  assertThat asserts (decide (0 < n))
  if n = o.size then pure ()
  else do
    assertThat asserts o.owns
    let p ← safeAllocate n
    setObj x ⟨p, n, o.owns⟩
    fastCopy asserts p o.ptr (min o.size n)
    safeDeallocate o.ptr

/-- `resize(newSize, int)` (storage.hpp 593-611). -/
def resizeDiscard (asserts : Bool) (x n : Nat) : SM α Unit := do
  let o ← getObj x
  assertThat asserts (decide (0 < n))
  if o.size = n then pure ()
  else do
    assertThat asserts o.owns
    let p ← safeAllocate n
    setObj x ⟨p, n, o.owns⟩
    safeDeallocate o.ptr

/-- Element `i` of a block. Memory and programs of the model, for array/storage.hpp 30-831. -/
def elemAt (cs : List (Option α)) (i : Nat) : SM α (Option α) := fun s =>
  match cs[i]? with
  | some v => .ok v s
  | none => .ub .outOfBounds

/-- `operator[](index)` for reading (storage.hpp 613-617). -/
def readAt (asserts : Bool) (x i : Nat) : SM α (Option α) := do
  let o ← getObj x
  assertThat asserts (decide (i < o.size))
  let cs ← cellsAt o.ptr
  elemAt cs i

/-- `operator[](index) = v` (storage.hpp 619-623). -/
def writeAt (asserts : Bool) (x i : Nat) (v : α) : SM α Unit := do
  let o ← getObj x
  assertThat asserts (decide (i < o.size))
  let cs ← cellsAt o.ptr
  boundsCheck (decide (i < cs.length))
  setCells o.ptr (cs.set i (some v))

/-- What a program can do with storages. Memory and programs of the model, for array/storage.hpp 30-831. -/
inductive Cmd (α : Type) where
  | ctorDefault (x : Nat)
  | ctorSize (x n : Nat)
  | ctorFill (x n : Nat) (v : α)
  | ctorList (x : Nat) (vals : List α)
  | ctorCopy (x y : Nat)
  | ctorMove (x y : Nat)
  | copyOf (x y : Nat)
  | ctorDependent (x y : Nat)
  | assignCopy (x y : Nat)
  | assignMove (x y : Nat)
  | dtor (x : Nat)
  | resize (x n : Nat)
  | resizeDiscard (x n : Nat)
  | read (x i : Nat)
  | write (x i : Nat) (v : α)

/-- Run a command. Memory and programs of the model, for array/storage.hpp 30-831. -/
def exec (asserts : Bool) : Cmd α → SM α Unit
  | .ctorDefault x => ctorDefault x
  | .ctorSize x n => ctorSize x n
  | .ctorFill x n v => ctorFill asserts x n v
  | .ctorList x vals => ctorList asserts x vals
  | .ctorCopy x y => ctorCopy asserts x y
  | .ctorMove x y => ctorMove x y
  | .copyOf x y => copyOf asserts x y
  | .ctorDependent x y => ctorDependent x y
  | .assignCopy x y => assignCopy asserts x y
  | .assignMove x y => assignMove x y
  | .dtor x => dtor x
  | .resize x n => resize asserts x n
  | .resizeDiscard x n => resizeDiscard asserts x n
  | .read x i => do let _ ← readAt asserts x i
  | .write x i v => writeAt asserts x i v

/-- The variable a constructor creates. Memory and programs of the model, for array/storage.hpp 30-831. -/
def Cmd.creates : Cmd α → Option Nat
  | .ctorDefault x | .ctorSize x _ | .ctorFill x _ _ | .ctorList x _ | .ctorCopy x _ | .ctorMove x _ | .copyOf x _
  | .ctorDependent x _ => some x
  | _ => none

/-- The variables a command changes or destroys: its target, and the source of a move. Memory and programs of the model, for
array/storage.hpp 30-831. -/
def Cmd.changes : Cmd α → List Nat
  | .ctorDefault x | .ctorSize x _ | .ctorFill x _ _ | .ctorList x _ | .ctorCopy x _ | .copyOf x _ | .ctorDependent x _ => [x]
  | .ctorMove x y | .assignMove x y => [x, y]
  | .assignCopy x _ | .dtor x | .resize x _ | .resizeDiscard x _ | .write x _ _ => [x]
  | .read _ _ => []

/-- A variable may be created only while it is not alive. Memory and programs of the model, for array/storage.hpp 30-831. -/
def checkNew (c : Cmd α) : SM α Unit := fun s =>
  match c.creates with
  | some x => if (s.objs x).isSome then .ub .badObject else .ok () s
  | none => .ok () s

/-- `try { x } catch (...) {}`. Memory and programs of the model, for array/storage.hpp 30-831. -/
def caught (x : SM α Unit) : SM α Unit := fun s =>
  match x s with
  | .ok _ s' => .ok () s'
  | .throw _ s' => .ok () s'
  | .ub k => .ub k

/-- Run a program. Exceptions are caught after the command that threw. Memory and programs of the model, for array/storage.hpp 30-831. -/
def runAll (asserts : Bool) : List (Cmd α) → SM α Unit
  | [] => pure ()
  | c :: cs => do
    checkNew c
    caught (exec asserts c)
    runAll asserts cs

/-- Before the program. Memory and programs of the model, for array/storage.hpp 30-831. -/
def init : St α := ⟨[], fun _ => none⟩

/-! ### FixedStorage -/

/-- The members of a `FixedStorage` of `n` elements: a `std::array`. Memory and programs of the model, for array/storage.hpp 30-831. -/
abbrev Fixed (α : Type) (n : Nat) := Fin n → Option α

/-- `FixedStorage()` (storage.hpp 690-691), `= default`: elements are not initialised. -/
def fixedDefault (n : Nat) : Fixed α n := fun _ => none

/-- `FixedStorage(const FixedStorage &)` (storage.hpp 698-699), `= default`. -/
def fixedCtorCopy (y : Fixed α n) : Fixed α n := y

/-- `operator=(const FixedStorage &)` (storage.hpp 716-722). -/
def fixedAssign (y : Fixed α n) : Fixed α n := fun i => y i

/-- `copy()` (storage.hpp 749-752): returns a default-constructed storage. -/
def fixedCopy (_ : Fixed α n) : Fixed α n := fixedDefault n

end Verif.StorageM
