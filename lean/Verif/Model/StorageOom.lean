import Verif.Basic

/-!
# Storages when memory runs out

Models `Storage<T>` (librapid/include/librapid/array/storage.hpp 30-611) with allocations that may fail and with element types that have
constructors and destructors, such as `mpz`, `mpf`, `mpq` and `mpfr`. Verif.Model.Storage is the model without either.

The k-th request for memory fails if the environment says so, which may depend on the number of bytes asked for. Cells hold `none` where
there is no initialised object.

Simplifications:
* Only storages that own their memory (no `Storage(begin, end, ownsData)`).
* Constructors, assignments and destructors of elements do not throw. (Those of the multi-precision types do not: GMP and MPFR stop the
  program when they cannot get memory.)
* An exception out of a constructor leaves no variable; of its members none needs releasing, as an allocation is the first thing that can
  throw.
* Alignment is not modelled. `std::aligned_alloc` of 0 bytes gives an empty block.
-/

namespace Verif.StorageOom

/-- Kinds of undefined behaviour. `elements`: an element is assigned or destroyed that was not constructed, or its memory is released
without destroying it. `badObject`: the program uses a variable outside its lifetime. For array/storage.hpp 30-611. -/
inductive UB where
  | nullAccess
  | outOfBounds
  | useAfterFree
  | doubleFree
  | elements
  | badObject
  deriving DecidableEq, Repr

/-- What a run depends on. `asserts`: `LIBRAPID_ASSERT` is compiled in; `esize`: `sizeof(T)`; `fresh`: the value of a default-constructed
element, `none` if `T` is trivially default constructible (storage.hpp 386-389); `fails k b`: request number `k`, for `b` bytes, fails. -/
structure Env (α : Type) where
  asserts : Bool
  esize : Nat
  fresh : Option α
  fails : Nat → Nat → Bool

/-- A block of memory. For array/storage.hpp 30-611. -/
inductive Block (α : Type) where
  | live (cells : List (Option α))
  | freed
  deriving DecidableEq

/-- The data members of a `Storage` (storage.hpp 174-181). -/
structure Obj where
  ptr : Option Nat
  size : Nat
  owns : Bool
  deriving DecidableEq, Repr

/-- All blocks allocated so far, the number of requests so far, the variables. For array/storage.hpp 30-611. -/
structure St (α : Type) where
  blocks : List (Block α)
  calls : Nat
  objs : Nat → Option Obj

/-- The result of a step. For array/storage.hpp 30-611. -/
inductive Res (α β : Type) where
  | ok (b : β) (s : St α)
  | throw (e : Exc) (s : St α)
  | ub (k : UB)

/-- Code with access to the state. For array/storage.hpp 30-611. -/
def SM (α β : Type) : Type := St α → Res α β

/-- Sequencing. For array/storage.hpp 30-611. -/
def SM.bind {α β γ : Type} (x : SM α β) (f : β → SM α γ) : SM α γ := fun s =>
  match x s with
  | .ok b s' => f b s'
  | .throw e s' => .throw e s'
  | .ub k => .ub k

instance {α : Type} : Monad (SM α) where
  pure b := fun s => .ok b s
  bind := SM.bind

variable {α : Type}

/-- `LIBRAPID_ASSERT(c, ...)`: throws if assertions are compiled in (core/helperMacros.hpp, core/log.hpp). -/
def assertThat (env : Env α) (c : Bool) : SM α Unit := fun s => if env.asserts && !c then .throw .assertion s else .ok () s

/-- The data members of variable `x`. For array/storage.hpp 30-611. -/
def getObj (x : Nat) : SM α Obj := fun s =>
  match s.objs x with
  | some o => .ok o s
  | none => .ub .badObject

/-- Set the data members of variable `x`. For array/storage.hpp 30-611. -/
def setObj (x : Nat) (o : Obj) : SM α Unit := fun s =>
  .ok () { s with objs := fun y => if y = x then some o else s.objs y }

/-- The number of bytes `detail::safeAllocate` asks for: `size * sizeof(T)` in `size_t` (storage.hpp 377). -/
def bytes (env : Env α) (n : Nat) : Nat := n * env.esize % 2 ^ 64

/-- `detail::safeAllocate` (storage.hpp 352-392): a null pointer fails the assertion in line 380; without assertions the code goes on to
`LIBRAPID_ASSUME(ptr_ != nullptr)`, which is undefined for a null pointer. Elements with a constructor are constructed (388), one after
the other up to `size`. -/
def safeAllocate (env : Env α) (n : Nat) : SM α (Option Nat) := fun s =>
  if n = 0 then .ok none s
  else if env.fails s.calls (bytes env n) then
    (if env.asserts then .throw .assertion { s with calls := s.calls + 1 } else .ub .nullAccess)
  else if env.fresh.isSome && decide (bytes env n / env.esize < n) then .ub .outOfBounds
  else .ok (some s.blocks.length)
    { s with blocks := s.blocks ++ [.live (List.replicate (bytes env n / env.esize) env.fresh)], calls := s.calls + 1 }

/-- `detail::safeDeallocate` (storage.hpp 321-340): elements with a destructor are destroyed, `size` of them (326-328). -/
def safeDeallocate (env : Env α) (p : Option Nat) (n : Nat) : SM α Unit := fun s =>
  match p with
  | none => .ok () s
  | some b =>
    match s.blocks[b]? with
    | some (.live cs) =>
      if env.fresh.isSome && !(decide (cs.length = n) && cs.all Option.isSome) then .ub .elements
      else .ok () { s with blocks := s.blocks.set b .freed }
    | some .freed => .ub .doubleFree
    | none => .ub .badObject

/-- The cells a pointer points to. For array/storage.hpp 30-611. -/
def cellsAt (p : Option Nat) : SM α (List (Option α)) := fun s =>
  match p with
  | none => .ub .nullAccess
  | some b =>
    match s.blocks[b]? with
    | some (.live cs) => .ok cs s
    | some .freed => .ub .useAfterFree
    | none => .ub .badObject

/-- Assign `vals` to the first elements at a pointer. Elements with a constructor must have been constructed (`std::copy`, storage.hpp
409; trivial ones may be created by `std::uninitialized_copy`, 406). -/
def copyInto (env : Env α) (dst : Option Nat) (vals : List (Option α)) : SM α Unit := fun s =>
  match dst with
  | none => .ub .nullAccess
  | some b =>
    match s.blocks[b]? with
    | some (.live cs) =>
      if cs.length < vals.length then .ub .outOfBounds
      else if env.fresh.isSome && !((cs.take vals.length).all Option.isSome) then .ub .elements
      else .ok () { s with blocks := s.blocks.set b (.live (vals ++ cs.drop vals.length)) }
    | some .freed => .ub .useAfterFree
    | none => .ub .badObject

/-- Assigning the values of a list or vector, or one value to each element (storage.hpp 395-415, 432). -/
def fastCopyVals (env : Env α) (dst : Option Nat) (vals : List (Option α)) : SM α Unit :=
  if vals = [] then pure ()
  else do
    assertThat env dst.isSome
    copyInto env dst vals

/-- Reading `n` elements behind the end of a block. For array/storage.hpp 395-415. -/
def boundsCheck (c : Bool) : SM α Unit := fun s => if c then .ok () s else .ub .outOfBounds

/-- `detail::fastCopy(dst, src, n)` (storage.hpp 395-415) between blocks. -/
def fastCopy (env : Env α) (dst src : Option Nat) (n : Nat) : SM α Unit :=
  if n = 0 then pure ()
  else do
    assertThat env dst.isSome
    assertThat env src.isSome
    let cs ← cellsAt src
    boundsCheck (decide (n ≤ cs.length))
    copyInto env dst (cs.take n)

/-- `Storage()` (storage.hpp 46). -/
def ctorDefault (x : Nat) : SM α Unit := setObj x ⟨none, 0, true⟩

/-- `Storage(size)` (storage.hpp 418-421). -/
def ctorSize (env : Env α) (x n : Nat) : SM α Unit := do
  let p ← safeAllocate env n
  setObj x ⟨p, n, true⟩

/-- `Storage(size, value)` (storage.hpp 428-433). -/
def ctorFill (env : Env α) (x n : Nat) (v : α) : SM α Unit := do
  let p ← safeAllocate env n
  fastCopyVals env p (List.replicate n (some v))
  setObj x ⟨p, n, true⟩

/-- `Storage(initializer_list)`, `Storage(vector)`, `fromData` with `initData` (storage.hpp 452-476, 522-543). -/
def ctorList (env : Env α) (x : Nat) (vals : List α) : SM α Unit := do
  let p ← safeAllocate env vals.length
  fastCopyVals env p (vals.map some)
  setObj x ⟨p, vals.length, true⟩

/-- `initData(begin, end)` (storage.hpp 522-536) from another storage's memory, for a variable whose members are complete only after it.
Nothing happens for a null pointer or an empty range; the members are then `o₀`. -/
def initFrom (env : Env α) (x : Nat) (o₀ : Obj) (src : Option Nat) (n : Nat) : SM α Unit :=
  if src = none ∨ n = 0 then setObj x o₀
  else do
    let p ← safeAllocate env n
    fastCopy env p src n
    setObj x ⟨p, n, true⟩

/-- `Storage(const Storage &)` (storage.hpp 435-441). -/
def ctorCopy (env : Env α) (x y : Nat) : SM α Unit := do
  let o ← getObj y
  initFrom env x ⟨none, o.size, true⟩ o.ptr o.size

/-- `copy()`, `toHostStorage()` (storage.hpp 545-557) into a new variable. -/
def copyOf (env : Env α) (x y : Nat) : SM α Unit := do
  let o ← getObj y
  initFrom env x ⟨none, 0, true⟩ o.ptr o.size

/-- `Storage(Storage &&)` (storage.hpp 443-450). -/
def ctorMove (x y : Nat) : SM α Unit := do
  let o ← getObj y
  setObj x o
  setObj y ⟨none, 0, false⟩

/-- The reallocation in `operator=(const Storage &)` (storage.hpp 485-496): the old memory is released first, and the members change only
when the new memory is there. `o` holds the members before the assignment. -/
def reallocate (env : Env α) (x : Nat) (o : Obj) (n : Nat) : SM α Unit :=
  if o.size ≠ n then
    if o.owns then do
      safeDeallocate env o.ptr o.size
      let p ← safeAllocate env n
      setObj x ⟨p, n, o.owns⟩
    else assertThat env false
  else pure ()

/-- The part of `operator=(const Storage &)` behind the quick return (storage.hpp 483-498). -/
def assignBody (env : Env α) (x : Nat) (o o' : Obj) : SM α Unit := do
  setObj x { o with size := o'.size }
  reallocate env x o o'.size
  let o'' ← getObj x
  fastCopy env o''.ptr o'.ptr o''.size

/-- `operator=(const Storage &)` (storage.hpp 478-501). -/
def assignCopy (env : Env α) (x y : Nat) : SM α Unit := do
  let o ← getObj x
  let o' ← getObj y
  if x = y ∨ o'.size = 0 then pure () else assignBody env x o o'

/-- `operator=(Storage &&)` (storage.hpp 503-515). -/
def assignMove (x y : Nat) : SM α Unit := do
  let _ ← getObj x
  let o ← getObj y
  if x = y then pure ()
  else do
    setObj x o
    setObj y ⟨none, 0, false⟩

/-- The end of the life of a variable. For array/storage.hpp 517-520. -/
def dropObj (x : Nat) : SM α Unit := fun s => .ok () { s with objs := fun y => if y = x then none else s.objs y }

/-- The body of the destructor (storage.hpp 519). -/
def release (env : Env α) (o : Obj) : SM α Unit := if o.owns then safeDeallocate env o.ptr o.size else pure ()

/-- `~Storage()` (storage.hpp 517-520). -/
def dtor (env : Env α) (x : Nat) : SM α Unit := do
  let o ← getObj x
  release env o
  dropObj x

/-- The part of `resize(newSize)` behind the quick return (storage.hpp 575-590). -/
def resizeBody (env : Env α) (x n : Nat) (o : Obj) : SM α Unit := do
  assertThat env o.owns
  let p ← safeAllocate env n
  setObj x ⟨p, n, o.owns⟩
  fastCopy env p o.ptr (min o.size n)
  safeDeallocate env o.ptr o.size

/-- `resize(newSize)` (storage.hpp 570-591). -/
def resize (env : Env α) (x n : Nat) : SM α Unit := do
  let o ← getObj x
  assertThat env (decide (0 < n))
  if n = o.size then pure () else resizeBody env x n o

/-- The part of `resize(newSize, int)` behind the quick return (storage.hpp 600-610). -/
def resizeDiscardBody (env : Env α) (x n : Nat) (o : Obj) : SM α Unit := do
  assertThat env o.owns
  let p ← safeAllocate env n
  setObj x ⟨p, n, o.owns⟩
  safeDeallocate env o.ptr o.size

/-- `resize(newSize, int)` (storage.hpp 593-611), which array assignment uses. -/
def resizeDiscard (env : Env α) (x n : Nat) : SM α Unit := do
  let o ← getObj x
  assertThat env (decide (0 < n))
  if o.size = n then pure () else resizeDiscardBody env x n o

/-- Element `i` of a block. For array/storage.hpp 613-617. -/
def elemAt (cs : List (Option α)) (i : Nat) : SM α (Option α) := fun s =>
  match cs[i]? with
  | some v => .ok v s
  | none => .ub .outOfBounds

/-- `operator[](index)` for reading (storage.hpp 613-617). -/
def readAt (env : Env α) (x i : Nat) : SM α (Option α) := do
  let o ← getObj x
  assertThat env (decide (i < o.size))
  let cs ← cellsAt o.ptr
  elemAt cs i

/-- Assign to one element. For array/storage.hpp 619-623. -/
def setAt (env : Env α) (p : Option Nat) (i : Nat) (v : α) : SM α Unit := fun s =>
  match p with
  | none => .ub .nullAccess
  | some b =>
    match s.blocks[b]? with
    | some (.live cs) =>
      if cs.length ≤ i then .ub .outOfBounds
      else if env.fresh.isSome && !((cs[i]?.getD none).isSome) then .ub .elements
      else .ok () { s with blocks := s.blocks.set b (.live (cs.set i (some v))) }
    | some .freed => .ub .useAfterFree
    | none => .ub .badObject

/-- `operator[](index) = v` (storage.hpp 619-623). -/
def writeAt (env : Env α) (x i : Nat) (v : α) : SM α Unit := do
  let o ← getObj x
  assertThat env (decide (i < o.size))
  setAt env o.ptr i v

/-- What a program can do with storages. For array/storage.hpp 30-611. -/
inductive Cmd (α : Type) where
  | ctorDefault (x : Nat)
  | ctorSize (x n : Nat)
  | ctorFill (x n : Nat) (v : α)
  | ctorList (x : Nat) (vals : List α)
  | ctorCopy (x y : Nat)
  | copyOf (x y : Nat)
  | ctorMove (x y : Nat)
  | assignCopy (x y : Nat)
  | assignMove (x y : Nat)
  | dtor (x : Nat)
  | resize (x n : Nat)
  | resizeDiscard (x n : Nat)
  | read (x i : Nat)
  | write (x i : Nat) (v : α)

/-- Run a command. For array/storage.hpp 30-611. -/
def exec (env : Env α) : Cmd α → SM α Unit
  | .ctorDefault x => ctorDefault x
  | .ctorSize x n => ctorSize env x n
  | .ctorFill x n v => ctorFill env x n v
  | .ctorList x vals => ctorList env x vals
  | .ctorCopy x y => ctorCopy env x y
  | .copyOf x y => copyOf env x y
  | .ctorMove x y => ctorMove x y
  | .assignCopy x y => assignCopy env x y
  | .assignMove x y => assignMove x y
  | .dtor x => dtor env x
  | .resize x n => resize env x n
  | .resizeDiscard x n => resizeDiscard env x n
  | .read x i => do let _ ← readAt env x i
  | .write x i v => writeAt env x i v

/-- The variable a constructor creates. For array/storage.hpp 30-611. -/
def Cmd.creates : Cmd α → Option Nat
  | .ctorDefault x | .ctorSize x _ | .ctorFill x _ _ | .ctorList x _ | .ctorCopy x _ | .copyOf x _ | .ctorMove x _ => some x
  | _ => none

/-- A variable may be created only while it is not alive. For array/storage.hpp 30-611. -/
def checkNew (c : Cmd α) : SM α Unit := fun s =>
  match c.creates with
  | some x => if (s.objs x).isSome then .ub .badObject else .ok () s
  | none => .ok () s

/-- `try { x } catch (...) {}`. For array/storage.hpp 30-611. -/
def caught (x : SM α Unit) : SM α Unit := fun s =>
  match x s with
  | .ok _ s' => .ok () s'
  | .throw _ s' => .ok () s'
  | .ub k => .ub k

/-- One command of a program, with its exceptions caught. For array/storage.hpp 30-611. -/
def step (env : Env α) (c : Cmd α) : SM α Unit := do
  checkNew c
  caught (exec env c)

/-- Run a program. For array/storage.hpp 30-611. -/
def runAll (env : Env α) : List (Cmd α) → SM α Unit
  | [] => pure ()
  | c :: cs => do
    step env c
    runAll env cs

/-- Before the program. For array/storage.hpp 30-611. -/
def init : St α := ⟨[], 0, fun _ => none⟩

end Verif.StorageOom
