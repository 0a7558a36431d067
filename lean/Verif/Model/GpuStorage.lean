import Verif.Basic
import Mathlib.Logic.Function.Basic

/-!
# Storage on the graphics card

The classes `CudaStorage` (cuda/cudaStorage.hpp 128-450) and `OpenCLStorage` (opencl/openclStorage.hpp 120-417): a device
buffer, an element count and an ownership flag.

Simplifications.
* A device buffer is a list of cells.  `none` is a cell whose contents are unspecified.
* Byte counts become element counts.  All storages hold the same scalar type.
* Both streams are in-order queues, so each call has taken effect when the next one starts.  Allocation succeeds.
* A call of the CUDA runtime that gets a null or freed pointer, or runs over the end of a buffer, is undefined behaviour here.
* A call of the OpenCL runtime with an invalid buffer or range returns an error code, which librapid discards (no
  `CL_HPP_ENABLE_EXCEPTIONS`).  It has no effect.
* Reference counting of `cl::Buffer` keeps a buffer alive as long as some storage names it, so OpenCL buffers are never freed here.
* The constructors that adopt a foreign buffer (cudaStorage.hpp 275-277, openclStorage.hpp 237-241) are left out.
-/

namespace Verif.GpuSt

/-- The two backends. Device memory of the model, for cuda/cudaStorage.hpp 128-450 and opencl/openclStorage.hpp 120-417. -/
inductive Backend where
  | cuda
  | opencl
deriving DecidableEq, Repr

/-- How the library was compiled: the backend and whether `LIBRAPID_ENABLE_ASSERT` is set. Device memory of the model, for
cuda/cudaStorage.hpp 128-450 and opencl/openclStorage.hpp 120-417. -/
structure Cfg where
  be : Backend
  asserts : Bool
deriving DecidableEq, Repr

/-- The members of a storage object: `m_begin`/`m_buffer` (`none` is null), `m_size` (`none` is uninitialised memory) and
`m_ownsData` (cudaStorage.hpp 236-238; openclStorage.hpp 217-219). -/
structure Obj where
  buf : Option Nat
  size : Option Nat
  owns : Bool
deriving DecidableEq, Repr

variable {V : Type}

/-- Device memory and the live C++ objects.  `bufs b = none` means that buffer `b` was never allocated or was freed.  `next` is the
first buffer name never used. Device memory of the model, for cuda/cudaStorage.hpp 128-450 and opencl/openclStorage.hpp 120-417. -/
structure St (V : Type) where
  bufs : Nat → Option (List (Option V))
  next : Nat
  objs : Nat → Option Obj

/-- The state at program start. Device memory of the model, for cuda/cudaStorage.hpp 128-450 and opencl/openclStorage.hpp 120-417. -/
def St.empty : St V := ⟨fun _ => none, 0, fun _ => none⟩

/-- `objs` with object `x` replaced. Device memory of the model, for cuda/cudaStorage.hpp 128-450 and opencl/openclStorage.hpp 120-417. -/
def St.setObj (s : St V) (x : Nat) (o : Option Obj) : St V := { s with objs := Function.update s.objs x o }

/-- `bufs` with buffer `b` replaced. Device memory of the model, for cuda/cudaStorage.hpp 128-450 and opencl/openclStorage.hpp 120-417. -/
def St.setBuf (s : St V) (b : Nat) (c : Option (List (Option V))) : St V := { s with bufs := Function.update s.bufs b c }

/-- Elements actually allocated: CUDA rounds up to a multiple of 32 (cudaStorage.hpp 249-250), OpenCL allocates exactly (openclStorage.hpp
224). -/
def capacity : Backend → Nat → Nat
  | .cuda, n => (n + 31) / 32 * 32
  | .opencl, n => n

/-- One call of `cudaMallocAsync`, or one `cl::Buffer` constructor. Device memory of the model, for cuda/cudaStorage.hpp 128-450 and
opencl/openclStorage.hpp 120-417. -/
def mallocOnce (be : Backend) (n : Nat) (s : St V) : Nat × St V :=
  (s.next, { s with bufs := Function.update s.bufs s.next (some (List.replicate (capacity be n) none)), next := s.next + 1 })

/-- Does a `cudaSafeCall(call)` evaluate `call` twice?  With assertions it expands to
`librapidAssert(!(call), …, cudaGetErrorString(call))`, a function call whose arguments are all evaluated (core/cudaConfig.hpp 49-51,
core/gnuConfig.hpp 16-23).  Without assertions it is `(call)` (cudaConfig.hpp 62). -/
def callsTwice (c : Cfg) : Bool := c.be == .cuda && c.asserts

/-- `detail::cudaSafeAllocate` (cudaStorage.hpp 242-253) and `cl::Buffer(context, flags, n * sizeof)` (openclStorage.hpp 224; size 0 is
rejected by the runtime and leaves a null buffer).  When the call is evaluated twice the second result overwrites the first. -/
def alloc (c : Cfg) (n : Nat) (s : St V) : Option Nat × St V :=
  if n = 0 then (none, s)
  else
    let s := if callsTwice c then (mallocOnce c.be n s).2 else s
    let r := mallocOnce c.be n s
    (some r.1, r.2)

/-- One call of `cudaFreeAsync`. Device memory of the model, for cuda/cudaStorage.hpp 128-450 and opencl/openclStorage.hpp 120-417. -/
def freeOnce (b : Nat) (s : St V) : Out (St V) :=
  match s.bufs b with
  | some _ => .ok (s.setBuf b none)
  | none => .ub

/-- `detail::cudaSafeDeallocate` (cudaStorage.hpp 255-261).  OpenCL storages free nothing explicitly. -/
def dealloc (c : Cfg) (p : Option Nat) (s : St V) : Out (St V) :=
  match c.be, p with
  | .cuda, some b => (freeOnce b s).bind fun s => if callsTwice c then freeOnce b s else .ok s
  | _, _ => .ok s

/-- What a runtime call with an invalid buffer or range does. Device memory of the model, for cuda/cudaStorage.hpp 128-450 and
opencl/openclStorage.hpp 120-417. -/
def invalid (be : Backend) (s : St V) : Out (St V) :=
  match be with
  | .cuda => .ub
  | .opencl => .ok s

/-- The cells of the buffer `p`, if it is live. Device memory of the model, for cuda/cudaStorage.hpp 128-450 and opencl/openclStorage.hpp
120-417. -/
def cells (s : St V) : Option Nat → Option (List (Option V))
  | some b => s.bufs b
  | none => none

/-- Write `vs` over the first cells of buffer `p`: `cudaMemcpyAsync`, `enqueueWriteBuffer`, `enqueueFillBuffer` or the fill kernel.
Repeating the call changes nothing more, so a double evaluation is not modelled here. Device memory of the model, for
cuda/cudaStorage.hpp 128-450 and opencl/openclStorage.hpp 120-417. -/
def put (c : Cfg) (p : Option Nat) (vs : List (Option V)) (s : St V) : Out (St V) :=
  if vs.length = 0 then .ok s
  else
    match p, cells s p with
    | some b, some old => if vs.length ≤ old.length then .ok (s.setBuf b (some (vs ++ old.drop vs.length))) else invalid c.be s
    | _, _ => invalid c.be s

/-- Copy the first `n` cells of `src` over those of `dst`: `cudaMemcpyAsync(…, cudaMemcpyDeviceToDevice)`, `enqueueCopyBuffer`. Device
memory of the model, for cuda/cudaStorage.hpp 128-450 and opencl/openclStorage.hpp 120-417. -/
def copyBuf (c : Cfg) (dst src : Option Nat) (n : Nat) (s : St V) : Out (St V) :=
  if n = 0 then .ok s
  else
    match cells s src with
    | some vs => if n ≤ vs.length then put c dst (vs.take n) s else invalid c.be s
    | none => invalid c.be s

/-- Reading `m_size`; using an uninitialised value is undefined behaviour. Device memory of the model, for cuda/cudaStorage.hpp 128-450
and opencl/openclStorage.hpp 120-417. -/
def sizeOf (o : Obj) : Out Nat :=
  match o.size with
  | some n => .ok n
  | none => .ub

/-- The object named by an expression.  Naming a dead object is undefined behaviour. Device memory of the model, for cuda/cudaStorage.hpp
128-450 and opencl/openclStorage.hpp 120-417. -/
def obj (s : St V) (x : Nat) : Out Obj :=
  match s.objs x with
  | some o => .ok o
  | none => .ub

/-- A constructor runs in fresh storage. Device memory of the model, for cuda/cudaStorage.hpp 128-450 and opencl/openclStorage.hpp
120-417. -/
def fresh (s : St V) (x : Nat) : Out Unit :=
  match s.objs x with
  | some _ => .ub
  | none => .ok ()

/-- `Storage(size)` (cudaStorage.hpp 264-266; openclStorage.hpp 222-227). -/
def ctorSize (c : Cfg) (x n : Nat) (s : St V) : Out (St V) :=
  (fresh s x).bind fun _ =>
    let r := alloc c n s
    .ok (r.2.setObj x (some ⟨r.1, some n, true⟩))

/-- The kernel launch of the CUDA filling constructor with no elements asks for a block of zero threads
(cuda/cudaKernelProcesor.hpp 27-30).  The launch fails, and with assertions `jitifyCall` throws (cudaConfig.hpp 53-60).  OpenCL's
`enqueueFillBuffer` on a null buffer fails silently. -/
def emptyLaunch (c : Cfg) (n : Nat) : Out Unit := if n = 0 ∧ callsTwice c = true then .throw .runtimeError else .ok ()

/-- `Storage(size, value)` (cudaStorage.hpp 268-273; openclStorage.hpp 229-235). -/
def ctorFill (c : Cfg) (x n : Nat) (v : V) (s : St V) : Out (St V) :=
  (fresh s x).bind fun _ =>
    let r := alloc c n s
    (emptyLaunch c n).bind fun _ =>
    (put c r.1 (List.replicate n (some v)) r.2).bind fun s =>
    .ok (s.setObj x (some ⟨r.1, some n, true⟩))

/-- `Storage(list)`, `Storage(vector)` (cudaStorage.hpp 294-308; openclStorage.hpp 263-281) and OpenCL's `fromData` (339-348), which calls
them. -/
def ctorList (c : Cfg) (x : Nat) (vs : List V) (s : St V) : Out (St V) :=
  (fresh s x).bind fun _ =>
    let r := alloc c vs.length s
    (put c r.1 (vs.map some) r.2).bind fun s =>
    .ok (s.setObj x (some ⟨r.1, some vs.length, true⟩))

/-- The default constructor: `m_size` has no initialiser (cudaStorage.hpp 138, 236-238; openclStorage.hpp 145, 208-210). -/
def ctorDefault (x : Nat) (s : St V) : Out (St V) :=
  (fresh s x).bind fun _ => .ok (s.setObj x (some ⟨none, none, true⟩))

/-- `fromData` (cudaStorage.hpp 316-330): a default-constructed storage, then `initData`, which does nothing for an empty range
(cudaStorage.hpp 396).  OpenCL calls the list constructor (openclStorage.hpp 339-348). -/
def fromData (c : Cfg) (x : Nat) (vs : List V) (s : St V) : Out (St V) :=
  match c.be with
  | .cuda => if vs.length = 0 then ctorDefault x s else ctorList c x vs s
  | .opencl => ctorList c x vs s

/-- The copy constructor on CUDA (cudaStorage.hpp 279-283): `initData(other.begin(), other.end())` returns at once for a null or empty
range and otherwise copies with the direction `cudaMemcpyHostToDevice` from a device pointer (394-404).  The CUDA runtime leaves the
behaviour undefined when the pointers do not match the direction. -/
def copyCtorCuda (c : Cfg) (x y : Nat) (s : St V) : Out (St V) :=
  (fresh s x).bind fun _ => (obj s y).bind fun o =>
    match o.buf with
    | none => .ok (s.setObj x (some ⟨none, o.size, true⟩))
    | some _ => (sizeOf o).bind fun n => if n = 0 then .ok (s.setObj x (some ⟨none, some n, true⟩)) else
        let _ := alloc c n s
        .ub

/-- A new buffer with `y`'s contents: OpenCL's copy constructor (openclStorage.hpp 243-252) and `copy()` (cudaStorage.hpp 382-390;
openclStorage.hpp 324-331). -/
def copyOf (c : Cfg) (x y : Nat) (s : St V) : Out (St V) :=
  (fresh s x).bind fun _ => (obj s y).bind fun o => (sizeOf o).bind fun n =>
    let r := alloc c n s
    (copyBuf c r.1 o.buf n r.2).bind fun s =>
    .ok (s.setObj x (some ⟨r.1, some n, true⟩))

/-- The copy constructor. Device memory of the model, for cuda/cudaStorage.hpp 128-450 and opencl/openclStorage.hpp 120-417. -/
def copyCtor (c : Cfg) (x y : Nat) (s : St V) : Out (St V) :=
  match c.be with
  | .cuda => copyCtorCuda c x y s
  | .opencl => copyOf c x y s

/-- Take over `y`'s members and reset `y` to null, 0, not owning. -/
def moveInto (x y : Nat) (s : St V) : Out (St V) :=
  (obj s y).bind fun o => .ok ((s.setObj x (some o)).setObj y (some ⟨none, some 0, false⟩))

/-- The move constructor (cudaStorage.hpp 285-292; openclStorage.hpp 254-261). -/
def moveCtor (x y : Nat) (s : St V) : Out (St V) := (fresh s x).bind fun _ => moveInto x y s

/-- Reallocation inside copy assignment (cudaStorage.hpp 339-350; openclStorage.hpp 291-300).  Returns the buffer to copy into. -/
def reallocFor (c : Cfg) (o : Obj) (old n : Nat) (s : St V) : Out (Option Nat × St V) :=
  if old = n then .ok (o.buf, s)
  else if o.owns then (dealloc c o.buf s).bind fun s => .ok (alloc c n s)
  else if c.asserts then .throw .assertion
  else .ok (o.buf, s)

/-- Copy assignment (cudaStorage.hpp 332-360; openclStorage.hpp 283-307). -/
def assign (c : Cfg) (x y : Nat) (s : St V) : Out (St V) :=
  (obj s x).bind fun o => (obj s y).bind fun o' =>
    if x = y then .ok s
    else (sizeOf o').bind fun n =>
      if n = 0 then .ok s
      else (sizeOf o).bind fun old => (reallocFor c o old n s).bind fun r =>
        (copyBuf c r.1 o'.buf n r.2).bind fun s => .ok (s.setObj x (some ⟨r.1, some n, o.owns⟩))

/-- Move assignment (cudaStorage.hpp 362-374; openclStorage.hpp 309-322).  The old CUDA buffer is not freed. -/
def moveAssign (x y : Nat) (s : St V) : Out (St V) :=
  (obj s x).bind fun _ => if x = y then .ok s else moveInto x y s

/-- The checks at the head of `resize`: CUDA asserts `newSize > 0` first (cudaStorage.hpp 408-411), OpenCL compares the sizes first
(openclStorage.hpp 360-362).  Returns whether there is something to do. -/
def resizeChecks (c : Cfg) (o : Obj) (old n : Nat) : Out Bool :=
  match c.be with
  | .cuda => (Out.assert c.asserts (0 < n)).bind fun _ =>
      if n = old then .ok false else (Out.assert c.asserts o.owns).bind fun _ => .ok true
  | .opencl =>
      if n = old then .ok false
      else (Out.assert c.asserts (0 < n)).bind fun _ => (Out.assert c.asserts o.owns).bind fun _ => .ok true

/-- `resize(newSize)` (cudaStorage.hpp 406-429; openclStorage.hpp 358-373). -/
def resize (c : Cfg) (x n : Nat) (s : St V) : Out (St V) :=
  (obj s x).bind fun o => (sizeOf o).bind fun old => (resizeChecks c o old n).bind fun go =>
    if go then
      let r := alloc c n s
      (copyBuf c r.1 o.buf (min old n) r.2).bind fun s => (dealloc c o.buf s).bind fun s =>
        .ok (s.setObj x (some ⟨r.1, some n, o.owns⟩))
    else .ok s

/-- `resize(newSize, int)`: the same without keeping the contents (cudaStorage.hpp 431-439; openclStorage.hpp 375-382). -/
def resizeNew (c : Cfg) (x n : Nat) (s : St V) : Out (St V) :=
  (obj s x).bind fun o => (sizeOf o).bind fun old => (resizeChecks c o old n).bind fun go =>
    if go then (dealloc c o.buf s).bind fun s =>
        let r := alloc c n s
        .ok (r.2.setObj x (some ⟨r.1, some n, o.owns⟩))
    else .ok s

/-- `operator[]`: no check on CUDA (cudaStorage.hpp 446-449), an assertion on OpenCL (openclStorage.hpp 389-406). -/
def index (c : Cfg) (o : Obj) (i : Nat) : Out Unit :=
  match c.be with
  | .cuda => .ok ()
  | .opencl => (sizeOf o).bind fun n => Out.assert c.asserts (i < n)

/-- `s[i] = v` (`CudaRef::operator=`, cudaStorage.hpp 80-84; `OpenCLRef::operator=`, openclStorage.hpp 81-85). -/
def write (c : Cfg) (x i : Nat) (v : V) (s : St V) : Out (St V) :=
  (obj s x).bind fun o => (index c o i).bind fun _ =>
    match o.buf, cells s o.buf with
    | some b, some vs => if i < vs.length then .ok (s.setBuf b (some (vs.set i (some v)))) else invalid c.be s
    | _, _ => invalid c.be s

/-- `s[i].get()` (cudaStorage.hpp 86-91; openclStorage.hpp 87-93).  A failed OpenCL read leaves the result variable uninitialised. -/
def read (c : Cfg) (x i : Nat) (s : St V) : Out (Option V) :=
  (obj s x).bind fun o => (index c o i).bind fun _ =>
    match cells s o.buf with
    | some vs =>
      match vs[i]? with
      | some v => .ok v
      | none => if c.be = .cuda then .ub else .ok none
    | none => if c.be = .cuda then .ub else .ok none

/-- The destructor (cudaStorage.hpp 376-380; openclStorage.hpp 350-356). -/
def destroy (c : Cfg) (x : Nat) (s : St V) : Out (St V) :=
  (obj s x).bind fun o => (if o.owns then dealloc c o.buf s else .ok s).bind fun s => .ok (s.setObj x none)

/-- The operations of a program on storages. Device memory of the model, for cuda/cudaStorage.hpp 128-450 and opencl/openclStorage.hpp
120-417. -/
inductive Cmd (V : Type) where
  | default (x : Nat)
  | size (x n : Nat)
  | fill (x n : Nat) (v : V)
  | list (x : Nat) (vs : List V)
  | fromData (x : Nat) (vs : List V)
  | copyCtor (x y : Nat)
  | copy (x y : Nat)
  | moveCtor (x y : Nat)
  | assign (x y : Nat)
  | moveAssign (x y : Nat)
  | resize (x n : Nat)
  | resizeNew (x n : Nat)
  | write (x i : Nat) (v : V)
  | destroy (x : Nat)

/-- One operation. Device memory of the model, for cuda/cudaStorage.hpp 128-450 and opencl/openclStorage.hpp 120-417. -/
def step (c : Cfg) : Cmd V → St V → Out (St V)
  | .default x => ctorDefault x
  | .size x n => ctorSize c x n
  | .fill x n v => ctorFill c x n v
  | .list x vs => ctorList c x vs
  | .fromData x vs => fromData c x vs
  | .copyCtor x y => copyCtor c x y
  | .copy x y => copyOf c x y
  | .moveCtor x y => moveCtor x y
  | .assign x y => assign c x y
  | .moveAssign x y => moveAssign x y
  | .resize x n => resize c x n
  | .resizeNew x n => resizeNew c x n
  | .write x i v => write c x i v
  | .destroy x => destroy c x

/-- A program. Device memory of the model, for cuda/cudaStorage.hpp 128-450 and opencl/openclStorage.hpp 120-417. -/
def run (c : Cfg) : List (Cmd V) → St V → Out (St V)
  | [], s => .ok s
  | k :: ks, s => (step c k s).bind (run c ks)

end Verif.GpuSt
