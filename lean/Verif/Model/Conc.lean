import Verif.Basic

/-!
# Programs over shared arrays and their interleavings

Loop bodies that the library runs under `#pragma omp parallel for` (array/assignOps.hpp 172-190, 235-253; the parallel GEMM)
or as GPU work items are written once as programs (`Prog`) that read and write single array elements. The sequential code runs
them one after the other (`run`); the parallel code runs them on several threads, and `Step` interleaves the threads one
element access at a time.

Simplifications: threads interleave in a sequentially consistent way. C++ guarantees this for executions without data races,
and a data race is undefined behaviour; `Race` is the usual definition of a race in such an execution, so the theorems about
these programs also show that no reachable state has a race.
-/

namespace Verif.Conc

/-- An element of an array: the array and the index. Threads of the model, for the loops under `#pragma omp parallel for` of
array/assignOps.hpp 172-190, 235-253. -/
abbrev Addr := Nat × Nat

/-- The contents of all arrays. Threads of the model, for the loops under `#pragma omp parallel for` of array/assignOps.hpp 172-190,
235-253. -/
abbrev Mem (α : Type) := Nat → List α

/-- The element at an address, if it is in bounds. Threads of the model, for the loops under `#pragma omp parallel for` of
array/assignOps.hpp 172-190, 235-253. -/
def Mem.get? (m : Mem α) (a : Addr) : Option α := (m a.1)[a.2]?

/-- Replace one element. Threads of the model, for the loops under `#pragma omp parallel for` of array/assignOps.hpp 172-190, 235-253. -/
def Mem.set (m : Mem α) (a : Addr) (v : α) : Mem α := fun id => if id = a.1 then (m id).set a.2 v else m id

/-- A program over the shared arrays. `fail` is undefined behaviour. Threads of the model, for the loops under `#pragma omp parallel for`
of array/assignOps.hpp 172-190, 235-253. -/
inductive Prog (α β : Type) where
  | ret (b : β)
  | fail
  | read (a : Addr) (k : α → Prog α β)
  | write (a : Addr) (v : α) (k : Prog α β)

/-- Sequencing of programs. Threads of the model, for the loops under `#pragma omp parallel for` of array/assignOps.hpp 172-190, 235-253. -/
def Prog.bind : Prog α β → (β → Prog α γ) → Prog α γ
  | .ret b, f => f b
  | .fail, _ => .fail
  | .read a k, f => .read a (fun v => (k v).bind f)
  | .write a v k, f => .write a v (k.bind f)

instance : Monad (Prog α) where
  pure := .ret
  bind := Prog.bind

/-- Run a program alone. Accesses out of bounds are undefined behaviour. Threads of the model, for the loops under `#pragma omp parallel
for` of array/assignOps.hpp 172-190, 235-253. -/
def run : Prog α β → Mem α → Out (β × Mem α)
  | .ret b, m => .ok (b, m)
  | .fail, _ => .ub
  | .read a k, m =>
    match m.get? a with
    | some v => run (k v) m
    | none => .ub
  | .write a v k, m =>
    match m.get? a with
    | some _ => run k (m.set a v)
    | none => .ub

/-- Run loop iterations one after the other. Threads of the model, for the loops under `#pragma omp parallel for` of array/assignOps.hpp
172-190, 235-253. -/
def seqAll (body : Nat → Prog α Unit) : List Nat → Prog α Unit
  | [] => .ret ()
  | i :: is => (body i).bind fun _ => seqAll body is

/-- A state of a parallel region: the arrays and what is left of each thread. Threads of the model, for the loops under `#pragma omp
parallel for` of array/assignOps.hpp 172-190, 235-253. -/
structure Config (α : Type) where
  mem : Mem α
  threads : List (Prog α Unit)

/-- One element access by one thread. Threads of the model, for the loops under `#pragma omp parallel for` of array/assignOps.hpp
172-190, 235-253. -/
inductive Step : Config α → Config α → Prop
  | read {m : Mem α} {ts : List (Prog α Unit)} {t : Nat} {a : Addr} {k : α → Prog α Unit} {v : α} :
      ts[t]? = some (.read a k) → m.get? a = some v → Step ⟨m, ts⟩ ⟨m, ts.set t (k v)⟩
  | write {m : Mem α} {ts : List (Prog α Unit)} {t : Nat} {a : Addr} {v old : α} {k : Prog α Unit} :
      ts[t]? = some (.write a v k) → m.get? a = some old → Step ⟨m, ts⟩ ⟨m.set a v, ts.set t k⟩

/-- States reachable from a state. Threads of the model, for the loops under `#pragma omp parallel for` of array/assignOps.hpp 172-190,
235-253. -/
inductive Reach (c : Config α) : Config α → Prop
  | refl : Reach c c
  | step {c' c'' : Config α} : Reach c c' → Step c' c'' → Reach c c''

/-- The address a thread accesses next, and whether it writes. Threads of the model, for the loops under `#pragma omp parallel for` of
array/assignOps.hpp 172-190, 235-253. -/
def Prog.next : Prog α β → Option (Addr × Bool)
  | .read a _ => some (a, false)
  | .write a _ _ => some (a, true)
  | _ => none

/-- Two threads are about to access the same element and one of them writes it. Threads of the model, for the loops under `#pragma omp
parallel for` of array/assignOps.hpp 172-190, 235-253. -/
def Race (c : Config α) : Prop :=
  ∃ (t u : Nat) (p q : Prog α Unit) (a : Addr) (w w' : Bool), t ≠ u ∧ c.threads[t]? = some p ∧ c.threads[u]? = some q ∧
    p.next = some (a, w) ∧ q.next = some (a, w') ∧ (w || w') = true

/-- Some thread has undefined behaviour, or is about to access an element out of bounds. Threads of the model, for the loops under
`#pragma omp parallel for` of array/assignOps.hpp 172-190, 235-253. -/
def Bad (c : Config α) : Prop :=
  ∃ (t : Nat) (p : Prog α Unit), c.threads[t]? = some p ∧
    (p = .fail ∨ ∃ a w, p.next = some (a, w) ∧ c.mem.get? a = none)

/-- All threads have finished (the barrier at the end of the parallel region). Threads of the model, for the loops under `#pragma omp
parallel for` of array/assignOps.hpp 172-190, 235-253. -/
def Final (c : Config α) : Prop := ∀ p ∈ c.threads, p = .ret ()

/-- The iterations given to each thread: together every iteration of the loop exactly once. Any number of threads, any
distribution (OpenMP leaves the default schedule to the implementation). Threads of the model, for the loops under `#pragma omp parallel
for` of array/assignOps.hpp 172-190, 235-253. -/
def IsSchedule (sched : List (List Nat)) (iterations : List Nat) : Prop := sched.flatten.Perm iterations

/-- The initial state of a parallel loop under a schedule. Threads of the model, for the loops under `#pragma omp parallel for` of
array/assignOps.hpp 172-190, 235-253. -/
def start (body : Nat → Prog α Unit) (sched : List (List Nat)) (m : Mem α) : Config α :=
  ⟨m, sched.map (seqAll body)⟩

/-- `for (i = lo; i < hi; i += step)`: the values of `i`. Threads of the model, for the loops under `#pragma omp parallel for` of
array/assignOps.hpp 172-190, 235-253. -/
def indices (lo hi step : Nat) : List Nat :=
  if lo < hi ∧ 0 < step then lo :: indices (lo + step) hi step else []
termination_by hi - lo

end Verif.Conc
