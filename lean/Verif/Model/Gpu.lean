import Mathlib.Logic.Function.Basic
import Mathlib.Data.Set.Basic

/-!
# Work items on a GPU

The execution model of OpenCL kernels and CUDA kernels: work items (threads) in work groups (blocks), global and local memory, barriers.
Individual memory accesses of different work items interleave in any order; a barrier is passed by all work items of a group together.
-/

namespace Verif.Gpu

/-- What a work item still has to do. `fail` stands for undefined behaviour found by the work item itself, for instance signed overflow.
Execution model of OpenCL and CUDA kernels; for opencl/kernels/*.cl and cuda/kernels/*.cu. -/
inductive Prog (L V : Type) where
  | ret
  | fail
  | read (l : L) (k : V → Prog L V)
  | write (l : L) (v : V) (k : Prog L V)
  | barrier (k : Prog L V)

variable {T G L V : Type} [DecidableEq T] [DecidableEq L]

/-- Memory; `none` where nothing is allocated. Execution model of OpenCL and CUDA kernels; for opencl/kernels/*.cl and cuda/kernels/*.cu. -/
abbrev Mem (L V : Type) := L → Option V

/-- All work items and the memory. Execution model of OpenCL and CUDA kernels; for opencl/kernels/*.cl and cuda/kernels/*.cu. -/
structure Cfg (T L V : Type) where
  prog : T → Prog L V
  mem : Mem L V

/-- One step: one work item does one memory access inside the allocated memory, or all work items of a group pass a barrier. Execution
model of OpenCL and CUDA kernels; for opencl/kernels/*.cl and cuda/kernels/*.cu. -/
inductive Step (grp : T → G) : Cfg T L V → Cfg T L V → Prop
  | read {c t l k v} (h : c.prog t = .read l k) (hm : c.mem l = some v) : Step grp c ⟨Function.update c.prog t (k v), c.mem⟩
  | write {c t l v k w} (h : c.prog t = .write l v k) (hm : c.mem l = some w) :
    Step grp c ⟨Function.update c.prog t k, Function.update c.mem l (some v)⟩
  | barrier {c} (g : G) (p : T → Prog L V) (ne : ∃ t, grp t = g) (h : ∀ t, grp t = g → c.prog t = .barrier (p t)) (h' : ∀ t, grp t ≠ g → p t = c.prog t) :
    Step grp c ⟨p, c.mem⟩

/-- Executions: any number of steps. Execution model of OpenCL and CUDA kernels; for opencl/kernels/*.cl and cuda/kernels/*.cu. -/
inductive Steps (grp : T → G) (c : Cfg T L V) : Nat → Cfg T L V → Prop
  | refl : Steps grp c 0 c
  | step {n d e} (h : Steps grp c n d) (s : Step grp d e) : Steps grp c (n + 1) e

/-- Every work item has finished. Execution model of OpenCL and CUDA kernels; for opencl/kernels/*.cl and cuda/kernels/*.cu. -/
def Done (c : Cfg T L V) : Prop := ∀ t, c.prog t = .ret

/-- No step is possible. A state that is stuck without being done is an error: an access outside the memory, an undefined operation, or a
barrier that some work item of the group never reaches. Execution model of OpenCL and CUDA kernels; for opencl/kernels/*.cl and
cuda/kernels/*.cu. -/
def Stuck (grp : T → G) (c : Cfg T L V) : Prop := ∀ d, ¬ Step grp c d

/-- At most `n` steps remain, whatever is read. Execution model of OpenCL and CUDA kernels; for opencl/kernels/*.cl and
cuda/kernels/*.cu. -/
def Prog.AtMost : Nat → Prog L V → Prop
  | _, .ret => True
  | _, .fail => True
  | 0, _ => False
  | n + 1, .read _ k => ∀ v, (k v).AtMost n
  | n + 1, .write _ _ k => k.AtMost n
  | n + 1, .barrier k => k.AtMost n

end Verif.Gpu
