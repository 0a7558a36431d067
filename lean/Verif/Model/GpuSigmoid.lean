import Verif.Model.GpuAssign
import Verif.Basic

/-!
# The sigmoid activation on a GPU, for destinations of any size

ml/activations.hpp 132-188, opencl/kernels/activations.cl, cuda/kernels/activations.cu, cudaKernelProcesor.hpp 22-48 and
openclKernelProcessor.hpp 24-47.

The destination has `d` elements and the source `s`. Nothing compares them, and nothing resizes the destination. The source is an array:
in the OpenCL version of `forward` it cannot be anything else, as it is asked for its storage (line 142); the other versions evaluate
expressions first (C66). The word `require` in line 161 is read as `requires`.

What a launch of no work items does is up to the device: CUDA and OpenCL before 2.1 report an error, which is an exception with
assertions (core/cudaConfig.hpp 49-64, openclKernelProcessor.hpp 40-43) and is ignored without.
-/

namespace Verif.Gpu

variable {V : Type}

/-- The number of elements the launch is told: activations.hpp 140 (`src.shape().size()`), 151, 167 and 182 (`dst.shape().size()`). -/
def launched (be : Backend) (d s : Nat) : Nat :=
  match be with
  | .opencl => s
  | .cuda => d

/-- activations.cl 2-13 and activations.cu 1-23: `f` of one element. The number of elements the CUDA kernel compares with is that of the source. The
backward kernels read the element twice. -/
inductive Pass (V : Type) where
  | forward (f : V → V)
  | backward (f : V → V → V)

/-- activations.cl 5, 12; activations.cu 4, 10, 16, 22 -/
def Pass.body (src : Nat) : Pass V → Body V
  | .forward f => unBody f (.buf src)
  | .backward f => .fetch (.buf src) fun x => .fetch (.buf src) fun y => .done (f x y)

/-- The value of a pass. activations.cl 5, 12 -/
def Pass.eval : Pass V → V → V
  | .forward f, x => f x
  | .backward f, x => f x x

/-- activations.hpp 132-188: what `forward(dst, src)` or `backward(dst, src)` may do. `refuses` is a device on which a launch of no work
items is an error. -/
inductive Activate (be : Backend) (asserts refuses : Bool) (d s dst src : Nat) (f : Pass V) (M : Mem Cell V) : Out (Mem Cell V) → Prop
  | refused (h0 : launched be d s = 0) (hr : refuses = true) (ha : asserts = true) :
    Activate be asserts refuses d s dst src f M (.throw .runtimeError)
  | ignored (h0 : launched be d s = 0) (hr : refuses = true) (ha : asserts = false) : Activate be asserts refuses d s dst src f M (.ok M)
  | ok {grp : Fin (workItems be (launched be d s)) → Nat} {k c} (h0 : launched be d s = 0 → refuses = false)
      (hs : Steps grp ⟨fun t => elementKernel be s dst (f.body src) t, M⟩ k c) (hst : Stuck grp c) (hd : Done c) :
    Activate be asserts refuses d s dst src f M (.ok c.mem)
  | wrong {grp : Fin (workItems be (launched be d s)) → Nat} {k c} (h0 : launched be d s = 0 → refuses = false)
      (hs : Steps grp ⟨fun t => elementKernel be s dst (f.body src) t, M⟩ k c) (hst : Stuck grp c) (hd : ¬ Done c) :
    Activate be asserts refuses d s dst src f M .ub

end Verif.Gpu
