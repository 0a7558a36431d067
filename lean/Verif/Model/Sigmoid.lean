import Verif.Model.Ieee
import Mathlib.Analysis.SpecialFunctions.Exp

/-!
# The sigmoid activation

`/repo/librapid/include/librapid/ml/activations.hpp` 51-180. `forward` and `backward` are array expressions, evaluated element by
element (the evaluation itself is the subject of C24-C26): the models give the element function and apply it to each element.
The OpenCL and CUDA kernels (`librapid/opencl/kernels/activations.cl`, `librapid/cuda/kernels/activations.cu`) use the same formulas
for `float` and `double`; their integer versions are not modelled. With CUDA enabled the header does not compile: line 161 writes
`require` for `requires`.
-/

namespace Verif.Sigmoid

/-- Element of `forward` in exact arithmetic: `1 / (1 + exp(-x))`, activations.hpp 94, 110, 126. -/
noncomputable def forward (x : ℝ) : ℝ := 1 / (1 + Real.exp (-x))

/-- Element of `backward`: `y * (1 - y)`, activations.hpp 101, 117, 134. -/
noncomputable def backward (y : ℝ) : ℝ := y * (1 - y)

/-- `forward` of an array. ml/activations.hpp 51-180. -/
noncomputable def forwardArr (xs : List ℝ) : List ℝ := xs.map forward
/-- `backward` of an array. ml/activations.hpp 51-180. -/
noncomputable def backwardArr (ys : List ℝ) : List ℝ := ys.map backward

/-- `forward` in floating point: `fl` rounds each operation, `mexp` is the library's exponential. ml/activations.hpp 51-180. -/
def forwardFl (fl mexp : ℚ → ℚ) (x : ℚ) : ℚ := fl (1 / fl (1 + mexp (-x)))

/-- `backward` in floating point. ml/activations.hpp 51-180. -/
def backwardFl (fl : ℚ → ℚ) (y : ℚ) : ℚ := fl (y * fl (1 - y))

end Verif.Sigmoid
