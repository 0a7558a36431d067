import Verif.Basic
import Mathlib.Analysis.SpecialFunctions.Trigonometric.Basic
import Mathlib.Analysis.SpecialFunctions.Complex.Circle

/-!
# Real Fourier transform (array/fourierTransform.hpp, host)

The transforms themselves are pocketfft's and FFTW's. What they do is stated here from their documentation, with exact real numbers:
`pocketfft::r2c` does nothing if there is nothing to transform; `fftw_plan_dft_r2c_1d` returns a null pointer for a size that is not
positive, and a null plan must not be executed. Strides are counted in elements instead of bytes. Both read and write at the
places the strides say; a place outside of the arrays is undefined behaviour.

Not modelled: rounding, threads, the CUDA version.
-/

namespace Verif.Rfft

open Complex

/-- The term `x e^(∓2πi jk/n)` of a transform. -/
noncomputable def term (forward : Bool) (n : Nat) (x : ℝ) (j k : Nat) : ℂ :=
  x * exp ((if forward then -1 else 1) * (2 * Real.pi * I * (j * k) / n))

/-- One coefficient of the transform of the `n` numbers found at the stride `si`. For array/fourierTransform.hpp 10-123. -/
noncomputable def coeff (forward : Bool) (n si : Nat) (fct : ℝ) (input : List ℝ) (k : Nat) : ℂ :=
  fct * ((List.range n).map fun j => term forward n (input.getD (j * si) 0) j k).sum

/-- The writes of the coefficients `k, k + 1, …, k + m - 1` at the stride `so`. -/
noncomputable def store (f : Nat → ℂ) (so : Nat) : Nat → Nat → List ℂ → Out (List ℂ)
  | 0, _, out => .ok out
  | m + 1, k, out => if k * so < out.length then store f so m (k + 1) (out.set (k * so) (f k)) else .ub

/-- What a library does with `n` numbers: `n / 2 + 1` coefficients are written. -/
noncomputable def r2c (n si so : Nat) (forward : Bool) (fct : ℝ) (input : List ℝ) (out : List ℂ) : Out (List ℂ) :=
  if n = 0 then .ok out
  else if (n - 1) * si < input.length then store (coeff forward n si fct input) so (n / 2 + 1) 0 out
  else .ub

/-- fourierTransform.hpp 8-24: `detail::cpu::rfft` with pocketfft. -/
noncomputable def cpuPocket (n : Nat) (input : List ℝ) (out : List ℂ) : Out (List ℂ) := r2c n 1 1 true 1 input out

/-- The value of `(int)n` for a `size_t` (fourierTransform.hpp 30, 39, 48, 57). -/
def toInt (n : Nat) : Int := if n % 2 ^ 32 < 2 ^ 31 then (n % 2 ^ 32 : Nat) else (n % 2 ^ 32 : Nat) - 2 ^ 32

/-- fourierTransform.hpp 44-62: `detail::cpu::rfft` with FFTW. -/
noncomputable def cpuFftw (n : Nat) (input : List ℝ) (out : List ℂ) : Out (List ℂ) :=
  if toInt n ≤ 0 then .ub else r2c (toInt n).toNat 1 1 true 1 input out

/-- The library the build uses. For array/fourierTransform.hpp 10-123. -/
inductive Lib where
  | pocket
  | fftw

/-- The transform on the host. For array/fourierTransform.hpp 10-123. -/
noncomputable def cpu : Lib → Nat → List ℝ → List ℂ → Out (List ℂ)
  | .pocket => cpuPocket
  | .fftw => cpuFftw

/-- fourierTransform.hpp 95-107: `fft::rfft` of a host array with the given shape and data. The new array is filled with complex zeros
by the default constructor (array/storage.hpp 352-392, math/complex.hpp 430). `array.shape()[0]` of a shape without dimensions is
not set. -/
noncomputable def rfft (lib : Lib) (asserts : Bool) (shape : List Nat) (data : List ℝ) : Out (List ℂ) := do
  Out.assert asserts (shape.length == 1)
  match shape with
  | [] => .ub
  | n :: _ => cpu lib n data (List.replicate (n / 2 + 1) 0)

end Verif.Rfft
