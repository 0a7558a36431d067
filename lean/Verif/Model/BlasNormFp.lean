import Verif.Model.Blas1
import Verif.Model.VecFp

/-!
# Model of `nrm2` of cxxblas on doubles, with infinities and NaN (level1/nrm2.tcc)

`std::pow(t, 2.0)` is a function of the C library; it is a parameter `sq` on the magnitudes (see `GoodSq` in `Props/BlasNormFp.lean`).
-/

namespace Verif.Blas

open Verif.Num Verif.IntSqrt

/-- `x != Zero`, level1/nrm2.tcc 62 -/
def nonzeroF : Fp → Bool
  | .fin _ m => decide (m ≠ 0)
  | _ => true

/-- `std::abs(x)`, level1/nrm2.tcc 54, 63 -/
def absF : Fp → Fp
  | .nan _ => .nan false
  | .inf _ => .inf false
  | .fin _ m => .fin false m

/-- `a < b` of two doubles, level1/nrm2.tcc 64. -/
def ltF : Fp → Fp → Bool
  | .nan _, _ => false
  | _, .nan _ => false
  | .inf s, .inf t => s && !t
  | .inf s, .fin _ _ => s
  | .fin _ _, .inf t => !t
  | .fin s a, .fin t b => decide (Fp.signed s a < Fp.signed t b)

/-- `cxxblas::pow(t, 2)`, which is `std::pow(t, 2.0)`, auxiliary/pow.tcc 75-86. -/
def pow2F (sq : ℚ → ℚ) : Fp → Fp
  | .nan s => .nan s
  | .inf _ => .inf false
  | .fin _ m => if (2 : ℚ) ^ 1024 ≤ sq m then .inf false else .fin false (sq m)

/-- level1/nrm2.tcc 62-70: one step; the pair is `scale`, `ssq`. -/
def ssqStepF (sq : ℚ → ℚ) (st : Fp × Fp) (t : Fp) : Fp × Fp :=
  if nonzeroF t then
    if ltF st.1 (absF t) then (absF t, .fin false 1 + st.2 * pow2F sq (st.1 / absF t))
    else (st.1, st.2 + pow2F sq (absF t / st.1))
  else st

/-- level1/nrm2.tcc 40-74, 123-127: the norm of a vector of doubles. -/
def nrm2F (sq : ℚ → ℚ) (n : Nat) (x incX : Int) : M Fp Fp :=
  let x := start n x incX
  if n < 1 then pure 0
  else if n = 1 then do
    let v ← load x
    pure (absF v)
  else do
    let r ← fold n (0, .fin false 1) fun i st => do
      let v ← load (x + i * incX)
      pure (ssqStepF sq st v)
    pure (r.1 * stdSqrt r.2)

/-- level1/nrm2.tcc 76-121, 123-127: the norm of a vector of complex doubles; `abs` is `std::abs` of a complex number. -/
def cnrm2F (sq : ℚ → ℚ) (abs : Fp × Fp → Fp) (n : Nat) (x incX : Int) : M (Fp × Fp) Fp :=
  let x := start n x incX
  if n < 1 then pure 0
  else if n = 1 then do
    let v ← load x
    pure (abs v)
  else do
    let r ← fold n (0, .fin false 1) fun i st => do
      let v ← load (x + i * incX)
      pure (ssqStepF sq (ssqStepF sq st v.1) v.2)
    pure (r.1 * stdSqrt r.2)

end Verif.Blas
