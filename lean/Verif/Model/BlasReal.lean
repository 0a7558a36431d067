import Verif.Model.Blas1
import Mathlib.Analysis.Real.Sqrt
import Mathlib.Data.Complex.Basic
import Mathlib.Analysis.Complex.Norm

/-!
# Model of `nrm2` and `rotg` of cxxblas (level1/nrm2.tcc, level1/rot.tcc), over the real numbers
-/

namespace Verif.Blas

/-- level1/nrm2.tcc 62-70 (same 100-108, 109-117): one step of the scaled sum of squares, for the real number `t`. -/
noncomputable def ssqStep (st : ℝ × ℝ) (t : ℝ) : ℝ × ℝ :=
  if t ≠ 0 then
    if st.1 < |t| then (|t|, 1 + st.2 * (st.1 / |t|) ^ 2)
    else (st.1, st.2 + (|t| / st.1) ^ 2)
  else st

/-- level1/nrm2.tcc 40-74, 123-127: the norm of a real vector. -/
noncomputable def nrm2 (n : Nat) (x incX : Int) : M ℝ ℝ :=
  let x := start n x incX
  if n < 1 then pure 0
  else if n = 1 then do
    let v ← load x
    pure |v|
  else do
    let r ← fold n (0, 1) fun i st => do
      let v ← load (x + i * incX)
      pure (ssqStep st v)
    pure (r.1 * √r.2)

/-- level1/nrm2.tcc 76-121, 123-127: the norm of a complex vector. -/
noncomputable def cnrm2 (n : Nat) (x incX : Int) : M ℂ ℝ :=
  let x := start n x incX
  if n < 1 then pure 0
  else if n = 1 then do
    let v ← load x
    pure ‖v‖
  else do
    let r ← fold n (0, 1) fun i st => do
      let v ← load (x + i * incX)
      pure (ssqStep (ssqStep st v.re) v.im)
    pure (r.1 * √r.2)

/-- The results of `rotg`: the new `a` and `b`, and `c`, `s`. cxxblas/level1/rot.tcc 61-90. -/
structure Givens (K C : Type) where
  a : K
  b : K
  c : C
  s : K

/-- level1/rot.tcc 60-91 `rotg` for real numbers. -/
noncomputable def rotg (a b : ℝ) : Givens ℝ ℝ :=
  let absA := |a|
  let absB := |b|
  let scale := absA + absB
  let roe := if absA > absB then a else b
  if scale = 0 then ⟨0, 0, 1, 0⟩
  else
    let aScaled := absA / scale
    let bScaled := absB / scale
    let r0 := scale * √(aScaled * aScaled + bScaled * bScaled)
    let r := if roe < 0 then -r0 else r0
    let c := a / r
    let s := b / r
    let z := 1
    let z := if absA > absB then s else z
    let z := if absA < absB ∧ c ≠ 0 then 1 / c else z
    ⟨r, z, c, s⟩

/-- level1/rot.tcc 93-114 `rotg` for complex numbers; `b` is not changed. -/
noncomputable def crotg (a b : ℂ) : Givens ℂ ℝ :=
  if ‖a‖ = 0 then ⟨b, b, 0, 1⟩
  else
    let scale := ‖a‖ + ‖b‖
    let norm := scale * √(‖a / scale‖ ^ 2 + ‖b / scale‖ ^ 2)
    let alpha := a / ‖a‖
    ⟨alpha * norm, b, ‖a‖ / norm, alpha * star b / norm⟩

end Verif.Blas
