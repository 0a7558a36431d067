import Verif.Model.BlasNormFp

/-!
# Model of `rotg` of cxxblas on doubles, with infinities and NaN (level1/rot.tcc)
-/

namespace Verif.Blas

open Verif.Num Verif.IntSqrt

/-- `-r`, level1/rot.tcc 82 -/
def negF : Fp → Fp
  | .nan s => .nan (!s)
  | .inf s => .inf (!s)
  | .fin s m => .fin (!s) m

/-- The results of `rotg`: the new `a` and `b`, and `c`, `s`. cxxblas/level1/rot.tcc 60-91. -/
structure GivensF where
  a : Fp
  b : Fp
  c : Fp
  s : Fp
deriving DecidableEq

/-- level1/rot.tcc 60-91 `rotg` with `A = B = T = double`. -/
def rotgF (a b : Fp) : GivensF :=
  let absA := absF a
  let absB := absF b
  let scale := absA + absB
  let roe := if ltF absB absA then a else b
  if nonzeroF scale then
    let aScaled := absA / scale
    let bScaled := absB / scale
    let r0 := scale * stdSqrt (aScaled * aScaled + bScaled * bScaled)
    let r := if ltF roe 0 then negF r0 else r0
    let c := a / r
    let s := b / r
    let z := .fin false 1
    let z := if ltF absB absA then s else z
    let z := if ltF absA absB && nonzeroF c then .fin false 1 / c else z
    ⟨r, z, c, s⟩
  else ⟨0, 0, .fin false 1, 0⟩

end Verif.Blas
