import Verif.Model.Vendor
import Verif.Model.Transpose

/-!
# Model of transposing matrices on CUDA (array/linalg/transpose.hpp 394-482, 641-689)

The call of cuBLAS is against the contract of `cublas<t>geam` in Model/Vendor.lean, in exact arithmetic.
-/

namespace Verif.VendorM

open ShapeM MulM TransM

/-- The element types `cuda::transposeImpl` tells apart (transpose.hpp 396-482); `other` stands for half and the integers. -/
inductive TElt where
  | float | double | cfloat | cdouble | other
deriving DecidableEq

variable {α : Type} [Zero α] [Add α] [Mul α] [DecidableEq α]

/-- A call whose output is one of its inputs: cuBLAS does not define what transposing in place stores (transpose.hpp 408-420). -/
def overlapping : Ret α → Ret α
  | .refused => .refused
  | _ => .stray

/-- transpose.hpp 403-482 `transposeImpl` for the types cuBLAS has: `alpha` times the transpose, plus 0 times the matrix itself. `self`
says that `out` is `inp`. -/
def transposeGeam (self : Bool) (rows cols : Nat) (alpha : α) (inp out : List α) : Out (List α) :=
  let ret := geamRoutine true false (toInt rows) (toInt cols) alpha inp (toInt cols) 0 inp (toInt cols) out (toInt rows)
  safeCall (if self then overlapping ret else ret)

/-- transpose.hpp 396-482 `cuda::transposeImpl`. -/
def transposeImplCuda (asserts self : Bool) (rows cols : Nat) (alpha : α) (inp out : List α) : TElt → Out (List α)
  | .other => notImplemented asserts
  | _ => transposeGeam self rows cols alpha inp out

/-- transpose.hpp 675-683: only matrices are transposed. -/
def applyShape (asserts self : Bool) (e : TElt) (alpha : α) (inp out : List α) : List Nat → Out (List α)
  | [rows, cols] => transposeImplCuda asserts self rows cols alpha inp out e
  | _ => notImplemented asserts

/-- transpose.hpp 641-689 `applyTo` for an array on CUDA: what `out`, of the shape `outShape`, holds afterwards. -/
def transposeCuda (asserts self : Bool) (e : TElt) (t : TObj α) (outShape : List Nat) (inp out : List α) : Out (List α) := do
  Out.assert asserts (!self)
  Out.assert asserts (decide (outShape = t.output))
  applyShape asserts self e t.alpha inp out t.input

end Verif.VendorM
