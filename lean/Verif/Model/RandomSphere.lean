import Verif.Model.Vector
import Verif.Model.RandomDist
import Mathlib.MeasureTheory.Constructions.Pi

/-!
# Random points of the unit ball and the unit sphere

Models `randomPointOnSphere` (librapid/include/librapid/math/vector.hpp 22-33); `randomPointInSphere` (35-55) is in Verif.Model.Vector. The
draws are arguments; their distributions are those of Verif.Model.RandomDist.
-/

namespace Verif.Vec

/-- `randomPointOnSphere` of the numbers `g` that `randomGaussian` returns: they are stored one by one in a vector whose memory was `mem`, and
`norm` of the vector is evaluated into one whose memory was `mem'`. math/vector.hpp 22-33. -/
def randomPointOnSphere [Zero K] [Add K] [Mul K] [Div K] (sqrt : K → K) (asserts : Bool) (dims width : Nat) (mem mem' : Nat → K) (g : Nat → K) :
    Out (V K) := do
  let result ← forUp 0 dims (fun i d => d.put asserts i (g i)) (fresh dims width mem)
  let e ← norm sqrt asserts mem' (.vec result)
  eval asserts mem' e

end Verif.Vec

namespace Verif.RandomDist

open MeasureTheory

/-- The loop of `randomPointOnSphere` whose calls of `randomGaussian` make at most `n` passes each: the components and the two variables of
the generator after `k` calls. math/vector.hpp 28-30, math/random.hpp 47-72. -/
noncomputable def fillLoop (n : ℕ) (st : Bool × ℝ) : (k : ℕ) → Measure ((Fin k → ℝ) × (Bool × ℝ))
  | 0 => Measure.dirac (Fin.elim0, st)
  | k + 1 => (fillLoop n st k).bind fun r => (call n r.2).map fun q => (Fin.snoc r.1 q.1, q.2)

end Verif.RandomDist
