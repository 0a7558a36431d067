import Mathlib.MeasureTheory.Measure.GiryMonad
import Mathlib.MeasureTheory.Measure.Prod
import Mathlib.MeasureTheory.Measure.Lebesgue.Basic
import Mathlib.Analysis.SpecialFunctions.Log.Basic
import Mathlib.Analysis.SpecialFunctions.Sqrt

/-!
# The distributions of random numbers

Models `random`, `randint` and `randomGaussian` (librapid/include/librapid/math/random.hpp 5-73) in real arithmetic, with draws that are
independent and uniform on [0, 1). Verif.Model.Random models them in the arithmetic of the machine.

A program that draws random numbers is the measure of its results; its total mass is the probability that it returns.
-/

open MeasureTheory

namespace Verif.RandomDist

/-- A draw `distribution(generator)`: uniform on [0, 1). math/random.hpp 9, 18. -/
noncomputable def uniform : Measure ℝ := volume.restrict (Set.Ico 0 1)

/-- `lower + (upper - lower) * distribution(generator)`. math/random.hpp 18. -/
def randomR (lower upper u : ℝ) : ℝ := lower + (upper - lower) * u

/-- The conversion to an integer type: towards zero. math/random.hpp 18, 23. -/
noncomputable def truncR (x : ℝ) : ℤ := if 0 ≤ x then ⌊x⌋ else ⌈x⌉

/-- `random(lower, upper)` of two integers. math/random.hpp 17-18. -/
noncomputable def randomIntR (lower upper : ℤ) (u : ℝ) : ℤ := truncR (randomR lower upper u)

/-- `randint(lower, upper)`. math/random.hpp 21-24. -/
noncomputable def randintR (lower upper : ℤ) (u : ℝ) : ℤ :=
  truncR (randomR ((lower - (if lower < 0 then 1 else 0) : ℤ) : ℝ) ((upper : ℝ) + 1) u)

/-- `s = v1 * v1 + v2 * v2`. math/random.hpp 61. -/
def sq (v : ℝ × ℝ) : ℝ := v.1 * v.1 + v.2 * v.2

/-- The draws of one pass of the loop: `random<double>(-1, 1)` twice. math/random.hpp 59-60. -/
def point (d : ℝ × ℝ) : ℝ × ℝ := (randomR (-1) 1 d.1, randomR (-1) 1 d.2)

/-- The loop ends: not `s >= 1 || s == 0`. math/random.hpp 62. -/
def Accepted (v : ℝ × ℝ) : Prop := ¬ (1 ≤ sq v ∨ sq v = 0)

/-- `sqrt(-2 * log(s) / s)`. math/random.hpp 63. -/
noncomputable def multiplier (s : ℝ) : ℝ := Real.sqrt (-2 * Real.log s / s)

/-- `res` and `nextGaussian`. math/random.hpp 64-66. -/
noncomputable def value (v : ℝ × ℝ) : ℝ × ℝ := (v.1 * multiplier (sq v), v.2 * multiplier (sq v))

/-- The loop with at most `n` passes: the two values it computes. math/random.hpp 58-66. -/
noncomputable def pair : ℕ → Measure (ℝ × ℝ)
  | 0 => 0
  | n + 1 => (uniform.prod uniform).bind fun d =>
      open Classical in if Accepted (point d) then Measure.dirac (value (point d)) else pair n

/-- One call of `randomGaussian` whose loop makes at most `n` passes, given `hasNextGaussian` and `nextGaussian`: the value returned and the
two variables afterwards. math/random.hpp 47-72. -/
noncomputable def call (n : ℕ) (st : Bool × ℝ) : Measure (ℝ × (Bool × ℝ)) :=
  if st.1 then Measure.dirac (st.2, (false, st.2)) else (pair n).map fun p => (p.1, (true, p.2))

/-- Two calls of `randomGaussian`, one after the other: the values returned. math/random.hpp 47-72. -/
noncomputable def twoCalls (n : ℕ) (st : Bool × ℝ) : Measure (ℝ × ℝ) :=
  (call n st).bind fun r => (call n r.2).map fun r' => (r.1, r'.1)

end Verif.RandomDist
