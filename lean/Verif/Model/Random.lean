import Verif.Model.Scalar

/-!
# Random numbers

Models `math/random.hpp` (`random` 5-19, `randint` 21-24, `randomGaussian` 48-73) and `setSeed` (`src/global.cpp`).
`trueRandom`, `trueRandint` and `trueRandomEntropy` (lines 26-46) read `std::random_device` and are not modelled.

The generator `std::mt19937` and the distribution `std::uniform_real_distribution<double>(0., 1.)` are parameters:
a type of generator states, the state for a seed, and one draw, which returns a number `u` of `[0, 1)` and the next state.
`Model/Mt19937.lean` gives the ones of the C++ standard.
-/

namespace Verif.RandomM

open Verif.ScalarM

/-- The value `random<double, double>(lower, upper)` computes from a draw `u`, random.hpp 18 -/
def randomVal (fl : ℚ → ℚ) (lower upper u : ℚ) : ℚ := fl (lower + fl (fl (upper - lower) * u))

/-- The value `random<int64_t, int64_t>(lower, upper)` computes from a draw `u`: the integers are converted to `double` (the
conversions are exact below `2^53`; the subtraction is in integers and its overflow is not modelled), and the result is
truncated. -/
def randomValI (fl : ℚ → ℚ) (lower upper : Int) (u : ℚ) : Int :=
  trunc (fl (fl lower + fl (fl ((upper - lower : Int) : ℚ) * u)))

/-- `(int64_t) x`: undefined when the truncated value does not fit. -/
def toI64 (x : ℚ) : Out Int := if -2 ^ 63 ≤ trunc x ∧ trunc x < 2 ^ 63 then .ok (trunc x) else .ub

/-- The value `randint(lower, upper)` computes from a draw `u`, random.hpp 21-24; `lower - 1` overflows at the least
`int64_t`. -/
def randintVal (fl : ℚ → ℚ) (lower upper : Int) (u : ℚ) : Out Int :=
  if lower = -2 ^ 63 then .ub
  else toI64 (randomVal fl (fl ((lower - (if lower < 0 then 1 else 0) : Int) : ℚ)) (fl (fl upper + 1)) u)

/-! ## Seeding -/

/-- Argument types of an instantiation of `random` (others, such as `float`, behave like these for seeding). State and calls of the
model, for math/random.hpp 5-73 and src/global.cpp 12-13, 76-79. -/
inductive Ty where
  | dbl | int
deriving DecidableEq, Repr

/-- The function template `random<Lower, Upper>` has its own static generator for each pair of types. State and calls of the model, for
math/random.hpp 5-73 and src/global.cpp 12-13, 76-79. -/
abbrev Inst := Ty × Ty

/-- The generator used: states `G`, state for a seed, one draw. State and calls of the model, for math/random.hpp 5-73 and src/global.cpp
12-13, 76-79. -/
structure Gen (G : Type) where
  ofSeed : Nat → G
  draw : G → ℚ × G

/-- The global and static variables: `global::randomSeed`, `global::reseed`, one static generator for each instantiation
(absent until the function is first called), and `nextGaussian` with `hasNextGaussian`. State and calls of the model, for math/random.hpp
5-73 and src/global.cpp 12-13, 76-79. -/
structure St (G : Type) where
  seed : Nat
  reseed : Bool
  gens : Inst → Option G
  gauss : Option ℚ

/-- `setSeed`, global.cpp 76-79 -/
def setSeed {G : Type} (s : Nat) (st : St G) : St G := { st with seed := s, reseed := true }

/-- The generator an instantiation is about to draw from, random.hpp 9-15: the static one, created from the seed on the first
call, and seeded again if the flag is set. The seed is converted to `uint32_t`. -/
def current {G : Type} (gen : Gen G) (st : St G) (i : Inst) : G :=
  if st.reseed then gen.ofSeed (st.seed % 2 ^ 32)
  else match st.gens i with
    | some g => g
    | none => gen.ofSeed (st.seed % 2 ^ 32)

/-- One draw of an instantiation, random.hpp 9-18 -/
def drawOf {G : Type} (gen : Gen G) (st : St G) (i : Inst) : ℚ × St G :=
  let r := gen.draw (current gen st i)
  (r.1, { st with reseed := false, gens := fun j => if j = i then some r.2 else st.gens j })

/-- The loop of `randomGaussian`, random.hpp 60-64, drawing from `random<double, int>`, with at most `fuel` iterations -/
def polar {G : Type} (fl : ℚ → ℚ) (gen : Gen G) : Nat → St G → Option ((ℚ × ℚ × ℚ) × St G)
  | 0, _ => none
  | fuel + 1, st =>
    let r1 := drawOf gen st (.dbl, .int)
    let v1 := randomVal fl (-1) 1 r1.1
    let r2 := drawOf gen r1.2 (.dbl, .int)
    let v2 := randomVal fl (-1) 1 r2.1
    let s := fl (fl (v1 * v1) + fl (v2 * v2))
    if s ≥ 1 ∨ s = 0 then polar fl gen fuel r2.2 else some ((v1, v2, s), r2.2)

/-- `randomGaussian<double>()`, random.hpp 48-73. `mult s` is `sqrt(-2 * log(s) / s)`, a function of the C++ runtime. -/
def gaussian {G : Type} (fl : ℚ → ℚ) (mult : ℚ → ℚ) (gen : Gen G) (fuel : Nat) (st : St G) : Option (ℚ × St G) :=
  match st.gauss with
  | some g => some (g, { st with gauss := none })
  | none =>
    (polar fl gen fuel st).map fun r =>
      (fl (r.1.1 * mult r.1.2.2), { r.2 with gauss := some (fl (r.1.2.1 * mult r.1.2.2)) })

/-- The calls a program can make. State and calls of the model, for math/random.hpp 5-73 and src/global.cpp 12-13, 76-79. -/
inductive Call where
  | random (i : Inst) (lower upper : ℚ)
  | randint (lower upper : Int)
  | gaussian
  | setSeed (s : Nat)
deriving DecidableEq

/-- What a call returns. State and calls of the model, for math/random.hpp 5-73 and src/global.cpp 12-13, 76-79. -/
inductive Res where
  | num (x : ℚ)
  | int (x : Out Int)
  | unit
deriving DecidableEq

/-- `Scalar(...)` of `random`, random.hpp 17-18: truncated when both types are integral. -/
def castTo (i : Inst) (x : ℚ) : ℚ := if i = (.int, .int) then (trunc x : ℚ) else x

/-- One call; `none` when the loop of `randomGaussian` runs for more than `fuel` iterations. State and calls of the model, for
math/random.hpp 5-73 and src/global.cpp 12-13, 76-79. -/
def call {G : Type} (fl : ℚ → ℚ) (mult : ℚ → ℚ) (gen : Gen G) (fuel : Nat) (st : St G) : Call → Option (Res × St G)
  | .random i lower upper =>
    let r := drawOf gen st i
    some (.num (castTo i (randomVal fl lower upper r.1)), r.2)
  | .randint lower upper =>
    let r := drawOf gen st (.dbl, .dbl)
    some (.int (randintVal fl lower upper r.1), r.2)
  | .gaussian => (gaussian fl mult gen fuel st).map fun r => (.num r.1, r.2)
  | .setSeed s => some (.unit, setSeed s st)

/-- A sequence of calls: the values returned and the final state. State and calls of the model, for math/random.hpp 5-73 and
src/global.cpp 12-13, 76-79. -/
def calls {G : Type} (fl : ℚ → ℚ) (mult : ℚ → ℚ) (gen : Gen G) (fuel : Nat) : St G → List Call → Option (List Res × St G)
  | st, [] => some ([], st)
  | st, c :: cs =>
    (call fl mult gen fuel st c).bind fun r =>
      (calls fl mult gen fuel r.2 cs).map fun rs => (r.1 :: rs.1, rs.2)

/-- The state when the program starts; `seed0` is what `PreMain` stores in `global::randomSeed`. -/
def start {G : Type} (seed0 : Nat) : St G := ⟨seed0, false, fun _ => none, none⟩

end Verif.RandomM
