import Verif.Model.Random

/-!
# `std::mt19937` and `std::uniform_real_distribution<double>(0., 1.)`

The generator the library uses (C++ standard, [rand.eng.mers] and [rand.predef]), and one way the standard library turns
two of its outputs into a number of `[0, 1)` ([rand.util.canonical], as done by libstdc++: the sum is computed in `double` and
a result of one is replaced by the number before one).
-/

namespace Verif.RandomM

open Verif.Ieee

/-- The state: the last 624 words of the sequence. -/
structure Mt where
  x : List Nat
deriving DecidableEq

/-- `x_i = 1812433253 * (x_{i-1} xor (x_{i-1} >> 30)) + i mod 2^32`, for `n` words from the index `i` -/
def mtInit : Nat → Nat → Nat → List Nat
  | 0, _, _ => []
  | n + 1, i, prev =>
    let w := (1812433253 * (prev ^^^ (prev >>> 30)) + i) % 2 ^ 32
    w :: mtInit n (i + 1) w

/-- The state for a seed. `std::mt19937_64` and `std::uniform_real_distribution` of the C++ standard, as used by math/random.hpp 9-18. -/
def mtSeed (s : Nat) : Mt := ⟨s % 2 ^ 32 :: mtInit 623 1 (s % 2 ^ 32)⟩

/-- The next word of the sequence from the words 624, 623 and 227 places before it. -/
def mtWord (a b c : Nat) : Nat :=
  let y := (a / 2 ^ 31 * 2 ^ 31) ||| (b % 2 ^ 31)
  c ^^^ (y >>> 1) ^^^ (if y % 2 = 1 then 0x9908b0df else 0)

/-- One step of the sequence: drop the oldest word and append the next. `std::mt19937_64` and `std::uniform_real_distribution` of the C++
standard, as used by math/random.hpp 9-18. -/
def mtStep (x : List Nat) : List Nat × Nat :=
  match x with
  | a :: b :: rest =>
    match rest[395]? with
    | some c => let w := mtWord a b c; (b :: (rest ++ [w]), w)
    | none => ([], 0)
  | _ => ([], 0)

/-- The tempering of an output. `std::mt19937_64` and `std::uniform_real_distribution` of the C++ standard, as used by math/random.hpp
9-18. -/
def temper (x : Nat) : Nat :=
  let x := x ^^^ (x >>> 11)
  let x := x ^^^ ((x <<< 7) % 2 ^ 32 &&& 0x9d2c5680)
  let x := x ^^^ ((x <<< 15) % 2 ^ 32 &&& 0xefc60000)
  x ^^^ (x >>> 18)

/-- One output: the window of the last 624 words moves by one. -/
def mtNext (g : Mt) : Nat × Mt :=
  let r := mtStep g.x
  (temper r.2, ⟨r.1⟩)

/-- One draw of the distribution. `std::mt19937_64` and `std::uniform_real_distribution` of the C++ standard, as used by math/random.hpp
9-18. -/
def canonical (g : Mt) : ℚ × Mt :=
  let r1 := mtNext g
  let r2 := mtNext r1.2
  let sum := rnd binary64 (r1.1 + rnd binary64 (r2.1 * 2 ^ 32))
  let u := rnd binary64 (sum / 2 ^ 64)
  (if u ≥ 1 then 1 - 1 / 2 ^ 53 else u, r2.2)

/-- The generator of the library. `std::mt19937_64` and `std::uniform_real_distribution` of the C++ standard, as used by math/random.hpp
9-18. -/
def mt19937 : Gen Mt := ⟨mtSeed, canonical⟩

end Verif.RandomM
