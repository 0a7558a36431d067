import Verif.Model.Conc
import Verif.Model.Random

/-!
# Filling host arrays with random numbers

Models `fillRandom` and `fillRandomGaussian` on the host (array/fill.hpp 11-54) with the calls of `random` (math/random.hpp 5-19)
as accesses to the variables all threads share: `global::reseed`, `global::randomSeed` and the static generator of the instantiation.

Simplifications: the static generator has been initialised (C++ makes the initialisation of a static variable safe for threads); the
state of the generator is one cell, read and written once per draw (in fact 624 words and a position; an access of the cell stands for
the accesses of the position, which every draw reads and writes). The number of elements is that of the storage.
-/

namespace Verif.FillRandom

open Verif.Conc Verif.RandomM Verif.Ieee

/-- The contents of a shared variable or an element of the array. Variables of src/global.cpp 12-13 and math/random.hpp 9-15, as memory
of the model. -/
inductive Cell (G : Type) where
  | flag (b : Bool)
  | seed (s : Nat)
  | gen (g : G)
  | num (x : ℚ)

variable {G : Type}

/-- Addresses of `global::reseed`, `global::randomSeed` and the generator. Variables of src/global.cpp 12-13 and math/random.hpp 9-15, as
memory of the model. -/
def flagAt : Addr := (0, 0)
/-- The address of `global::randomSeed`. Variables of src/global.cpp 12-13 and math/random.hpp 9-15, as memory of the model. -/
def seedAt : Addr := (0, 1)
/-- The address of the generator. Variables of src/global.cpp 12-13 and math/random.hpp 9-15, as memory of the model. -/
def genAt : Addr := (0, 2)

/-- random.hpp 18: `distribution(generator)`. -/
def drawGen (gen : Gen G) (k : ℚ → Prog (Cell G) Unit) : Prog (Cell G) Unit :=
  .read genAt fun c => match c with
    | .gen g => .write genAt (.gen (gen.draw g).2) (k (gen.draw g).1)
    | _ => .fail

/-- random.hpp 12-13: the generator is seeded and the flag cleared. -/
def reseed (gen : Gen G) (k : Prog (Cell G) Unit) : Prog (Cell G) Unit :=
  .read seedAt fun c => match c with
    | .seed s => .write genAt (.gen (gen.ofSeed (s % 2 ^ 32))) (.write flagAt (.flag false) k)
    | _ => .fail

/-- random.hpp 11-18: one draw. -/
def draw (gen : Gen G) (k : ℚ → Prog (Cell G) Unit) : Prog (Cell G) Unit :=
  .read flagAt fun c => match c with
    | .flag true => reseed gen (drawGen gen k)
    | .flag false => drawGen gen k
    | _ => .fail

/-- fill.hpp 22-25, 27-30: the body of the loop; `val` makes the element from the draw. -/
def body (gen : Gen G) (val : ℚ → ℚ) (i : Nat) : Prog (Cell G) Unit :=
  draw gen fun u => .write (1, i) (.num (val u)) (.ret ())

/-- fill.hpp 18: whether the loop runs on several threads. -/
def parallel (numThreads threshold n : Nat) : Bool := decide (numThreads ≠ 1) && decide (threshold < n)

/-- The variables of the library and the array. Variables of src/global.cpp 12-13 and math/random.hpp 9-15, as memory of the model. -/
def memory (b : Bool) (s : Nat) (g : G) (data : List (Cell G)) : Mem (Cell G) := fun id =>
  if id = 0 then [.flag b, .seed s, .gen g] else if id = 1 then data else []

/-- fill.hpp 26-31: the loop on one thread. -/
def fillSeq (gen : Gen G) (val : ℚ → ℚ) (n : Nat) (m : Mem (Cell G)) : Out (Unit × Mem (Cell G)) :=
  run (seqAll (body gen val) (List.range n)) m

/-- fill.hpp 20-25: the loop on several threads, each with the iterations a schedule gives it. -/
def fillPar (gen : Gen G) (val : ℚ → ℚ) (sched : List (List Nat)) (m : Mem (Cell G)) : Config (Cell G) :=
  start (body gen val) sched m

/-- The element of an array of `float`: `(float)(lower + (upper - lower) * u)`, where the difference is a `float` and the rest is
computed in `double` (random.hpp 17-18). -/
def floatVal (lower upper u : ℚ) : ℚ := rnd binary32 (rnd binary64 (lower + rnd binary64 (rnd binary32 (upper - lower) * u)))

end Verif.FillRandom
