import Verif.Model.CudaFill

/-!
# Model of `fillRandom` with an array of seeds (array/fill.hpp 55-116)

OpenCL arrays of every element type, and CUDA arrays of other element types than `float` and `double`: each instantiation keeps 1024 seeds in
a static array; they are drawn on the host by `randint(0, INT64_MAX)` when the function is called for the first time or `global::reseed` is
set. The kernel makes the elements from the seeds and replaces the seeds it used; it is a parameter here, a function of the seeds, the
number of elements and the bounds (C67 is about the kernel itself; up to 1024 elements it is such a function). The host calls are those of
Model/Random.lean.
-/

namespace Verif.SeedFill

open RandomM ScalarM

/-- The number of seeds, fill.hpp 63, 94. -/
def numSeeds : Nat := 1024

/-- `randint(0, INT64_MAX)` from a draw `u`, fill.hpp 67, 99 (random.hpp 21-24; `C141_seeds` shows that the conversion is defined). -/
def seedVal (fl : ℚ → ℚ) (u : ℚ) : Int := trunc (randomVal fl 0 (fl (fl ((2 ^ 63 - 1 : Int) : ℚ) + 1)) u)

variable {G : Type}

/-- The loop over the seeds, fill.hpp 67, 99. -/
def drawSeeds (fl : ℚ → ℚ) (gen : Gen G) : Nat → RandomM.St G → List Int × RandomM.St G
  | 0, st => ([], st)
  | k + 1, st =>
    let r := drawOf gen st (.dbl, .dbl)
    let rs := drawSeeds fl gen k r.2
    (seedVal fl r.1 :: rs.1, rs.2)

/-- The variables of the host and the static seeds of each instantiation of `fillRandom` (fill.hpp 63-65, 94-96); an instantiation is a
number, `none` is `!initialized`. -/
structure St (G : Type) where
  host : RandomM.St G
  seeds : Nat → Option (List Int)

/-- The functions the calls depend on: rounding, the C++ runtime, the generator and the kernel (fill.hpp 74-82, 105-115). -/
structure Env (G : Type) where
  fl : ℚ → ℚ
  mult : ℚ → ℚ
  gen : Gen G
  kernel : Nat → List Int → Nat → ℚ → ℚ → List ℚ × List Int

/-- The seeds that are about to be used, and the state of the host: fill.hpp 66-71, 98-103. -/
def current (E : Env G) (st : St G) (i : Nat) : List Int × RandomM.St G :=
  if st.host.reseed then drawSeeds E.fl E.gen numSeeds st.host
  else match st.seeds i with
    | some s => (s, st.host)
    | none => drawSeeds E.fl E.gen numSeeds st.host

/-- `fillRandom`, fill.hpp 55-116: the array after the call. -/
def fill (E : Env G) (st : St G) (i n : Nat) (lower upper : ℚ) : List ℚ × St G :=
  let c := current E st i
  let r := E.kernel i c.1 n lower upper
  (r.1, ⟨c.2, fun j => if j = i then some r.2 else st.seeds j⟩)

/-- What a program can call: math/random.hpp 5-73 and `setSeed` on the host, or `fillRandom` (fill.hpp 55-116). -/
inductive Call where
  | host (c : RandomM.Call)
  | fill (i n : Nat) (lower upper : ℚ)

/-- One call; `none` if the loop of `randomGaussian` runs for more than `fuel` iterations. math/random.hpp 5-73, fill.hpp 55-116. -/
def call (E : Env G) (fuel : Nat) (st : St G) : Call → Option (CudaFill.Res × St G)
  | .host c => (RandomM.call E.fl E.mult E.gen fuel st.host c).map fun r => (.host r.1, { st with host := r.2 })
  | .fill i n lower upper =>
    let r := fill E st i n lower upper
    some (.array r.1, r.2)

/-- A sequence of calls. math/random.hpp 5-73, fill.hpp 55-116. -/
def calls (E : Env G) (fuel : Nat) : St G → List Call → Option (List CudaFill.Res × St G)
  | st, [] => some ([], st)
  | st, c :: cs =>
    (call E fuel st c).bind fun r =>
      (calls E fuel r.2 cs).map fun rs => (r.1 :: rs.1, rs.2)

/-- The program starts; `seed0` is what `PreMain` stores in `global::randomSeed` (src/preMain.cpp 38). -/
def start (seed0 : Nat) : St G := ⟨RandomM.start seed0, fun _ => none⟩

/-- `setSeed`, src/global.cpp 76-79. -/
def setSeed (s : Nat) (st : St G) : St G := { st with host := RandomM.setSeed s st.host }

end Verif.SeedFill
