import Verif.Model.Random

/-!
# Model of `fillRandom` for CUDA arrays of `float` and `double` (array/fill.hpp 118-168, src/global.cpp 12-13, 76-79)

cuRAND is not part of the repository; `Curand` is what `fillRandom` relies on: setting the seed puts a generator at the beginning of the
sequence of that seed, and each call of `curandGenerateUniform` or `curandGenerateUniformDouble` returns the next numbers. The calls of
`random`, `randint` and `randomGaussian` on the host are those of Model/Random.lean: they share `global::randomSeed` and
`global::reseed`.
-/

namespace Verif.CudaFill

open RandomM

/-- The static generators: each instantiation of the two function templates has its own (fill.hpp 118-143, `float`, and 144-168,
`double`); `id` stands for the types of the shape and of the two bounds. -/
structure FInst where
  double : Bool
  id : Nat
deriving DecidableEq

/-- The generators of cuRAND as they are used (fill.hpp 126-139, 152-165). -/
structure Curand (C : Type) where
  ofSeed : Nat → C
  uniform : Bool → C → Nat → List ℚ × C

/-- The variables of the host (`global::reseed` among them) and the generators that have been created (fill.hpp 126-127, 152-153). -/
structure St (G C : Type) where
  host : RandomM.St G
  prng : FInst → Option C

variable {G C : Type}

/-- fill.hpp 129-137, 155-163: the generator that is about to be used. It is created with the seed when the function is called for the
first time; it is seeded again whenever `global::reseed` is set. Nothing here resets `global::reseed`. -/
def current (cu : Curand C) (st : St G C) (i : FInst) : C :=
  if st.host.reseed then cu.ofSeed st.host.seed
  else match st.prng i with
    | some g => g
    | none => cu.ofSeed st.host.seed

/-- fill.hpp 118-168: the array after the call; `scale` is `dst * (upper - lower) + lower` for one element. -/
def fill (scale : Bool → ℚ → ℚ → ℚ → ℚ) (cu : Curand C) (st : St G C) (i : FInst) (n : Nat) (lower upper : ℚ) : List ℚ × St G C :=
  let r := cu.uniform i.double (current cu st i) n
  (r.1.map (scale i.double lower upper), { st with prng := fun j => if j = i then some r.2 else st.prng j })

/-- What a program can call: math/random.hpp 5-73 and `setSeed` on the host, or `fillRandom` (fill.hpp 118-168). -/
inductive Call where
  | host (c : RandomM.Call)
  | fill (i : FInst) (n : Nat) (lower upper : ℚ)

/-- What a call gives. For math/random.hpp 5-73 and fill.hpp 118-168. -/
inductive Res where
  | host (r : RandomM.Res)
  | array (a : List ℚ)
deriving DecidableEq

/-- The functions of the C++ runtime and the rounding that the calls depend on, for math/random.hpp 5-73 and fill.hpp 140, 166. -/
structure Env (G C : Type) where
  fl : ℚ → ℚ
  mult : ℚ → ℚ
  gen : Gen G
  cu : Curand C
  scale : Bool → ℚ → ℚ → ℚ → ℚ

/-- One call; `none` if the loop of `randomGaussian` runs for more than `fuel` iterations. math/random.hpp 5-73, fill.hpp 118-168. -/
def call (E : Env G C) (fuel : Nat) (st : St G C) : Call → Option (Res × St G C)
  | .host c => (RandomM.call E.fl E.mult E.gen fuel st.host c).map fun r => (.host r.1, { st with host := r.2 })
  | .fill i n lower upper =>
    let r := fill E.scale E.cu st i n lower upper
    some (.array r.1, r.2)

/-- A sequence of calls. math/random.hpp 5-73, fill.hpp 118-168. -/
def calls (E : Env G C) (fuel : Nat) : St G C → List Call → Option (List Res × St G C)
  | st, [] => some ([], st)
  | st, c :: cs =>
    (call E fuel st c).bind fun r =>
      (calls E fuel r.2 cs).map fun rs => (r.1 :: rs.1, rs.2)

/-- The program starts; `seed0` is what `PreMain` stores in `global::randomSeed` (src/preMain.cpp 38). -/
def start (seed0 : Nat) : St G C := ⟨RandomM.start seed0, fun _ => none⟩

/-- `setSeed`, src/global.cpp 76-79. -/
def setSeed (s : Nat) (st : St G C) : St G C := { st with host := RandomM.setSeed s st.host }

end Verif.CudaFill
