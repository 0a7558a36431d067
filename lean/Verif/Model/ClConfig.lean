import Verif.Model.GpuSetup
import Verif.Model.Conc

/-!
# Configuring OpenCL

Models `/repo/librapid/src/openclConfigure.cpp` 88-284: the list of devices, the question for a device, the sources, and the compilation.

Semantics used from outside of the library:
* `cl::Program::Sources` is a `std::vector<std::string>` (opencl/opencl.hpp 5386), so `emplace_back(p, n)` copies the text.
* OpenCL's C++ classes do not throw (`CL_HPP_ENABLE_EXCEPTIONS` is not defined): failures show up in the build status only. For a device that is
  no device the query of the status leaves its result uninitialised (opencl/opencl.hpp 5786-5793).
* `std::cin >> int64_t` is that of libstdc++: a stream that is not good, or that has nothing but white space left, leaves the variable; otherwise a
  text that is no number gives 0, a number out of range gives the nearest `int64_t`, and both set `failbit`; reaching the end sets `eofbit`.
* Texts of kernel files have no NUL character (`strcpy`, 176).

The printed text, which devices pass their test (55-57), and how a compiler treats the sources are inputs of the model.
-/

namespace Verif.ClConfig

open Verif.GpuSetup

/-! ### The question for a device -/

/-- `std::cin`: what is left to read, and `good()`. Surroundings of the model, for openclConfigure.cpp 88-284. -/
structure In where
  rest : List Char
  good : Bool
deriving DecidableEq, Repr

/-- `std::isspace` in the "C" locale. Surroundings of the model, for openclConfigure.cpp 88-284. -/
def isSpace (c : Char) : Bool :=
  c = ' ' || c = '\t' || c = '\n' || c = Char.ofNat 11 || c = Char.ofNat 12 || c = '\r'

/-- `std::isdigit` in the "C" locale. Surroundings of the model, for openclConfigure.cpp 88-284. -/
def isDigit (c : Char) : Bool := decide ('0'.toNat ≤ c.toNat) && decide (c.toNat ≤ '9'.toNat)

/-- The number that a sequence of digits denotes. Surroundings of the model, for openclConfigure.cpp 88-284. -/
def value (l : List Char) : Nat := l.foldl (fun v c => 10 * v + (c.toNat - '0'.toNat)) 0

/-- The greatest `int64_t`. Surroundings of the model, for openclConfigure.cpp 88-284. -/
def maxInt64 : Int := 2 ^ 63 - 1
/-- The least `int64_t`. Surroundings of the model, for openclConfigure.cpp 88-284. -/
def minInt64 : Int := -2 ^ 63

/-- The outcome of the conversion of a sign and digits; `rest` is what follows. Surroundings of the model, for openclConfigure.cpp
88-284. -/
def convert (neg : Bool) (ds rest : List Char) : Int × In :=
  if ds = [] then (0, ⟨rest, false⟩)
  else
    let v : Int := if neg then -(value ds) else value ds
    if v > maxInt64 then (maxInt64, ⟨rest, false⟩)
    else if v < minInt64 then (minInt64, ⟨rest, false⟩)
    else (v, ⟨rest, !rest.isEmpty⟩)

/-- `std::cin >> deviceIndex`, openclConfigure.cpp 237; `old` is the value of the variable before. -/
def extract (s : In) (old : Int) : Int × In :=
  if s.good then
    match s.rest.dropWhile isSpace with
    | [] => (old, ⟨[], false⟩)
    | c :: cs =>
      if c = '-' then convert true (cs.takeWhile isDigit) (cs.dropWhile isDigit)
      else if c = '+' then convert false (cs.takeWhile isDigit) (cs.dropWhile isDigit)
      else convert false ((c :: cs).takeWhile isDigit) ((c :: cs).dropWhile isDigit)
  else (old, s)

/-- The loop of openclConfigure.cpp 233-238 for `n` devices: `none` if it has not ended after `fuel` passes. -/
def select (n : Nat) : Nat → In → Int → Option (Int × In)
  | 0, _, _ => none
  | fuel + 1, s, i =>
    if i < 0 ∨ i ≥ n then
      let r := extract s i
      select n fuel r.2 r.1
    else some (i, s)

/-! ### The configuration -/

/-- The surroundings of a call: the devices of each platform with the result of the test of each, the files that can be read, and whether a
compiler accepts a list of sources. Surroundings of the model, for openclConfigure.cpp 88-284. -/
structure Env where
  platforms : List (List (Dev × Bool))
  files : String → Option String
  builds : Dev → List String → Bool

/-- The global variables of src/global.cpp 17-23. `device` is `none` for the default-constructed `cl::Device`; `program` holds the sources the
program was made of, `built` whether it has been compiled. -/
structure St where
  devices : List Dev := []
  sources : List String := []
  device : Option Dev := none
  program : List String := []
  built : Bool := false
  configured : Bool := false
deriving DecidableEq

/-- `updateOpenCLDevices`, openclConfigure.cpp 88-149. -/
def updateDevices (env : Env) (s : St) : St :=
  { s with devices := s.devices ++ (env.platforms.flatten.filter (·.2)).map (·.1) }

/-- `addOpenCLKernelSource`, openclConfigure.cpp 165-167. -/
def addSource (t : String) (s : St) : St := { s with sources := s.sources ++ [t] }

/-- `addOpenCLKernelFile`, openclConfigure.cpp 169-178: a file that cannot be read counts as empty. -/
def addFile (env : Env) (p : String) (s : St) : St := addSource ((env.files p).getD "" ++ "\n\n\n") s

/-- A call that returns or throws, with the state it leaves. Surroundings of the model, for openclConfigure.cpp 88-284. -/
inductive Res where
  | ok (s : St)
  | throw (e : Exc) (s : St)
  | ub

/-- `compileOpenCLKernels`, openclConfigure.cpp 180-220, without its messages. -/
def compile (env : Env) (s : St) : Res :=
  match s.device with
  | none => .ub
  | some d =>
    let s' := { s with program := s.sources, built := env.builds d s.sources }
    if env.builds d s.sources then .ok s' else .throw .runtimeError s'

/-- The kernel files in the order of openclConfigure.cpp 260-276; `src` is `LIBRAPID_SOURCE`. -/
def kernelFiles (src : String) : List String :=
  let basePath := src ++ "/include/librapid/opencl/kernels/"
  [basePath ++ "core.cl", basePath ++ "dual.cl", basePath ++ "fill.cl", basePath ++ "negate.cl", basePath ++ "arithmetic.cl",
   basePath ++ "abs.cl", basePath ++ "floorCeilRound.cl", basePath ++ "trigonometry.cl", basePath ++ "expLogPow.cl",
   basePath ++ "transpose.cl", src ++ "/include/librapid/array/linalg/level3/gemm.cl",
   src ++ "/include/librapid/array/linalg/level2/gemv.cl", basePath ++ "activations.cl"]

/-- The choice of a device, openclConfigure.cpp 227-241. `ask` holds the input if the user is asked, and how many passes of the loop to wait. -/
def pick (asserts : Bool) (devs : List Dev) : Option (Nat × In) → Option (Out (Option Dev))
  | none => some (findFastest asserts devs)
  | some (fuel, inp) => (select devs.length fuel inp (-1)).map fun r => .ok devs[r.1.toNat]?

/-- openclConfigure.cpp 256-283: after a device has been chosen. -/
def prepare (env : Env) (src : String) (s : St) (d : Option Dev) : Res :=
  match compile env ((kernelFiles src).foldl (fun s p => addFile env p s) { s with device := d }) with
  | .ok s' => .ok { s' with configured := true }
  | r => r

/-- `configureOpenCL`, openclConfigure.cpp 222-283; `none` if it still waits for an answer. -/
def configure (asserts : Bool) (env : Env) (src : String) (ask : Option (Nat × In)) (s : St) : Option Res :=
  if asserts && s.configured then some (.throw .assertion s)
  else
    match pick asserts (updateDevices env s).devices ask with
    | none => none
    | some (.throw e) => some (.throw e (updateDevices env s))
    | some .ub => some .ub
    | some (.ok d) => some (prepare env src (updateDevices env s) d)

/-- The calls a program can make (openclConfigure.hpp 6-12). Each is made in surroundings of its own. -/
inductive Call where
  | update
  | source (t : String)
  | file (p : String)
  | compile
  | configure (ask : Option (Nat × In))

/-- One call; a call that threw leaves its state. `none`: undefined, or still waiting. Surroundings of the model, for openclConfigure.cpp
88-284. -/
def step (asserts : Bool) (src : String) (env : Env) (s : St) : Call → Option St
  | .update => some (updateDevices env s)
  | .source t => some (addSource t s)
  | .file p => some (addFile env p s)
  | .compile => match ClConfig.compile env s with
    | .ok s' => some s'
    | .throw _ s' => some s'
    | .ub => none
  | .configure ask => match ClConfig.configure asserts env src ask s with
    | some (.ok s') => some s'
    | some (.throw _ s') => some s'
    | _ => none

/-- A sequence of calls from the state at the start of the program. Surroundings of the model, for openclConfigure.cpp 88-284. -/
def steps (asserts : Bool) (src : String) : List (Env × Call) → St → Option St
  | [], s => some s
  | (env, c) :: l, s => (step asserts src env s c).bind (steps asserts src l)

/-! ### The thread that prints dots -/

/-- The lambda of openclConfigure.cpp 185-198 as far as it uses `finished` (at address (0, 0)), for `passes` passes of its loop. -/
def printer : Nat → Conc.Prog Bool Unit
  | 0 => .ret ()
  | n + 1 => .read (0, 0) fun b => if b then .ret () else printer n

/-- The main thread, openclConfigure.cpp 202-208: it writes `finished` after the build, then joins. -/
def builder : Conc.Prog Bool Unit := .write (0, 0) true (.ret ())

/-- Both after the thread has been created, openclConfigure.cpp 185. -/
def verboseStart (passes : Nat) : Conc.Config Bool := ⟨fun _ => [false], [builder, printer passes]⟩

end Verif.ClConfig
