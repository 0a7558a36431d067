import Verif.Basic

/-!
# Loading of CUDA kernels and choice of an OpenCL device

`/repo/librapid/src/cudaKernelProcessor.cpp` 6-38 and `/repo/librapid/src/openclConfigure.cpp` 73-86, 151-163. The compilation of the
kernels and the queries to the device are not modelled: a device is the record of what the queries return.
-/

namespace Verif.GpuSetup

/-- A file: its text, and whether the process may write to it. Files and streams of the C++ library, for src/cudaKernelProcessor.cpp 6-38
and openclConfigure.cpp 73-86. -/
structure File where
  text : String
  writable : Bool

/-- The files of which the text can be read, by path. Files and streams of the C++ library, for src/cudaKernelProcessor.cpp 6-38 and
openclConfigure.cpp 73-86. -/
abbrev Fs := String → Option File

/-- `std::fstream(path)` opens for reading and writing; the text that can then be read, cudaKernelProcessor.cpp 18-21. -/
def openRW (fs : Fs) (path : String) : Option String :=
  match fs path with
  | some f => if f.writable then some f.text else none
  | none => none

/-- A `std::stringstream`: its text, and whether it is still good. Files and streams of the C++ library, for src/cudaKernelProcessor.cpp
6-38 and openclConfigure.cpp 73-86. -/
structure Buf where
  text : String
  good : Bool
deriving DecidableEq

/-- `buffer << "..."`. Files and streams of the C++ library, for src/cudaKernelProcessor.cpp 6-38 and openclConfigure.cpp 73-86. -/
def Buf.put (b : Buf) (s : String) : Buf := if b.good then { b with text := b.text ++ s } else b

/-- `buffer << file.rdbuf()`: sets `failbit` if no character could be inserted; nothing is inserted into a stream that has failed. Files
and streams of the C++ library, for src/cudaKernelProcessor.cpp 6-38 and openclConfigure.cpp 73-86. -/
def Buf.putFile (b : Buf) (s : Option String) : Buf :=
  if b.good then
    match s with
    | some t => if t = "" then { b with good := false } else { b with text := b.text ++ t }
    | none => { b with good := false }
  else b

/-- `basePath`, cudaKernelProcessor.cpp 11. -/
def basePath (src : String) : String := src ++ "/include/librapid/cuda/kernels/"

/-- `kernelPath`, cudaKernelProcessor.cpp 17. -/
def kernelPath (src path : String) (relative : Bool) : String :=
  (if relative then basePath src ++ "/" else "") ++ path ++ ".cu"

/-- The static `std::map` from paths to texts, cudaKernelProcessor.cpp 7. -/
abbrev Cache := String → Option String

/-- `loadKernel(path, relative)`, cudaKernelProcessor.cpp 6-38. The result is the text with the new cache. -/
def loadKernel (asserts : Bool) (src : String) (fs : Fs) (cache : Cache) (path : String) (relative : Bool) : Out (String × Cache) :=
  match cache path with
  | some s => .ok (s, cache)
  | none => do
    let helper := openRW fs (basePath src ++ "/kernelHelper.cuh")
    let vectorOps := openRW fs (basePath src ++ "/vectorOps.cuh")
    let dual := openRW fs (src ++ "/include/librapid/autodiff/dual.hpp")
    let kernel := openRW fs (kernelPath src path relative)
    Out.assert asserts helper.isSome
    Out.assert asserts vectorOps.isSome
    Out.assert asserts dual.isSome
    Out.assert asserts kernel.isSome
    let b := ((((((Buf.putFile ⟨"", true⟩ helper).put "\n\n").putFile vectorOps).put "\n\n").putFile dual).put "\n\n").putFile kernel
    let s := path ++ "\n" ++ b.text
    .ok (s, fun p => if p = path then some s else cache p)

/-- A sequence of loads, with the texts they return. Files and streams of the C++ library, for src/cudaKernelProcessor.cpp 6-38 and
openclConfigure.cpp 73-86. -/
def loadAll (asserts : Bool) (src : String) (fs : Fs) : Cache → List (String × Bool) → Out (List String)
  | _, [] => .ok []
  | cache, (path, relative) :: l => do
    let (s, cache') ← loadKernel asserts src fs cache path relative
    let ss ← loadAll asserts src fs cache' l
    .ok (s :: ss)

/-- What the queries of `openclDeviceCompute` return, openclConfigure.cpp 74-78. The first three are `cl_uint`, `cl_uint`, `cl_ulong`. -/
structure Dev where
  units : Nat
  freq : Nat
  mem : Nat
  gpu : Bool
  nvidia : Bool
deriving DecidableEq, Repr

/-- `openclDeviceCompute`, openclConfigure.cpp 73-86. The product is computed in 32 bits. -/
def compute (d : Dev) : Int :=
  ((d.units * d.freq % 2 ^ 32 : Nat) : Int) + (if d.gpu then 1000000 else 0) + (if d.nvidia then 1000000 else 0) +
    ((d.mem / (1024 * 1024) : Nat) : Int)

/-- One step of the loop of `findFastestDevice`, openclConfigure.cpp 155-161. -/
def fastStep (s : Option Dev × Int) (d : Dev) : Option Dev × Int := if compute d > s.2 then (some d, compute d) else s

/-- `findFastestDevice`, openclConfigure.cpp 151-163. `none` is the default-constructed `cl::Device`, which is no device. -/
def findFastest (asserts : Bool) (l : List Dev) : Out (Option Dev) := do
  Out.assert asserts !l.isEmpty
  .ok (l.foldl fastStep (none, 0)).1

end Verif.GpuSetup
