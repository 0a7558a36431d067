import Verif.Basic

/-!
The number of threads: `setNumThreads`, `getNumThreads` (src/global.cpp 52-74, bound to Python in
bindings/generators/boilerplate.py 65-71) and the loops that use it (array/arrayContainer.hpp 496-501, array/assignOps.hpp
175-190, 238-253, array/fill.hpp 18-28, 40-50, array/linalg/transpose.hpp 242-256, 277-303, 325-345,
array/fourierTransform.hpp 43-59).

Not modelled: the threads that BLAS libraries, pocketfft and the GPU backends start by themselves, and the environment variables
(src/global.cpp 42-50), which an OpenMP runtime reads only when it starts. What the loops compute is modelled elsewhere (Expr,
FillRandom, Transpose).
-/

namespace Verif.Threads

/-- The build: OpenMP (CMakeLists.txt 251-266), OpenBLAS as the BLAS library (src/global.cpp 56), FFTW
(array/fourierTransform.hpp 42), `LIBRAPID_OPTIMISE_SMALL_ARRAYS` (CMakeLists.txt 368-370). -/
structure Build where
  openmp : Bool
  openblas : Bool
  fftw : Bool
  small : Bool
deriving DecidableEq, Repr

/-- `(int)numThreads` of a `size_t` (src/global.cpp 57-64 and every `num_threads`): modulo 2^32, as a signed number. -/
def toInt (n : Nat) : Int := if n % 2 ^ 32 < 2 ^ 31 then (n % 2 ^ 32 : Nat) else (n % 2 ^ 32 : Nat) - 2 ^ 32

/-- `global::numThreads` (src/global.cpp 11), `global::multithreadThreshold` (src/global.cpp 8), and the team size OpenMP uses
where no `num_threads` is given (its internal variable nthreads-var). -/
structure St where
  numThreads : Nat
  threshold : Nat
  omp : Nat
deriving DecidableEq, Repr

/-- The state before the first call (src/global.cpp 8-11); `cores` is OpenMP's own default. -/
def start (cores : Nat) : St := ⟨8, 5000, cores⟩

/-- OpenMP allows only positive team sizes, in `num_threads` and in `omp_set_num_threads` (OpenMP 4.5, 2.5 and 3.2.1). The
uses are array/assignOps.hpp 176, 187, 239, 250, array/linalg/transpose.hpp 245, 280, 328, src/global.cpp 60. -/
def positive (k : Int) : Out Nat := if 0 < k then .ok k.toNat else .ub

/-- `setNumThreads` (src/global.cpp 52-72): OpenMP is told only where the BLAS library is OpenBLAS. -/
def setNumThreads (b : Build) (n : Nat) (s : St) : Out St :=
  if b.openblas && b.openmp then (positive (toInt n)).bind fun k => .ok { s with numThreads := n, omp := k }
  else .ok { s with numThreads := n }

/-- The operations that run loops on several threads: assigning an expression of `len` elements, filling an array of `len`
elements with random numbers (uniform or Gaussian), transposing a matrix, a Fourier transform (array/arrayContainer.hpp
487-504, array/fill.hpp 11-51, array/linalg/transpose.hpp 236-350, array/fourierTransform.hpp 8-60). -/
inductive Op
  | assign (len : Nat)
  | fillRandom (len : Nat)
  | fillGaussian (len : Nat)
  | transpose (rows cols : Nat)
  | rfft
deriving DecidableEq, Repr

/-- A region with `num_threads((int)numThreads)` (array/assignOps.hpp 175-176, array/linalg/transpose.hpp 244-245); without
OpenMP the pragma is ignored. -/
def clause (b : Build) (s : St) : Out Nat := if b.openmp then positive (toInt s.numThreads) else .ok 1

/-- A region without `num_threads` (array/fill.hpp 21, 43). -/
def noClause (b : Build) (s : St) : Out Nat := if b.openmp then .ok s.omp else .ok 1

/-- `assign` (array/arrayContainer.hpp 496-501). -/
def assignTeam (b : Build) (s : St) (len : Nat) : Out Nat :=
  if !b.small && decide (s.threshold < len) && decide (1 < s.numThreads) then clause b s else .ok 1

/-- `fillRandom` and `fillRandomGaussian` (array/fill.hpp 18-21, 40-43). -/
def fillTeam (b : Build) (s : St) (len : Nat) : Out Nat :=
  if decide (s.numThreads ≠ 1) && decide (s.threshold < len) then noClause b s else .ok 1

/-- `transposeImpl` (array/linalg/transpose.hpp 242-245, 277-280, 325-328): the number of threads is not looked at. -/
def transposeTeam (b : Build) (s : St) (rows cols : Nat) : Out Nat :=
  if !b.small && decide (s.threshold < rows * cols) then clause b s else .ok 1

/-- `rfft` with FFTW (array/fourierTransform.hpp 45, 54); other libraries are counted as one thread. FFTW allows only positive
numbers too. -/
def rfftTeam (b : Build) (s : St) : Out Nat := if b.fftw then positive (toInt s.numThreads) else .ok 1

/-- The largest team an operation may get (array/arrayContainer.hpp 496-501, array/fill.hpp 18-50, array/linalg/transpose.hpp
242-345, array/fourierTransform.hpp 43-59). -/
def team (b : Build) (s : St) : Op → Out Nat
  | .assign len => assignTeam b s len
  | .fillRandom len => fillTeam b s len
  | .fillGaussian len => fillTeam b s len
  | .transpose r c => transposeTeam b s r c
  | .rfft => rfftTeam b s

/-- What a program does: set or ask for the number of threads, set the threshold (core/global.hpp 15), run an operation. The
number beside an operation is how many threads the runtime would give it: it may give fewer than asked for, never more. -/
inductive Call
  | set (n : Nat)
  | get
  | threshold (t : Nat)
  | run (op : Op) (willing : Nat)
deriving DecidableEq, Repr

/-- What is observed of a call (src/global.cpp 52-74, array/assignOps.hpp 175-190): nothing, the number reported, the number of
threads used. -/
inductive Ev
  | done
  | value (n : Nat)
  | threads (k : Nat)
deriving DecidableEq, Repr

/-- The threads used out of a team of at most `t` (array/assignOps.hpp 175-176): at least one. -/
def used (t willing : Nat) : Nat := max 1 (min t willing)

/-- One call (src/global.cpp 52-74, core/global.hpp 15, array/arrayContainer.hpp 487-504). -/
def step (b : Build) (s : St) : Call → Out (Ev × St)
  | .set n => (setNumThreads b n s).bind fun s' => .ok (.done, s')
  | .get => .ok (.value s.numThreads, s)
  | .threshold t => .ok (.done, { s with threshold := t })
  | .run op w => (team b s op).bind fun t => .ok (.threads (used t w), s)

/-- A program (src/global.cpp 52-74). -/
def run (b : Build) : St → List Call → Out (List Ev)
  | _, [] => .ok []
  | s, c :: cs => (step b s c).bind fun r => (run b r.2 cs).bind fun es => .ok (r.1 :: es)

end Verif.Threads
