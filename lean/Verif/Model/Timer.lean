import Verif.Model.Ieee

/-!
# Clock, `sleep` and `Timer`

`/repo/librapid/include/librapid/utils/time.hpp` 15-46 and 85-174. Numbers are rational; every floating-point operation rounds with
`fl` (`id` for exact arithmetic, `rnd binary64` for `double`). A reading of the clock is an integer number of nanoseconds, an argument
of each operation that reads it. The name and the printing of a timer are left out, except that printing shows `elapsed` and `average`.
-/

namespace Verif.Timer

/-- `now<scale>()` when the clock shows `c`, time.hpp 15-36 (not Windows). -/
def now (fl : ℚ → ℚ) (scale c : Int) : ℚ := fl (fl c / scale)

/-- The loop of `sleep`, time.hpp 44: the readings of the clock in turn. The result is the number of readings with the time not yet
over, or `none` if the list of readings ends before. `time` is the argument in nanoseconds. -/
def sleepLoop (fl : ℚ → ℚ) (start time : ℚ) : List Int → Option Nat
  | [] => none
  | c :: cs => if fl (now fl 1 c - start) < fl (time - 0) then (sleepLoop fl start time cs).map (· + 1) else some 0

/-- `sleep<scale>(time)`, time.hpp 40-46: `c0` is the first reading. -/
def sleep (fl : ℚ → ℚ) (scale : Int) (time : ℚ) (c0 : Int) (cs : List Int) : Option Nat :=
  sleepLoop fl (now fl 1 c0) (fl (time * scale)) cs

/-- `Timer`, time.hpp 167-173, without the name. -/
structure Timer where
  start : ℚ
  stop : ℚ
  iters : Nat
  target : ℚ
deriving DecidableEq

/-- The constructor, time.hpp 93-94 with the default initialisers 172-173. -/
def Timer.new (fl : ℚ → ℚ) (c : Int) : Timer := ⟨now fl 1 c, -1, 0, 0⟩

/-- The operations that change a timer. For utils/time.hpp 85-174. -/
inductive Op where
  | setTargetTime (scale : Int) (time : ℚ)
  | start
  | stop
  | reset
  | isRunning
deriving DecidableEq

/-- time.hpp 101-122, 141-144 (`isRunning` without its result), each with the clock showing `c`. -/
def Timer.step (fl : ℚ → ℚ) (t : Timer) : Op × Int → Timer
  | (.setTargetTime scale time, c) => { t with iters := 0, target := fl (time * scale), start := now fl 1 c }
  | (.start, c) => { t with start := now fl 1 c, stop := -1 }
  | (.stop, c) => { t with stop := now fl 1 c }
  | (.reset, c) => { t with start := now fl 1 c, stop := -1 }
  | (.isRunning, _) => { t with iters := t.iters + 1 }

/-- A history of operations, the first one first. For utils/time.hpp 85-174. -/
def Timer.run (fl : ℚ → ℚ) (t : Timer) (h : List (Op × Int)) : Timer := h.foldl (Timer.step fl) t

/-- The result of `isRunning()`, time.hpp 143. -/
def Timer.running (fl : ℚ → ℚ) (t : Timer) (c : Int) : Bool := decide (fl (now fl 1 c - t.start) < t.target)

/-- `elapsed<scale>()`, time.hpp 127-131. -/
def Timer.elapsed (fl : ℚ → ℚ) (t : Timer) (scale c : Int) : ℚ :=
  if t.stop = -1 then fl (fl (now fl 1 c - t.start) / scale) else fl (fl (t.stop - t.start) / scale)

/-- `average<scale>()`, time.hpp 136-139; `none` for the NaN or infinity of a division by zero. -/
def Timer.average (fl : ℚ → ℚ) (t : Timer) (scale c : Int) : Option ℚ :=
  if t.iters = 0 then none else some (fl (t.elapsed fl scale c / t.iters))

/-- `while (timer.isRunning()) { ... }` (docs/source/topics/arrayIterators.md 212-216): the list has the reading of the clock at each
call. The result is the number of times the body has run with the timer after the loop, or `none` if the readings end before. -/
def Timer.loop (fl : ℚ → ℚ) (t : Timer) : List Int → Option (Nat × Timer)
  | [] => none
  | c :: cs =>
    if t.running fl c then ((t.step fl (.isRunning, c)).loop fl cs).map fun p => (p.1 + 1, p.2)
    else some (0, t.step fl (.isRunning, c))

end Verif.Timer
