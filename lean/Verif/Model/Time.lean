import Verif.Model.Ieee

/-!
# Time formatting

`/repo/librapid/include/librapid/utils/time.hpp` 55-83. Numbers are rational; every floating-point operation rounds with `fl`
(`id` for exact arithmetic, `rnd binary64` for `double`). Infinities and NaN are not modelled.
-/

namespace Verif.Time

/-- The units of `prefix[]`, time.hpp 61-75. -/
inductive Unt where
  | ns | us | ms | s | m | h | d | y
deriving DecidableEq, Repr

/-- `prefix[i]` with `divisor[i]`, time.hpp 61-77. -/
def table : List (Unt × ℚ) :=
  [(.ns, 1000), (.us, 1000), (.ms, 1000), (.s, 60), (.m, 60), (.h, 24), (.d, 365), (.y, 10 ^ 300)]

/-- The loop, time.hpp 78-82. -/
def loop (fl : ℚ → ℚ) : List (Unt × ℚ) → ℚ → ℚ × Unt
  | [], ns => (ns, .y)
  | (u, d) :: rest, ns => if ns < d then (ns, u) else loop fl rest (fl (ns / d))

/-- `formatTime<scale>(time)`, time.hpp 55-83. -/
def formatTime (fl : ℚ → ℚ) (scale : Int) (time : ℚ) : ℚ × Unt := loop fl table (fl (time * scale))

end Verif.Time
