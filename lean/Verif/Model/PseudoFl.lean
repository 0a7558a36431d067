import Verif.Model.Pseudo
import Verif.Model.Fl
import Mathlib.Analysis.SpecialFunctions.Log.Basic

/-!
# Model of linspace, arange and logspace (array/pseudoConstructors.hpp) with rounding

`linspace` and `arange` with all arguments and the elements of one floating-point type, every operation rounded. `logspace` over the
real numbers (the rounding of `log` and `exp` is up to the C library).
-/

namespace Verif.PseudoM

open ShapeM Grid Ieee

variable {f : Fmt}

/-- pseudoConstructors.hpp 200: one element of `linspace`; `none` stands for the NaN or infinity a zero divisor gives. -/
def linValueFl (start stop den : Fl f) (i : Nat) : Option (Fl f) :=
  if den = 0 then none else some (start + (stop - start) * .round f i / den)

/-- pseudoConstructors.hpp 188-203 `linspace`. -/
def linspaceFl (asserts : Bool) (junk : Nat → Option (Fl f)) (start stop : Fl f) (num : Int) (includeEnd : Bool) :
    Out (List Nat × List (Option (Fl f))) := do
  if asserts && !(decide (0 < num)) then .throw .invalidArgument
  else
    let den : Fl f := .round f ((num - (if includeEnd then 1 else 0) : Int) : ℚ)
    let data ← fillLoop asserts junk (u32 num) (linValueFl start stop den)
    return ([u32 num], data)

/-- pseudoConstructors.hpp 144-149: the rest of `arange`, after the checks. The shape stores the length as `uint32_t`; the counter is
converted to the floating-point type. -/
def arangeBodyFl (asserts : Bool) (junk : Nat → Fl f) (start step len : Fl f) : Out (List Nat × List (Fl f)) := do
  let n ← toInt64 |len.val|
  let data ← fillLoop asserts junk (u32 n) (fun i => start + .round f i * step)
  return ([u32 n], data)

/-- pseudoConstructors.hpp 135-150 `arange(start, stop, step)`. A zero step gives an infinity or a NaN, whose conversion to `int64_t` is
undefined. -/
def arangeFl (asserts : Bool) (junk : Nat → Fl f) (start stop step : Fl f) : Out (List Nat × List (Fl f)) :=
  if asserts && decide (step = 0) then .throw .invalidArgument
  else if step = 0 then .ub
  else if asserts && !(decide (0 < ((stop - start) / step).val)) then .throw .invalidArgument
  else arangeBodyFl asserts junk start step ((stop - start) / step)

/-- What `::librapid::log` returns. math/coreMath.hpp 242-250, as used by array/pseudoConstructors.hpp. -/
inductive LogV
  | nan
  | negInf
  | real (x : ℝ)

/-- `::librapid::log` of a real number. math/coreMath.hpp 242-250, as used by array/pseudoConstructors.hpp. -/
noncomputable def realLog (x : ℝ) : LogV := if 0 < x then .real (Real.log x) else if x = 0 then .negInf else .nan

/-- pseudoConstructors.hpp 218-220: one element of `logspace`; `none` stands for NaN. An infinity times a zero index is NaN, `exp` of the
negative infinity is zero. -/
noncomputable def logValue (lower upper : LogV) (den : ℝ) (i : Nat) : Option ℝ :=
  match lower, upper with
  | .real a, .real b => if den = 0 then none else some (Real.exp (a + (b - a) * i / den))
  | .real _, .negInf => if den = 0 ∨ i = 0 then none else some 0
  | _, _ => none

/-- pseudoConstructors.hpp 205-224 `logspace`, in exact arithmetic. -/
noncomputable def logspace (asserts : Bool) (junk : Nat → Option ℝ) (start stop : ℝ) (num : Int) (includeEnd : Bool) :
    Out (List Nat × List (Option ℝ)) :=
  if asserts && !(decide (0 < num)) then .throw .invalidArgument
  else do
    let data ← fillLoop asserts junk (u32 num)
      (logValue (realLog start) (realLog stop) ((num - (if includeEnd then 1 else 0) : Int) : ℝ))
    return ([u32 num], data)

end Verif.PseudoM
