import Verif.Model.Shape
import Verif.Spec.Shape
import Mathlib.Algebra.Order.Floor.Ring
import Mathlib.Algebra.Order.Field.Basic

/-!
# Model of the pseudo-constructors (array/pseudoConstructors.hpp, array/fill.hpp)

Floating-point arguments and elements are elements of an ordered field `K` with a floor: rounding is not modelled. Integer
arguments are modelled in C++'s mixed arithmetic: the loop counter is a `size_t`, so `start + i * step` with integer `start` and
`step` is computed modulo 2^64 and converted to the scalar type afterwards; `cast` is that conversion.
-/

namespace Verif.PseudoM

open ShapeM Grid

/-- The new array's elements, uninitialised. For array/pseudoConstructors.hpp and array/arrayContainer.hpp 364-390. -/
def fresh {α : Type} (junk : Nat → α) (n : Nat) : List α := (List.range n).map junk

/-- `result.storage()[i] = f(i)`, through the storage's `operator[]` which asserts the bound (storage.hpp 614-624). -/
def put {α : Type} (asserts : Bool) (f : Nat → α) (i : Nat) (data : List α) : Out (List α) :=
  if asserts && !(decide (i < data.length)) then .throw .assertion else writeAt data (i : Nat) (f i)

/-- `for (size_t i = 0; i < n; i++) result.storage()[i] = f(i)`. -/
def fillLoop {α : Type} (asserts : Bool) (junk : Nat → α) (n : Nat) (f : Nat → α) : Out (List α) :=
  forUp 0 n (put asserts f) (fresh junk n)

/-- pseudoConstructors.hpp 112-118 `ordered(shape)`. -/
def ordered {α : Type} (asserts : Bool) (junk : Nat → α) (cast : Nat → α) (s : AnyShape) : Out (AnyShape × List α) := do
  let data ← fillLoop asserts junk (count (ext s)) cast
  return (s, data)

/-- pseudoConstructors.hpp 49-58, 79-88 `zeros`, `ones` and fill.hpp 5-9 `fill`: an array of the shape filled with a value. -/
def filled {α : Type} (asserts : Bool) (junk : Nat → α) (s : AnyShape) (v : α) : Out (AnyShape × List α) := do
  let data ← fillLoop asserts junk (count (ext s)) (fun _ => v)
  return (s, data)

section Float

variable {K : Type} [Field K] [LinearOrder K] [FloorRing K]

/-- `(int64_t)x` for a non-negative floating `x`: undefined when the truncation does not fit. -/
def toInt64 (x : K) : Out Int := if ⌊x⌋ < 2 ^ 63 then .ok ⌊x⌋ else .ub

/-- pseudoConstructors.hpp 142-149: the rest of `arange`, after the checks. The shape stores the length as `uint32_t`. -/
def arangeBody (asserts : Bool) (junk : Nat → K) (start step len : K) : Out (List Nat × List K) := do
  let n ← toInt64 |len|
  let data ← fillLoop asserts junk (u32 n) (fun i => start + i * step)
  return ([u32 n], data)

/-- pseudoConstructors.hpp 135-150 `arange(start, stop, step)` with floating arguments. A zero step gives an infinity or a NaN,
whose conversion to `int64_t` is undefined. -/
def arange (asserts : Bool) (junk : Nat → K) (start stop step : K) : Out (List Nat × List K) :=
  if asserts && decide (step = 0) then .throw .invalidArgument
  else if step = 0 then .ub
  else if asserts && !(decide (0 < (stop - start) / step)) then .throw .invalidArgument
  else arangeBody asserts junk start step ((stop - start) / step)

/-- pseudoConstructors.hpp 152-163 `arange(start, stop)`. -/
def arange2 (asserts : Bool) (junk : Nat → K) (start stop : K) : Out (List Nat × List K) :=
  if asserts && !(decide (0 < stop - start)) then .throw .invalidArgument
  else arangeBody asserts junk start 1 (stop - start)

/-- pseudoConstructors.hpp 165-170 `arange(stop)`. -/
def arange1 (asserts : Bool) (junk : Nat → K) (stop : K) : Out (List Nat × List K) := arangeBody asserts junk 0 1 stop

/-- pseudoConstructors.hpp 200: one element of `linspace`; `none` stands for the NaN or infinity a zero divisor gives. -/
def linValue (start stop den : K) (i : Nat) : Option K :=
  if den = 0 then none else some (start + (stop - start) * i / den)

/-- pseudoConstructors.hpp 188-203 `linspace` for a floating scalar type. -/
def linspace (asserts : Bool) (junk : Nat → Option K) (start stop : K) (num : Int) (includeEnd : Bool) :
    Out (List Nat × List (Option K)) := do
  if asserts && !(decide (0 < num)) then .throw .invalidArgument
  else
    let den : K := ((num - (if includeEnd then 1 else 0) : Int) : K)
    let data ← fillLoop asserts junk (u32 num) (linValue start stop den)
    return ([u32 num], data)

end Float

/-- The value of `start + i * step` when `i` is a `size_t` and the others are integers: computed modulo 2^64. -/
def unsignedValue (start step : Int) (i : Nat) : Nat := ((start + i * step) % 2 ^ 64).toNat

/-- pseudoConstructors.hpp 135-150 `arange(start, stop, step)` with `int64_t` arguments (that do not overflow). Integer division
truncates; a zero step divides by zero. -/
def arangeInt {α : Type} (asserts : Bool) (junk : Nat → α) (cast : Nat → α) (start stop step : Int) : Out (List Nat × List α) := do
  if asserts && decide (step = 0) then .throw .invalidArgument
  else if step = 0 then .ub
  else if asserts && !(decide (0 < (stop - start).tdiv step)) then .throw .invalidArgument
  else
    let n := u32 ((stop - start).tdiv step).natAbs
    let data ← fillLoop asserts junk n (fun i => cast (unsignedValue start step i))
    return ([n], data)

/-- pseudoConstructors.hpp 152-163 `arange(start, stop)` with `int64_t` arguments. -/
def arangeInt2 {α : Type} (asserts : Bool) (junk : Nat → α) (cast : Nat → α) (start stop : Int) : Out (List Nat × List α) := do
  if asserts && !(decide (0 < stop - start)) then .throw .invalidArgument
  else
    let n := u32 (stop - start).natAbs
    let data ← fillLoop asserts junk n (fun i => cast (unsignedValue start 1 i))
    return ([n], data)

/-- `static_cast<int64_t>` of a 64-bit unsigned value. -/
def castInt64 (v : Nat) : Int := if v < 2 ^ 63 then v else (v : Int) - 2 ^ 64

/-- `static_cast<double>` of a 64-bit unsigned value, up to rounding: the number itself. -/
def castReal (v : Nat) : Int := v

end Verif.PseudoM
