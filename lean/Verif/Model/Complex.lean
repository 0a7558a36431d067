import Mathlib.Data.Real.Basic

/-!
# Complex numbers: construction, assignment and arithmetic

`/repo/librapid/include/librapid/math/complex.hpp` 421-1042. The components are real numbers: rounding, overflow, signed zeros and
infinities are not modelled. A result with a NaN or an infinity (division by zero) is `none`.
Conversions between component types are a function on the components. A reference argument can refer to a component of the target
itself; the in-place operators are modelled statement by statement, so that such an argument is read when the code reads it.
-/

namespace Verif.Cx

/-- `Complex<T>`, complex.hpp 421-777: `m_val[RE]`, `m_val[IM]`. -/
@[ext] structure Cx (K : Type) where
  re : K
  im : K
deriving DecidableEq

/-- A `const T &` argument of a member function: some other object, or a component of the target. Arguments and scalars of the model, for
complex.hpp 421-1042. -/
inductive Ref (K : Type) where
  | val (v : K)
  | re
  | im

/-- Reading the reference while the target holds `z`. Arguments and scalars of the model, for complex.hpp 421-1042. -/
def Ref.get {K : Type} (z : Cx K) : Ref K → K
  | .val v => v
  | .re => z.re
  | .im => z.im

/-- A `const Complex<T> &` argument: some other object, or the target. Arguments and scalars of the model, for complex.hpp 421-1042. -/
inductive CRef (K : Type) where
  | val (w : Cx K)
  | self

/-- Reading the reference while the target holds `z`. Arguments and scalars of the model, for complex.hpp 421-1042. -/
def CRef.get {K : Type} (z : Cx K) : CRef K → Cx K
  | .val w => w
  | .self => z

section Ring

variable {K : Type} [Add K] [Sub K] [Mul K] [Neg K] [Zero K]

/-- `Complex()`, 430. -/
def ctor0 : Cx K := ⟨0, 0⟩

/-- `Complex(const R &realVal)`, 439-440. -/
def ctor1 (x : K) : Cx K := ⟨x, 0⟩

/-- `Complex(const R &, const I &)`, 451-452. -/
def ctor2 (x y : K) : Cx K := ⟨x, y⟩

/-- `Complex(const Complex<Other> &)`, 465-466; `conv` converts a component. -/
def ctorFrom {L : Type} (conv : L → K) (w : Cx L) : Cx K := ⟨conv w.re, conv w.im⟩

/-- `operator=(const Complex<T> &)`, 479-484. -/
def assign (w : CRef K) (z : Cx K) : Cx K :=
  match w with
  | .self => z
  | .val _ =>
    let z := { z with re := (w.get z).re }
    { z with im := (w.get z).im }

/-- `operator=(const T &)`, 554-558. -/
def assignS (x : Ref K) (z : Cx K) : Cx K :=
  let z := { z with re := x.get z }
  { z with im := 0 }

/-- `operator=(const Complex<Other> &)`, 568-573: both parts from the real part of the argument. -/
def assignFrom {L : Type} (conv : L → K) (w : Cx L) (z : Cx K) : Cx K :=
  let z := { z with re := conv w.re }
  { z with im := conv w.re }

/-- `operator+=(const T &)`, 581-584. -/
def addAssignS (x : Ref K) (z : Cx K) : Cx K := { z with re := z.re + x.get z }

/-- `operator-=(const T &)`, 592-595. -/
def subAssignS (x : Ref K) (z : Cx K) : Cx K := { z with re := z.re - x.get z }

/-- `operator*=(const T &)`, 603-607: the argument is read again for the second component. -/
def mulAssignS (x : Ref K) (z : Cx K) : Cx K :=
  let z := { z with re := z.re * x.get z }
  { z with im := z.im * x.get z }

/-- `_add`, 709-712. -/
def addAssign (w : CRef K) (z : Cx K) : Cx K :=
  let z := { z with re := z.re + (w.get z).re }
  { z with im := z.im + (w.get z).im }

/-- `_sub`, 718-721. -/
def subAssign (w : CRef K) (z : Cx K) : Cx K :=
  let z := { z with re := z.re - (w.get z).re }
  { z with im := z.im - (w.get z).im }

/-- `_mul`, 727-734. -/
def mulAssign (w : CRef K) (z : Cx K) : Cx K :=
  let otherReal := (w.get z).re
  let otherImag := (w.get z).im
  let tmp := z.re * otherReal - z.im * otherImag
  let z := { z with im := z.re * otherImag + z.im * otherReal }
  { z with re := tmp }

/-- Unary minus, 790-793. -/
def neg (z : Cx K) : Cx K := ⟨-z.re, -z.im⟩

/-- `Complex + Complex`, 806-811. -/
def add (l r : Cx K) : Cx K := addAssign (.val r) (ctor2 l.re l.im)
/-- `Complex + scalar`, 824-829. -/
def addS (l : Cx K) (r : K) : Cx K := { l with re := l.re + r }
/-- `scalar + Complex`, 842-847. -/
def sAdd (l : K) (r : Cx K) : Cx K := addAssign (.val r) (ctor1 l)
/-- `Complex - Complex`, 861-866. -/
def sub (l r : Cx K) : Cx K := subAssign (.val r) (ctor2 l.re l.im)
/-- `Complex - scalar`, 879-884. -/
def subS (l : Cx K) (r : K) : Cx K := subAssignS (.val r) l
/-- `scalar - Complex`, 898-903. -/
def sSub (l : K) (r : Cx K) : Cx K := subAssign (.val r) (ctor1 l)
/-- `Complex * Complex`, 916-921. -/
def mul (l r : Cx K) : Cx K := mulAssign (.val r) (ctor2 l.re l.im)
/-- `Complex * scalar`, 935-940. -/
def mulS (l : Cx K) (r : K) : Cx K := mulAssignS (.val r) l
/-- `scalar * Complex`, 954-959. -/
def sMul (l : K) (r : Cx K) : Cx K := mulAssign (.val r) (ctor1 l)

/-- `Complex == Complex`, 1024-1027. -/
def beq [DecidableEq K] (l r : Cx K) : Bool := l.re = r.re && l.im = r.im
/-- `Complex == scalar`, 1040-1043. -/
def beqS [DecidableEq K] (l : Cx K) (r : K) : Bool := l.re = r && l.im = 0

end Ring

/-- A division of scalars: `none` for an infinity or a NaN. Arguments and scalars of the model, for complex.hpp 421-1042. -/
abbrev Div? (K : Type) := K → K → Option K

section Div

variable {K : Type} [Add K] [Sub K] [Mul K] [Neg K] [Zero K] [LT K] [DecidableLT K] [DecidableEq K]

/-- `operator/=(const T &)`, 615-619: the argument is read again for the second component. -/
def divAssignS (dv : Div? K) (x : Ref K) (z : Cx K) : Option (Cx K) := do
  let r ← dv z.re (x.get z)
  let z := { z with re := r }
  let i ← dv z.im (x.get z)
  pure { z with im := i }

/-- `x < 0 ? T(-x) : T(+x)`, 747-749. -/
def absT (x : K) : K := if x < 0 then -x else x

/-- 750-761: the real part of the divisor dominates. -/
def divByReal (dv : Div? K) (otherReal otherImag : K) (z : Cx K) : Option (Cx K) := do
  let wr ← dv otherImag otherReal
  let wd := otherReal + wr * otherImag
  if wd = 0 then none
  else
    let tmp ← dv (z.re + z.im * wr) wd
    let i ← dv (z.im - z.re * wr) wd
    pure ⟨tmp, i⟩

/-- 765-776: the imaginary part of the divisor dominates. -/
def divByImag (dv : Div? K) (otherReal otherImag : K) (z : Cx K) : Option (Cx K) := do
  let wr ← dv otherReal otherImag
  let wd := otherImag + wr * otherReal
  if wd = 0 then none
  else
    let tmp ← dv (z.re * wr + z.im) wd
    let i ← dv (z.im * wr - z.re) wd
    pure ⟨tmp, i⟩

/-- `_div`, 740-777; the argument is read at the beginning. -/
def divAssign (dv : Div? K) (w : CRef K) (z : Cx K) : Option (Cx K) :=
  let otherReal := (w.get z).re
  let otherImag := (w.get z).im
  if absT otherImag < absT otherReal then divByReal dv otherReal otherImag z
  else if otherImag = 0 then none
  else divByImag dv otherReal otherImag z

/-- `Complex / Complex`, 972-977. -/
def div (dv : Div? K) (l r : Cx K) : Option (Cx K) := divAssign dv (.val r) (ctor2 l.re l.im)
/-- `Complex / scalar`, 991-996. -/
def divS (dv : Div? K) (l : Cx K) (r : K) : Option (Cx K) := divAssignS dv (.val r) l
/-- `scalar / Complex`, 1010-1015. -/
def sDiv (dv : Div? K) (l : K) (r : Cx K) : Option (Cx K) := divAssign dv (.val r) (ctor1 l)

end Div

/-- Exact division of real numbers. Arguments and scalars of the model, for complex.hpp 421-1042. -/
noncomputable def rdiv : Div? ℝ := fun a b => if b = 0 then none else some (a / b)

/-- Division of an integral component type: towards zero. Arguments and scalars of the model, for complex.hpp 421-1042. -/
def idiv : Div? ℤ := fun a b => if b = 0 then none else some (a.tdiv b)

end Verif.Cx
