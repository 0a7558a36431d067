import Mathlib.Data.NNReal.Basic
import Mathlib.Analysis.SpecialFunctions.Arsinh
import Mathlib.Analysis.SpecialFunctions.Complex.Arg
import Mathlib.Analysis.SpecialFunctions.Trigonometric.DerivHyp

/-!
# Complex numbers with infinite components

`/repo/librapid/include/librapid/math/complex.hpp` 316-412, 700-777, 930-1015, 1126-1540, 1653-1860, 1869-2021 on numbers that may be
infinite, NaN or a zero with a sign.

Simplifications: a finite number is a sign and a real magnitude; operations on finite numbers are exact and do not overflow. The sign bit
of a NaN is taken as clear. Where all components are finite and the code uses a formula of its own (the other files are about those), the
result is a parameter (`Fin`) that the theorems quantify over. The elementary functions of the C++ library have the special values that
Annex F of ISO C prescribes.
-/

namespace Verif.CxInf

open scoped NNReal

noncomputable section

/-- A floating point number. Scalar arithmetic of IEEE 754 and Annex F of the C standard, for complex.hpp 316-2021. -/
inductive X where
  | nan
  | inf (neg : Bool)
  | fin (neg : Bool) (mag : ℝ≥0)

namespace X

/-- A real number; zero is positive. Scalar arithmetic of IEEE 754 and Annex F of the C standard, for complex.hpp 316-2021. -/
def ofReal (r : ℝ) : X := open Classical in .fin (decide (r < 0)) (Real.nnabs r)

/-- The value of a finite number. Scalar arithmetic of IEEE 754 and Annex F of the C standard, for complex.hpp 316-2021. -/
def val (n : Bool) (m : ℝ≥0) : ℝ := if n then -(m : ℝ) else m

/-- Positive zero. Scalar arithmetic of IEEE 754 and Annex F of the C standard, for complex.hpp 316-2021. -/
def zero : X := .fin false 0
/-- One. Scalar arithmetic of IEEE 754 and Annex F of the C standard, for complex.hpp 316-2021. -/
def one : X := .fin false 1
/-- Positive infinity. Scalar arithmetic of IEEE 754 and Annex F of the C standard, for complex.hpp 316-2021. -/
def pinf : X := .inf false

/-- The sign bit (memUtils.hpp 88-114). -/
def signBit : X → Bool
  | nan => false
  | inf n => n
  | fin n _ => n

/-- `-x`. Scalar arithmetic of IEEE 754 and Annex F of the C standard, for complex.hpp 316-2021. -/
def neg : X → X
  | nan => nan
  | inf n => inf (!n)
  | fin n m => fin (!n) m

/-- `|x|`. Scalar arithmetic of IEEE 754 and Annex F of the C standard, for complex.hpp 316-2021. -/
def abs : X → X
  | nan => nan
  | inf _ => inf false
  | fin _ m => fin false m

/-- `copySign` (memUtils.hpp 69-82) on fundamental types. -/
def copySign (x s : X) : X := match x with
  | nan => nan
  | inf _ => inf s.signBit
  | fin _ m => fin s.signBit m

/-- `isnan`. Scalar arithmetic of IEEE 754 and Annex F of the C standard, for complex.hpp 316-2021. -/
def isNaN : X → Bool
  | nan => true
  | _ => false

/-- `isinf`. Scalar arithmetic of IEEE 754 and Annex F of the C standard, for complex.hpp 316-2021. -/
def isInf : X → Bool
  | inf _ => true
  | _ => false

/-- `isfinite`. Scalar arithmetic of IEEE 754 and Annex F of the C standard, for complex.hpp 316-2021. -/
def isFinite : X → Bool
  | fin _ _ => true
  | _ => false

/-- `x == 0` -/
def isZero : X → Prop
  | fin _ m => m = 0
  | _ => False

/-- `x < y`. Scalar arithmetic of IEEE 754 and Annex F of the C standard, for complex.hpp 316-2021. -/
def lt : X → X → Prop
  | nan, _ => False
  | _, nan => False
  | inf n, inf n' => n = true ∧ n' = false
  | inf n, fin _ _ => n = true
  | fin _ _, inf n => n = false
  | fin n m, fin n' m' => val n m < val n' m'

/-- The sum of finite numbers: a zero is negative only if both are. Scalar arithmetic of IEEE 754 and Annex F of the C standard, for
complex.hpp 316-2021. -/
def addFin (n : Bool) (m : ℝ≥0) (n' : Bool) (m' : ℝ≥0) : X := open Classical in
  if val n m + val n' m' = 0 then .fin (n && n') 0 else ofReal (val n m + val n' m')

/-- `x + y`. Scalar arithmetic of IEEE 754 and Annex F of the C standard, for complex.hpp 316-2021. -/
def add : X → X → X
  | nan, _ => nan
  | _, nan => nan
  | inf n, inf n' => if n = n' then inf n else nan
  | inf n, fin _ _ => inf n
  | fin _ _, inf n => inf n
  | fin n m, fin n' m' => addFin n m n' m'

/-- `x - y`. Scalar arithmetic of IEEE 754 and Annex F of the C standard, for complex.hpp 316-2021. -/
def sub (x y : X) : X := add x (neg y)

/-- `x * y`. Scalar arithmetic of IEEE 754 and Annex F of the C standard, for complex.hpp 316-2021. -/
def mul : X → X → X
  | nan, _ => nan
  | _, nan => nan
  | inf n, inf n' => inf (n != n')
  | inf n, fin n' m => open Classical in if m = 0 then nan else inf (n != n')
  | fin n m, inf n' => open Classical in if m = 0 then nan else inf (n != n')
  | fin n m, fin n' m' => fin (n != n') (m * m')

/-- `x / y`. Scalar arithmetic of IEEE 754 and Annex F of the C standard, for complex.hpp 316-2021. -/
def div : X → X → X
  | nan, _ => nan
  | _, nan => nan
  | inf _, inf _ => nan
  | inf n, fin n' _ => inf (n != n')
  | fin n _, inf n' => fin (n != n') 0
  | fin n m, fin n' m' => open Classical in
    if m' = 0 then (if m = 0 then nan else inf (n != n')) else fin (n != n') (m / m')

/-- An odd function of the finite numbers with limits at the infinities. Scalar arithmetic of IEEE 754 and Annex F of the C standard, for
complex.hpp 316-2021. -/
def odd (f : ℝ → ℝ) (lim : Bool → X) : X → X
  | nan => nan
  | inf n => lim n
  | fin n m => mul (fin n 1) (ofReal (f m))

/-- An even function of the finite numbers with the limit at the infinities. Scalar arithmetic of IEEE 754 and Annex F of the C standard,
for complex.hpp 316-2021. -/
def even (f : ℝ → ℝ) (lim : X) : X → X
  | nan => nan
  | inf _ => lim
  | fin _ m => ofReal (f m)

/-- `std::sin`. Scalar arithmetic of IEEE 754 and Annex F of the C standard, for complex.hpp 316-2021. -/
def sin : X → X := odd Real.sin fun _ => nan
/-- `std::cos`. Scalar arithmetic of IEEE 754 and Annex F of the C standard, for complex.hpp 316-2021. -/
def cos : X → X := even Real.cos nan
/-- `std::tan`. Scalar arithmetic of IEEE 754 and Annex F of the C standard, for complex.hpp 316-2021. -/
def tan : X → X := odd Real.tan fun _ => nan
/-- `std::sinh`. Scalar arithmetic of IEEE 754 and Annex F of the C standard, for complex.hpp 316-2021. -/
def sinh : X → X := odd Real.sinh fun n => inf n
/-- `std::cosh`. Scalar arithmetic of IEEE 754 and Annex F of the C standard, for complex.hpp 316-2021. -/
def cosh : X → X := even Real.cosh pinf
/-- `std::asinh`. Scalar arithmetic of IEEE 754 and Annex F of the C standard, for complex.hpp 316-2021. -/
def asinh : X → X := odd Real.arsinh fun n => inf n

/-- `std::exp`. Scalar arithmetic of IEEE 754 and Annex F of the C standard, for complex.hpp 316-2021. -/
def exp : X → X
  | nan => nan
  | inf n => if n then zero else pinf
  | fin n m => ofReal (Real.exp (val n m))

/-- `std::log`. Scalar arithmetic of IEEE 754 and Annex F of the C standard, for complex.hpp 316-2021. -/
def log : X → X
  | nan => nan
  | inf n => if n then nan else pinf
  | fin n m => open Classical in if m = 0 then inf true else if n then nan else ofReal (Real.log m)

/-- `std::sqrt`. Scalar arithmetic of IEEE 754 and Annex F of the C standard, for complex.hpp 316-2021. -/
def sqrt : X → X
  | nan => nan
  | inf n => if n then nan else pinf
  | fin n m => open Classical in if m = 0 then fin n m else if n then nan else fin false (NNReal.sqrt m)

/-- `hypot`: infinite if one of the arguments is, even if the other is NaN. Scalar arithmetic of IEEE 754 and Annex F of the C standard,
for complex.hpp 316-2021. -/
def hypot (x y : X) : X := match x, y with
  | inf _, _ => pinf
  | _, inf _ => pinf
  | nan, _ => nan
  | _, nan => nan
  | fin _ m, fin _ m' => fin false (NNReal.sqrt (m * m + m' * m'))

/-- A positive angle with the sign of `y`. Scalar arithmetic of IEEE 754 and Annex F of the C standard, for complex.hpp 316-2021. -/
def angle (y : X) (r : ℝ) : X := copySign (ofReal r) y

/-- `atan2`. -/
def atan2 (y x : X) : X := open Classical in match y, x with
  | nan, _ => nan
  | _, nan => nan
  | inf n, inf n' => angle (inf n) (if n' then 3 * Real.pi / 4 else Real.pi / 4)
  | inf n, fin _ _ => angle (inf n) (Real.pi / 2)
  | fin n m, inf n' => angle (fin n m) (if n' then Real.pi else 0)
  | fin n m, fin n' m' =>
    if m = 0 then angle (fin n m) (if n' then Real.pi else 0)
    else angle (fin n m) (Complex.arg ⟨val n' m', m⟩)

end X

open X

/-- A complex number. Scalar arithmetic of IEEE 754 and Annex F of the C standard, for complex.hpp 316-2021. -/
structure C where
  re : X
  im : X

/-- The results of the formulas for finite arguments. Scalar arithmetic of IEEE 754 and Annex F of the C standard, for complex.hpp
316-2021. -/
structure Fin where
  sqrt : C → C
  acos : C → C
  asinh : C → C
  atanh : C → C
  logAbs : C → X
  arcBig : ℝ≥0

/-- `T(0.75) * pi` etc.: the constant as a real number. -/
def piTimes (q : ℝ) : X := ofReal (q * Real.pi)

/-! ### Arithmetic -/

/-- `_mul`, 726-734. -/
def cmul (z w : C) : C := ⟨sub (mul z.re w.re) (mul z.im w.im), add (mul z.re w.im) (mul z.im w.re)⟩

/-- `operator*(const R &, const Complex<T> &)`, 952-959: the scalar becomes a complex number. -/
def rmul (r : X) (z : C) : C := cmul ⟨r, zero⟩ z

/-- `operator*(const Complex<T> &, const R &)`, 933-940: both components are multiplied. -/
def cmulr (z : C) (r : X) : C := ⟨mul z.re r, mul z.im r⟩

/-- 742-744, 753-755 etc.: both components are NaN. -/
def cnan : C := ⟨nan, nan⟩

/-- `otherImag < 0 ? T(-otherImag) : T(+otherImag)` -/
def mag (x : X) : X := open Classical in if lt x zero then neg x else x

/-- `_div`, 739-777. -/
def cdiv (z w : C) : C := open Classical in
  if w.re.isNaN ∨ w.im.isNaN then cnan
  else if lt (mag w.im) (mag w.re) then
    let wr := div w.im w.re
    let wd := add w.re (mul wr w.im)
    if wd.isNaN ∨ isZero wd then cnan
    else ⟨div (add z.re (mul z.im wr)) wd, div (sub z.im (mul z.re wr)) wd⟩
  else if isZero w.im then cnan
  else
    let wr := div w.re w.im
    let wd := add w.im (mul wr w.re)
    if wd.isNaN ∨ isZero wd then cnan
    else ⟨div (add (mul z.re wr) z.im) wd, div (sub (mul z.im wr) z.re) wd⟩

/-! ### Functions -/

/-- `abs`, 1131-1133. -/
def cabs (z : C) : X := hypot z.re z.im

/-- `arg`, 1869-1871. -/
def carg (z : C) : X := atan2 z.im z.re

/-- `proj`, 1878-1884. -/
def proj (z : C) : C := if z.re.isInf || z.im.isInf then ⟨pinf, copySign zero z.im⟩ else z

/-- `sqrt`, 1787-1826, with `_fabs`, 1569-1583. -/
def csqrt (F : Fin) (z : C) : C := open Classical in
  if z.re.isInf || z.im.isInf then
    if z.im.isInf then ⟨pinf, z.im⟩
    else if z.im.isNaN then (if lt z.re zero then ⟨abs z.im, copySign z.re z.im⟩ else z)
    else if lt z.re zero then ⟨zero, copySign z.re z.im⟩
    else ⟨z.re, copySign zero z.im⟩
  else if z.re.isNaN then ⟨abs z.re, abs z.re⟩
  else if z.im.isNaN then ⟨abs z.im, abs z.im⟩
  else if isZero z.re ∧ isZero z.im then ⟨zero, z.im⟩
  else F.sqrt z

/-- `acos`, 1155-1224. -/
def cacos (F : Fin) (z : C) : C := open Classical in
  if z.re.isNaN || z.im.isNaN then cnan
  else if z.re.isInf then
    ⟨if z.im.isInf then (if lt z.re zero then piTimes 0.75 else piTimes 0.25)
      else if lt z.re zero then piTimes 1 else zero, neg (copySign pinf z.im)⟩
  else if z.im.isInf then ⟨piTimes 0.5, neg z.im⟩
  else F.acos z

/-- `acosh`, 1274-1300: the branch called (finite, finite). -/
def acoshRest (F : Fin) (z : C) : C := open Classical in
  let wx := csqrt F ⟨sub z.re one, neg z.im⟩
  let zx := csqrt F ⟨add z.re one, z.im⟩
  let big : X := .fin false F.arcBig
  let ab : X × X :=
    if lt big wx.re then (wx.re, sub zx.re (mul wx.im (div zx.im wx.re)))
    else if lt big wx.im then (wx.im, sub (mul wx.re (div zx.re wx.im)) zx.im)
    else (zero, sub (mul wx.re zx.re) (mul wx.im zx.im))
  let ux := asinh ab.2
  ⟨if isZero ab.1 then ux else if ¬ lt ux zero ∧ ux.isNaN = false then add ux (log ab.1) else sub ux (log ab.1),
    mul (.fin false 2) (atan2 (csqrt F ⟨sub z.re one, z.im⟩).im zx.re)⟩

/-- `acosh`, 1239-1302. -/
def cacosh (F : Fin) (z : C) : C := open Classical in
  if z.re.isNaN || z.im.isNaN then cnan
  else if z.re.isInf then
    ⟨pinf, copySign (if z.im.isInf then (if lt z.re zero then piTimes 0.75 else piTimes 0.25)
      else if lt z.re zero then piTimes 1 else zero) z.im⟩
  else acoshRest F z

/-- `asinh`, 1315-1379. -/
def casinh (F : Fin) (z : C) : C :=
  if z.re.isNaN || z.im.isNaN then cnan
  else if z.re.isInf then
    (if z.im.isInf then ⟨z.re, copySign (piTimes 0.25) z.im⟩ else ⟨z.re, copySign zero z.im⟩)
  else if z.im.isInf then ⟨copySign pinf z.re, copySign (piTimes 0.5) z.im⟩
  else F.asinh z

/-- `asin`, 1393-1396. -/
def casin (F : Fin) (z : C) : C :=
  let a := casinh F ⟨neg z.im, z.re⟩
  ⟨a.im, neg a.re⟩

/-- `atanh`, 1409-1462. -/
def catanh (F : Fin) (z : C) : C := open Classical in
  if z.re.isNaN || z.im.isNaN then cnan
  else if z.re.isInf then ⟨copySign zero z.re, copySign (piTimes 0.5) z.im⟩
  else if lt (.fin false F.arcBig) (abs z.re) then
    let fx := div z.im (abs z.re)
    ⟨copySign (div (div one (abs z.re)) (add one (mul fx fx))) z.re, copySign (piTimes 0.5) z.im⟩
  else if lt (.fin false F.arcBig) (abs z.im) then
    let fx := div (abs z.re) z.im
    ⟨copySign (div (div fx z.im) (add one (mul fx fx))) z.re, copySign (piTimes 0.5) z.im⟩
  else F.atanh z

/-- `atan`, 1475-1478. -/
def catan (F : Fin) (z : C) : C :=
  let a := catanh F ⟨neg z.im, z.re⟩
  ⟨a.im, neg a.re⟩

/-- `cosh`, 1489-1492. -/
def ccosh (z : C) : C := ⟨mul (cosh z.re) (cos z.im), mul (sinh z.re) (sin z.im)⟩

/-- `sinh`, 1781-1784. -/
def csinh (z : C) : C := ⟨mul (sinh z.re) (cos z.im), mul (cosh z.re) (sin z.im)⟩

/-- `cos`, 1891-1894. -/
def ccos (z : C) : C := ⟨mul (cosh z.im) (cos z.re), mul (neg (sinh z.im)) (sin z.re)⟩

/-- `sin`, 2008-2011. -/
def csin (z : C) : C := ⟨mul (cosh z.im) (sin z.re), mul (sinh z.im) (cos z.re)⟩

/-- `tanh`, 1842-1857. -/
def ctanh (z : C) : C := open Classical in
  let tv := tan z.im
  let sv := sinh z.re
  let bv := mul sv (add one (mul tv tv))
  let dv := add one (mul bv sv)
  if dv.isInf then ⟨if lt sv zero then neg one else one, zero⟩
  else ⟨div (mul (X.sqrt (add one (mul sv sv))) bv) dv, div tv dv⟩

/-- `tan`, 2018-2021. -/
def ctan (z : C) : C :=
  let a := ctanh ⟨neg z.im, z.re⟩
  ⟨a.im, neg a.re⟩

/-- `polarPositiveNanInfZeroRho`, 1495-1511. -/
def polarPos (rho theta : X) : C := open Classical in
  if theta.isNaN || theta.isInf then
    (if rho.isInf then ⟨rho, sin theta⟩ else ⟨rho, copySign rho theta⟩)
  else if isZero theta then ⟨rho, theta⟩
  else ⟨mul rho (cos theta), mul rho (sin theta)⟩

/-- `polar`, 1990-2002. -/
def polar (rho theta : X) : C := open Classical in
  if rho.isNaN = false ∧ rho.isInf = false ∧ ¬ isZero rho then ⟨mul rho (cos theta), mul rho (sin theta)⟩
  else if rho.signBit then
    let p := polarPos (neg rho) theta
    ⟨neg p.re, neg p.im⟩
  else polarPos rho theta

/-- `expMul` with exponent 0, 403-404. -/
def expMul (left right : X) : X := mul (mul (X.exp left) right) one

/-- `exp`, 1522-1546. -/
def cexp (z : C) : C := open Classical in
  if z.re.isFinite then ⟨expMul z.re (cos z.im), expMul z.re (sin z.im)⟩
  else if z.re.isInf then (if lt z.re zero then polarPos zero z.im else polarPos z.re z.im)
  else polarPos (abs z.re) z.im

/-- `logHypot`, 333-343: an infinite argument is returned. -/
def logHypot (F : Fin) (x y : X) : X :=
  if x.isFinite = false ∨ y.isFinite = false then
    (if x.isNaN || y.isNaN then add x y else if x.isInf then x else if y.isInf then y else add x y)
  else F.logAbs ⟨x, y⟩

/-- `log`, 1675-1679. -/
def clog (F : Fin) (z : C) : C := ⟨logHypot F z.re z.im, atan2 z.im z.re⟩

/-- `pow(const Complex<T> &, const V &)`, 1730-1740, where the imaginary part of the base is not zero. -/
def cpow (F : Fin) (z : C) (r : X) : C := cexp (rmul r (clog F z))

end

end Verif.CxInf
