import Verif.Model.Complex
import Mathlib.Analysis.SpecialFunctions.Pow.Real
import Mathlib.Analysis.SpecialFunctions.Trigonometric.Basic
import Mathlib.Analysis.SpecialFunctions.Sqrt

/-!
# Complex numbers: elementary functions

`/repo/librapid/include/librapid/math/complex.hpp` 1120-2030, over the real numbers: the scalar functions of the C++ library are the
real functions, arguments are finite, and the branches for NaN and infinities (which a finite argument does not reach in exact
arithmetic) are left out. A pole of the scalar function `tan` is `none`.
There are no signed zeros: `copySign(x, 0)` takes the positive sign.
-/

namespace Verif.Cx

noncomputable section

/-- `copySign(x, y)`. Scalar function used by complex.hpp 1120-2030. -/
def copySign (x y : ℝ) : ℝ := if y < 0 then -|x| else |x|

/-- `abs(const Complex<T> &)`, 1126-1128. -/
def cabs (z : Cx ℝ) : ℝ := Real.sqrt (z.re ^ 2 + z.im ^ 2)

/-- `conj`, 1135-1137. -/
def conj (z : Cx ℝ) : Cx ℝ := ⟨z.re, -z.im⟩

/-- `cosh`, 1489-1492. -/
def cosh (z : Cx ℝ) : Cx ℝ := ⟨Real.cosh z.re * Real.cos z.im, Real.sinh z.re * Real.sin z.im⟩

/-- `polarPositiveNanInfZeroRho`, 1495-1511, for finite arguments. -/
def polarZero (rho theta : ℝ) : Cx ℝ :=
  if theta = 0 then ⟨rho, theta⟩ else ⟨rho * Real.cos theta, rho * Real.sin theta⟩

/-- `detail::algorithm::expMul`, 391-412: `exp(left) * right * 2 ^ exponent`. -/
def expMul (left right : ℝ) (exponent : Int) : ℝ := Real.exp left * right * (2 : ℝ) ^ exponent

/-- `exp`, 1522-1546: finite real part. -/
def exp (z : Cx ℝ) : Cx ℝ := ⟨expMul z.re (Real.cos z.im) 0, expMul z.re (Real.sin z.im) 0⟩

/-- `sinh`, 1781-1784. -/
def sinh (z : Cx ℝ) : Cx ℝ := ⟨Real.sinh z.re * Real.cos z.im, Real.cosh z.re * Real.sin z.im⟩

/-- The scalar `tan`: no value at a pole. Scalar function used by complex.hpp 1120-2030. -/
def rtan (x : ℝ) : Option ℝ := if Real.cos x = 0 then none else some (Real.sin x / Real.cos x)

/-- `tanh`, 1842-1857. -/
def tanh (z : Cx ℝ) : Option (Cx ℝ) := do
  let tv ← rtan z.im
  let sv := Real.sinh z.re
  let bv := sv * (1 + tv * tv)
  let dv := 1 + bv * sv
  if dv = 0 then none
  else pure ⟨Real.sqrt (1 + sv * sv) * bv / dv, tv / dv⟩

/-- `cos`, 1891-1894. -/
def cos (z : Cx ℝ) : Cx ℝ := ⟨Real.cosh z.im * Real.cos z.re, -Real.sinh z.im * Real.sin z.re⟩

/-- `sin`, 2008-2011. -/
def sin (z : Cx ℝ) : Cx ℝ := ⟨Real.cosh z.im * Real.sin z.re, Real.sinh z.im * Real.cos z.re⟩

/-- `tan`, 2018-2021. -/
def tan (z : Cx ℝ) : Option (Cx ℝ) := do
  let zv ← tanh ⟨-z.im, z.re⟩
  pure ⟨zv.im, -zv.re⟩

/-- `csc`, 1903-1905. -/
def csc (z : Cx ℝ) : Option (Cx ℝ) := sDiv rdiv 1 (sin z)
/-- `sec`, 1912-1914. -/
def sec (z : Cx ℝ) : Option (Cx ℝ) := sDiv rdiv 1 (cos z)
/-- `cot`, 1921-1923. -/
def cot (z : Cx ℝ) : Option (Cx ℝ) := do
  let t ← tan z
  sDiv rdiv 1 t

/-- `norm`, 1975-1977. -/
def norm (z : Cx ℝ) : ℝ := z.re * z.re + z.im * z.im

/-- `polar`, 1990-2000. -/
def polar (rho theta : ℝ) : Cx ℝ :=
  if rho ≠ 0 then ⟨rho * Real.cos theta, rho * Real.sin theta⟩
  else if rho < 0 then neg (polarZero (-rho) theta)
  else polarZero rho theta

/-- The constants of `_fabs` (1575-1648): the bound below which the argument is scaled up, the (negated) exponent of that scaling
divided by two, `root2`, and the sum of the two parts of `onePlusRoot2`. -/
structure FabsConst where
  legTiny : ℝ
  digits : Nat
  root2 : ℝ
  onePlusRoot2 : ℝ

/-- `_fabs`, 1605-1622: the scaling; exponent and scaled components. -/
def fabsScale (k : FabsConst) (av bv : ℝ) : Int × ℝ × ℝ :=
  if 1 ≤ av then (4, av * (1 / 16), bv * (1 / 16))
  else if av < k.legTiny then (-2 * (k.digits : Int), av * 2 ^ (2 * k.digits), bv * 2 ^ (2 * k.digits))
  else (-2, av * 4, bv * 4)

/-- `_fabs`, 1624-1648: the hypotenuse of `av ≥ bv ≥ 0`. -/
def fabsHyp (k : FabsConst) (av bv : ℝ) : ℝ :=
  let tmp := av - bv
  if tmp = av then av
  else if bv < tmp then
    let qv := av / bv
    av + bv / (qv + Real.sqrt (qv * qv + 1))
  else
    let qv := tmp / bv
    let rv := (qv + 2) * qv
    let sv := rv / (k.root2 + Real.sqrt (rv + 2)) + k.onePlusRoot2 + qv
    av + bv / sv

/-- `_fabs`, 1569-1650: scale exponent and scaled magnitude. The branch for `mpfr` always uses the last formula of `fabsHyp`, with
`root2 = sqrt(2)`. -/
def fabs (k : FabsConst) (z : Cx ℝ) : Int × ℝ :=
  let av := max |z.re| |z.im|
  let bv := min |z.re| |z.im|
  if av = 0 then (0, av)
  else
    let s := fabsScale k av bv
    (s.1, fabsHyp k s.2.1 s.2.2)

/-- `ldexp`. Scalar function used by complex.hpp 1120-2030. -/
def ldexp (x : ℝ) (e : Int) : ℝ := x * (2 : ℝ) ^ e

/-- `sqrt`, 1787-1827. -/
def sqrt (k : FabsConst) (z : Cx ℝ) : Cx ℝ :=
  let f := fabs k z
  if f.1 = 0 then ⟨0, z.im⟩
  else
    let realMag := ldexp |z.re| (-f.1)
    let rho := ldexp (Real.sqrt (2 * (realMag + f.2))) (f.1 / 2 - 1)
    if 0 ≤ z.re then ⟨rho, z.im / (2 * rho)⟩
    else ⟨|z.im / (2 * rho)|, copySign rho z.im⟩

end

end Verif.Cx
