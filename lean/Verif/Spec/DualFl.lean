import Verif.Model.Dual
import Verif.Model.Fl
import Verif.Spec.FloatSum
import Verif.Lemmas.ErrFree
import Mathlib.Algebra.Polynomial.Derivative

/-!
# Polynomials written with the operators of `Dual<T>`, and what they denote
-/

namespace Verif.DualM

open Verif.Ieee

/-- Expressions in one variable with the operators `+`, `-`, `*` of `Dual` and of `Dual` with scalars (autodiff/dual.hpp 116-174, 198-206). -/
inductive PExpr (K : Type) where
  | var
  | const (c : K)
  | neg (a : PExpr K)
  | pos (a : PExpr K)
  | add (a b : PExpr K)
  | sub (a b : PExpr K)
  | mul (a b : PExpr K)
  | addS (a : PExpr K) (c : K)
  | sAdd (c : K) (a : PExpr K)
  | subS (a : PExpr K) (c : K)
  | sSub (c : K) (a : PExpr K)
  | mulS (a : PExpr K) (c : K)
  | sMul (c : K) (a : PExpr K)

namespace PExpr

section
variable {K : Type} [Zero K] [Add K] [Sub K] [Neg K] [Mul K] [Div K] [DecidableEq K]

/-- The expression evaluated with duals. -/
def dual (x : Dual K) : PExpr K → Dual K
  | var => x
  | const c => ofScalar c
  | neg a => DualM.neg (a.dual x)
  | pos a => DualM.pos (a.dual x)
  | add a b => DualM.add (a.dual x) (b.dual x)
  | sub a b => DualM.sub (a.dual x) (b.dual x)
  | mul a b => DualM.mul (a.dual x) (b.dual x)
  | addS a c => DualM.addS (a.dual x) c
  | sAdd c a => DualM.sAdd c (a.dual x)
  | subS a c => DualM.subS (a.dual x) c
  | sSub c a => DualM.sSub c (a.dual x)
  | mulS a c => DualM.mulS (a.dual x) c
  | sMul c a => DualM.sMul c (a.dual x)

/-- The expression evaluated with plain scalars. -/
def plain (x : K) : PExpr K → K
  | var => x
  | const c => c
  | neg a => -a.plain x
  | pos a => a.plain x
  | add a b => a.plain x + b.plain x
  | sub a b => a.plain x - b.plain x
  | mul a b => a.plain x * b.plain x
  | addS a c => a.plain x + c
  | sAdd c a => c + a.plain x
  | subS a c => a.plain x - c
  | sSub c a => c - a.plain x
  | mulS a c => a.plain x * c
  | sMul c a => c * a.plain x
end

open Polynomial in
/-- The polynomial an expression with floating-point constants denotes. -/
noncomputable def poly {f : Fmt} : PExpr (Fl f) → ℚ[X]
  | var => X
  | const c => C c.val
  | neg a => -a.poly
  | pos a => a.poly
  | add a b => a.poly + b.poly
  | sub a b => a.poly - b.poly
  | mul a b => a.poly * b.poly
  | addS a c => a.poly + C c.val
  | sAdd c a => C c.val + a.poly
  | subS a c => a.poly - C c.val
  | sSub c a => C c.val - a.poly
  | mulS a c => a.poly * C c.val
  | sMul c a => C c.val * a.poly

open Polynomial in
/-- The same with the absolute values of the constants and without cancellation. -/
noncomputable def absPoly {f : Fmt} : PExpr (Fl f) → ℚ[X]
  | var => X
  | const c => C |c.val|
  | neg a => a.absPoly
  | pos a => a.absPoly
  | add a b => a.absPoly + b.absPoly
  | sub a b => a.absPoly + b.absPoly
  | mul a b => a.absPoly * b.absPoly
  | addS a c => a.absPoly + C |c.val|
  | sAdd c a => C |c.val| + a.absPoly
  | subS a c => a.absPoly + C |c.val|
  | sSub c a => C |c.val| + a.absPoly
  | mulS a c => a.absPoly * C |c.val|
  | sMul c a => C |c.val| * a.absPoly

/-- The roundings that can meet on the way to the result: one for a sum, those of both factors and two more for a product. -/
def cost {K : Type} : PExpr K → Nat
  | var => 0
  | const _ => 0
  | neg a => a.cost
  | pos a => a.cost
  | add a b => max a.cost b.cost + 1
  | sub a b => max a.cost b.cost + 1
  | mul a b => a.cost + b.cost + 2
  | addS a _ => a.cost + 1
  | sAdd _ a => a.cost + 1
  | subS a _ => a.cost + 1
  | sSub _ a => a.cost + 1
  | mulS a _ => a.cost + 1
  | sMul _ a => a.cost + 1

/-- No bits are lost to underflow when the number is rounded: it is in the normal range or a multiple of the least number. -/
def Safe (f : Fmt) (q : ℚ) : Prop := Mult f.emin q ∨ (2 : ℚ) ^ (f.emin + f.p - 1) ≤ |q|

/-- No product that occurs underflows. -/
def NoUnderflow {f : Fmt} (x : Dual (Fl f)) : PExpr (Fl f) → Prop
  | var => True
  | const _ => True
  | neg a => a.NoUnderflow x
  | pos a => a.NoUnderflow x
  | add a b => a.NoUnderflow x ∧ b.NoUnderflow x
  | sub a b => a.NoUnderflow x ∧ b.NoUnderflow x
  | mul a b => a.NoUnderflow x ∧ b.NoUnderflow x ∧ Safe f ((a.dual x).value.val * (b.dual x).value.val) ∧
      Safe f ((a.dual x).derivative.val * (b.dual x).value.val) ∧ Safe f ((a.dual x).value.val * (b.dual x).derivative.val)
  | addS a _ => a.NoUnderflow x
  | sAdd _ a => a.NoUnderflow x
  | subS a _ => a.NoUnderflow x
  | sSub _ a => a.NoUnderflow x
  | mulS a c => a.NoUnderflow x ∧ Safe f ((a.dual x).value.val * c.val) ∧ Safe f ((a.dual x).derivative.val * c.val)
  | sMul c a => a.NoUnderflow x ∧ Safe f (c.val * (a.dual x).value.val) ∧ Safe f (c.val * (a.dual x).derivative.val)

end PExpr

end Verif.DualM
