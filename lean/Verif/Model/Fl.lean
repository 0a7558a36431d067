import Verif.Lemmas.Ieee

/-!
# Arithmetic of `float` and `double` as a scalar type

The models that are written for any scalar type (`Model/Matmul.lean` and others) are run on floating-point numbers by taking this type
for the scalars. The simplifications are those of `Model/Ieee.lean`: finite numbers, one zero, no upper limit of the exponent.
-/

namespace Verif.Ieee

/-- A finite floating-point number of the format. Floating-point arithmetic of IEEE 754; no code of the library. -/
structure Fl (f : Fmt) where
  val : ℚ
  repr : Repr f val
deriving DecidableEq

variable {f : Fmt}

/-- The floating-point number nearest to a rational one. Floating-point arithmetic of IEEE 754; no code of the library. -/
def Fl.round (f : Fmt) (x : ℚ) : Fl f := ⟨rnd f x, repr_rnd f x⟩

instance : Zero (Fl f) := ⟨⟨0, repr_zero f⟩⟩
instance : One (Fl f) := ⟨.round f 1⟩
/-- `a + b` of C++ -/
instance : Add (Fl f) := ⟨fun a b => .round f (a.val + b.val)⟩
/-- `a - b` of C++ -/
instance : Sub (Fl f) := ⟨fun a b => .round f (a.val - b.val)⟩
/-- `a * b` of C++ -/
instance : Mul (Fl f) := ⟨fun a b => .round f (a.val * b.val)⟩
/-- `a / b` of C++, for `b` other than zero -/
instance : Div (Fl f) := ⟨fun a b => .round f (a.val / b.val)⟩
/-- `-a` of C++ -/
instance : Neg (Fl f) := ⟨fun a => ⟨-a.val, repr_neg a.repr⟩⟩
/-- `a < b` of C++ -/
instance : LT (Fl f) := ⟨fun a b => a.val < b.val⟩
instance : DecidableLT (Fl f) := fun a b => inferInstanceAs (Decidable (a.val < b.val))

end Verif.Ieee
