import Verif.Model.Fl
import Verif.Model.Blas2

/-!
# The routines of cxxblas on floating-point numbers

The models of `Model/Blas*.lean` are written for any scalar type; here they are run on the floating-point numbers of `Model/Fl.lean`.
-/

namespace Verif.Ieee

variable {f : Fmt}

/-- `cxxblas::conjugate` of a real number, cxxblas/auxiliary/complex.tcc 48-52: the number itself. -/
instance : Star (Fl f) := ⟨id⟩

end Verif.Ieee
