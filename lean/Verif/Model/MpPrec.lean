import Verif.Model.Ieee
import Verif.Model.Num
import Mathlib.Data.Nat.Log

/-!
# The default precision of multi-precision numbers

`prec` and `prec2`, `/repo/librapid/include/librapid/math/multiprec.hpp` 404-415, and what an `mpfr` made from a decimal number then holds.

MPFR C++ is assumed to compute `digits2bits(d)` as the least whole number not below `d log2(10)`; it does so in `double`, whose rounding is
not modelled. MPFR rounds text to the nearest number of its format (`rnd`) and stops the program if the default precision is not positive
(`.ub`). `emin` is the least exponent of MPFR, a very large negative number.
-/

namespace Verif.MpPrec

open Verif.Ieee Verif.Num

/-- `::mpfr::digits2bits`: the least number of bits with `10^d ≤ 2^bits`. For math/multiprec.hpp 405. -/
def digits2bits (d : Nat) : Nat := Nat.clog 2 (10 ^ d)

/-- `prec(dig10)`, math/multiprec.hpp 404-408: the number of digits becomes an `int` first. The result is the new default precision. -/
def prec (dig10 : Int) : Out Nat :=
  if wrap true 32 dig10 ≤ 0 then .ub else .ok (digits2bits (wrap true 32 dig10).toNat)

/-- `prec2(dig2)`, math/multiprec.hpp 412-415. -/
def prec2 (dig2 : Int) : Out Nat := if dig2 ≤ 0 then .ub else .ok dig2.toNat

/-- An `mpfr` made from a decimal number with the precision just set. One bit is left out. For math/multiprec.hpp 404-415. -/
def made (emin : Int) (x : ℚ) (p : Nat) : Out ℚ := if h : 2 ≤ p then .ok (rnd ⟨p, emin, h⟩ x) else .ub

/-- `prec(dig10); mpfr v("x")`. For math/multiprec.hpp 404-408. -/
def storeAfter (dig10 emin : Int) (x : ℚ) : Out ℚ := (prec dig10).bind (made emin x)

/-- `prec2(dig2); mpfr v("x")`. For math/multiprec.hpp 412-415. -/
def storeAfter2 (dig2 emin : Int) (x : ℚ) : Out ℚ := (prec2 dig2).bind (made emin x)

end Verif.MpPrec
