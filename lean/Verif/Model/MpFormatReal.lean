import Verif.Model.MpFormat
import Verif.Model.MpConv
import Verif.Model.Multiprec

/-!
# Formatting multi-precision numbers that are not integers

`fmt::formatter` of `mpf`, of expressions over GMP's numbers, of `mpq` and of `mpfr`, `/repo/librapid/include/librapid/math/multiprec.hpp`
682-773. The format specification is parsed as that of a `double`, but only its precision is used: from 1 on, the number is written by the `<<`
of its library in fixed notation, an `mpq` and an expression as the `mpf` made of it; below 1 (none is given, or it is 0) it is `str` of it.

What the libraries do is described by their manuals and assumed: in fixed notation `<<` writes a multiple of `10^-k` that is nearest to the number
(`Lib.near` is the choice; MPFR C++ rounds ties to even), with `k` decimals and the sign of the number; `mpf_get_str` gives digits and an exponent;
`mpq_get_str` writes the numerator and, unless it is 1, a slash and the denominator. NaN and the infinities of `mpfr` are not modelled.
-/

namespace Verif.MpFormat

open Verif.Ieee Verif.MpConv

/-- What is assumed of the libraries. For math/multiprec.hpp 682-773. -/
structure Lib where
  gmp : Gmp
  near : ℚ → Int
  near_close : ∀ x, |(near x : ℚ) - x| ≤ 1 / 2
  near_pos : ∀ x, 0 ≤ x → 0 ≤ near x
  near_neg : ∀ x, x ≤ 0 → near x ≤ 0
  getStr : ℚ → List Char × Int

/-- What is used of a specification, and what should be; a precision that is not given is -1. For math/multiprec.hpp 685-691. -/
structure RSpec where
  precision : Int := -1
  width : Nat := 0
  sign : Sign := .minus

/-- `n` with leading zeros in `k` places. -/
def places (k n : Nat) : List Char := List.replicate (k - (text 10 n).length) '0' ++ text 10 n

/-- Fixed notation of `a * 10^-k`. For math/multiprec.hpp 697-701. -/
def fixedText (neg : Bool) (k a : Nat) : List Char :=
  (if neg then ['-'] else []) ++ (text 10 (a / 10 ^ k) ++ (if k = 0 then [] else ['.'] ++ places k (a % 10 ^ k)))

/-- `std::fixed`, `precision(k)`, `<< num`. For math/multiprec.hpp 697-701 and src/multiprecToString.cpp 36-42. -/
def stream (near : ℚ → Int) (k : Nat) (x : ℚ) : List Char := fixedText (decide (x < 0)) k (near (x * 10 ^ k)).natAbs

/-- Format an `mpf`, math/multiprec.hpp 694-702. -/
def fmtMpf (L : Lib) (s : RSpec) (x : ℚ) : List Char :=
  if s.precision < 1 then Mpf.str (L.getStr x).1 (L.getStr x).2 else stream L.near s.precision.toNat x

/-- Format an expression, whose value is `x`, as the `mpf` made of it, math/multiprec.hpp 717-726. -/
def fmtExpr (L : Lib) (s : RSpec) (x : ℚ) : List Char := fmtMpf L s (L.gmp.store x)

/-- `str(const mpq &)`, src/multiprecToString.cpp 33. -/
def strMpq (x : ℚ) : List Char :=
  (if x < 0 then ['-'] else []) ++ (text 10 x.num.natAbs ++ if x.den = 1 then [] else ['/'] ++ text 10 x.den)

/-- Format an `mpq`, math/multiprec.hpp 741-749. -/
def fmtMpq (L : Lib) (s : RSpec) (x : ℚ) : List Char :=
  if s.precision < 1 then strMpq x else stream L.near s.precision.toNat (L.gmp.store x)

/-- `str(const mpfr &)`, src/multiprecToString.cpp 35-43, of a number with `prec` bits. -/
def strOfMpfr (prec : Nat) (x : ℚ) : List Char := stream rne (decimals prec (-1)) x

/-- Format an `mpfr`, math/multiprec.hpp 764-772. -/
def fmtMpfr (prec : Nat) (s : RSpec) (x : ℚ) : List Char :=
  if s.precision < 1 then strOfMpfr prec x else stream rne s.precision.toNat x

end Verif.MpFormat
