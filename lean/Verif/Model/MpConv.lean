import Verif.Model.Ieee

/-!
# Conversions between the multi-precision types

`/repo/librapid/src/multiprecCasting.cpp` 6-24 and the text of an `mpfr` in `src/multiprecToString.cpp` 35-43. A number is the
rational it denotes: an `mpz` an integer, an `mpq` a rational, an `mpf` or `mpfr` a rational with finitely many binary digits.

What GMP, MPFR and MPFR C++ do is described by their manuals and is assumed here:
* an `mpf` made with the default precision stores a number with at least `bits` significant bits, exactly when it has that many
  or fewer, and never with more than `limit` bits (`Gmp.store`; the manual promises a least precision only);
* `mpf_get_str` with as many digits as the precision needs gives `digits` significant decimal digits at least (`Gmp.text`);
  the text of `str(const mpf &)` denotes the number given by these digits (C57);
* an `mpfr` made from text is the number of its format nearest to the one the text denotes (`rnd`);
* `std::fixed` with precision `D` prints an `mpfr` as the nearest multiple of `10^-D`, ties to even;
* conversions to `mpz` truncate; the conversion of an `mpf` to `mpq` is exact.

Simplified: NaN and the infinities of `mpfr` are not modelled; `bits2digits` (MPFR C++: `floor(b * LOG10_2)` in `double`) is computed
without the rounding of the product.
-/

namespace Verif.MpConv

open Verif.Ieee

/-- `x` has at most `b` significant bits. For src/multiprecCasting.cpp 6-24. -/
def Short (b : Nat) (x : ℚ) : Prop := ∃ m e : Int, |m| < 2 ^ b ∧ x = m * (2 : ℚ) ^ e

/-- `x` has at most `d` significant decimal digits. For src/multiprecCasting.cpp 6-24. -/
def ShortDec (d : Nat) (x : ℚ) : Prop := ∃ m e : Int, |m| < 10 ^ d ∧ x = m * (10 : ℚ) ^ e

/-- What is assumed of GMP's `mpf` at the default precision. For src/multiprecCasting.cpp 6-24. -/
structure Gmp where
  bits : Nat
  limit : Nat
  digits : Nat
  hbits : 2 ≤ bits
  hdigits : 1 ≤ digits
  store : ℚ → ℚ
  store_exact : ∀ x, Short bits x → store x = x
  store_short : ∀ x, Short limit (store x)
  store_close : ∀ x, |store x - x| ≤ (2 : ℚ) ^ (1 - (bits : Int)) * |x|
  text : ℚ → ℚ
  text_exact : ∀ x, ShortDec digits x → text x = x
  text_close : ∀ x, |text x - x| ≤ (10 : ℚ) ^ (1 - (digits : Int)) * |x|

/-- `mpfr::bits2digits` of MPFR C++ -/
def bits2digits (b : Nat) : Nat := b * 30102999566398119521 / 10 ^ 20

/-- The number of decimals of `str(const mpfr &, int64_t digits, int)`, `src/multiprecToString.cpp` 36-40 -/
def decimals (prec : Nat) (digits : Int) : Nat :=
  bits2digits (if digits < 0 then prec else digits.toNat)

/-- The number the text of `str(const mpfr &, int64_t digits, int)` denotes, `src/multiprecToString.cpp` 35-43 -/
def strMpfr (prec : Nat) (x : ℚ) (digits : Int := -1) : ℚ :=
  rne (x * 10 ^ decimals prec digits) / 10 ^ decimals prec digits

/-- `mpz(mpf)`, `mpz(mpq)`: truncation. For src/multiprecCasting.cpp 6-24. -/
def trunc (x : ℚ) : Int := if 0 ≤ x then ⌊x⌋ else ⌈x⌉

/-- `toMpz(const mpf &)`, `toMpz(const mpq &)`, `src/multiprecCasting.cpp` 7-8 -/
def toMpzOfMpf (x : ℚ) : Int := trunc x
/-- `mpz(mpq)`. For src/multiprecCasting.cpp 6-24. -/
def toMpzOfMpq (x : ℚ) : Int := trunc x

/-- `toMpz(const mpfr &)`, `src/multiprecCasting.cpp` 9 -/
def toMpzOfMpfr (g : Gmp) (prec : Nat) (x : ℚ) : Int := trunc (g.store (strMpfr prec x))

/-- `toMpf(const mpz &)`, `src/multiprecCasting.cpp` 11 -/
def toMpfOfMpz (g : Gmp) (z : Int) : ℚ := g.store z

/-- `toMpf(const mpq &)`, `src/multiprecCasting.cpp` 13 -/
def toMpfOfMpq (g : Gmp) (q : ℚ) : ℚ := g.store q

/-- `toMpf(const mpfr &)`, `src/multiprecCasting.cpp` 14 -/
def toMpfOfMpfr (g : Gmp) (prec : Nat) (x : ℚ) : ℚ := g.store (strMpfr prec x)

/-- `toMpq(const mpz &)`, `src/multiprecCasting.cpp` 16 -/
def toMpqOfMpz (z : Int) : ℚ := z

/-- `toMpq(const mpf &)`, `src/multiprecCasting.cpp` 17 -/
def toMpqOfMpf (x : ℚ) : ℚ := x

/-- `toMpq(const mpfr &)`, `src/multiprecCasting.cpp` 19 -/
def toMpqOfMpfr (g : Gmp) (prec : Nat) (x : ℚ) : ℚ := g.store (strMpfr prec x)

/-- `toMpfr(const mpz &)`, `src/multiprecCasting.cpp` 21; `f` is the default format of `mpfr` -/
def toMpfrOfMpz (f : Fmt) (z : Int) : ℚ := rnd f z

/-- `toMpfr(const mpf &)`, `src/multiprecCasting.cpp` 22 -/
def toMpfrOfMpf (g : Gmp) (f : Fmt) (x : ℚ) : ℚ := rnd f (g.text x)

/-- `toMpfr(const mpq &)`, `src/multiprecCasting.cpp` 23 -/
def toMpfrOfMpq (g : Gmp) (f : Fmt) (q : ℚ) : ℚ := rnd f (g.text (g.store q))

end Verif.MpConv
