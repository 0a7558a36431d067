import Verif.Basic
import Mathlib.Data.Nat.Digits.Defs

/-!
# Reading multi-precision numbers with scnlib

`scn::scanner<librapid::mpz>` and `scn::scanner<librapid::mpq>`, `/repo/librapid/include/librapid/math/multiprec.hpp` 776-862, present if scnlib
is included before the library. Only `{}` is modelled (`set_parser` is not enabled).

What the other libraries do is described by their manuals and assumed: `skip_range_whitespace` skips white space and fails at the end of the text;
`do_scan` reads up to the next white space; the constructors of `mpz_class` and `mpq_class` take a base of 0, for which GMP looks at the prefix
(`0x`, `0X`: 16; `0b`, `0B`: 2; `0`: 8; else 10), allow a minus sign but no plus sign, throw `std::invalid_argument` for anything else and do not
reduce fractions. White space inside numbers cannot occur. White space is blanks, tabs and line ends.
-/

namespace Verif.MpScan

/-- White space. For math/multiprec.hpp 796-802. -/
def isSpace (c : Char) : Bool := c == ' ' || c == '\t' || c == '\n'

/-- The value of a digit in a base up to 16. `mpz_set_str`, for math/multiprec.hpp 803. -/
def digit (b : Nat) (c : Char) : Option Nat :=
  let v := if '0' ≤ c ∧ c ≤ '9' then c.toNat - 48 else if 'a' ≤ c ∧ c ≤ 'f' then c.toNat - 87 else if 'A' ≤ c ∧ c ≤ 'F' then c.toNat - 55 else b
  if v < b then some v else none

/-- Digits after digits of the value `a`. `mpz_set_str`, for math/multiprec.hpp 803. -/
def digits (b : Nat) : Nat → List Char → Option Nat
  | a, [] => some a
  | a, c :: cs => match digit b c with
    | none => none
    | some v => digits b (a * b + v) cs

/-- One digit at least. `mpz_set_str`, for math/multiprec.hpp 803. -/
def numeral (b : Nat) : List Char → Option Nat
  | [] => none
  | cs => digits b 0 cs

/-- The base by the prefix. `mpz_set_str` with base 0, for math/multiprec.hpp 803. -/
def unsignedZ : List Char → Option Nat
  | '0' :: 'x' :: cs => digits 16 0 cs
  | '0' :: 'X' :: cs => digits 16 0 cs
  | '0' :: 'b' :: cs => digits 2 0 cs
  | '0' :: 'B' :: cs => digits 2 0 cs
  | '0' :: cs => digits 8 0 cs
  | cs => numeral 10 cs

/-- `mpz_set_str` with base 0, for math/multiprec.hpp 803. -/
def setStrZ : List Char → Option Int
  | '-' :: cs => (unsignedZ cs).map fun n => -(n : Int)
  | cs => (unsignedZ cs).map fun n => (n : Int)

/-- `mpq_set_str` with base 0: numerator and denominator as they are written. For math/multiprec.hpp 857. -/
def setStrQ (w : List Char) : Option (Int × Int) :=
  let n := w.takeWhile (· != '/')
  match w.dropWhile (· != '/') with
  | [] => (setStrZ n).map fun a => (a, 1)
  | _ :: d => match setStrZ n, setStrZ d with
    | some a, some b => some (a, b)
    | _, _ => none

/-- What a scan ends in: a value and the rest of the text, an error that is returned, or an exception. For math/multiprec.hpp 784-805. -/
inductive Res (α : Type) where
  | value (v : α) (rest : List Char)
  | error
  | throws

/-- The scanners: skip white space, read a word, construct the number, math/multiprec.hpp 796-804 and 850-858. -/
def scan {α : Type} (make : List Char → Option α) (t : List Char) : Res α :=
  match t.dropWhile isSpace with
  | [] => .error
  | t => match make (t.takeWhile (! isSpace ·)) with
    | some v => .value v (t.dropWhile (! isSpace ·))
    | none => .throws

/-- `scanner<mpz>::scan`, math/multiprec.hpp 784-805. -/
def scanMpz : List Char → Res Int := scan setStrZ

/-- `scanner<mpq>::scan`, math/multiprec.hpp 838-859. -/
def scanMpq : List Char → Res (Int × Int) := scan setStrQ

/-- `==` of `mpq_class`, which is `mpq_equal`: numerators and denominators are compared. Manual of GMP, for math/multiprec.hpp 857. -/
def eqMpq (p q : Int × Int) : Bool := decide (p = q)

end Verif.MpScan
