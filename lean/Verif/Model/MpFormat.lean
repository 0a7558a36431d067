import Mathlib.Data.Nat.Digits.Defs

/-!
# Formatting multi-precision integers

`fmt::formatter<librapid::mpz>`, `/repo/librapid/include/librapid/math/multiprec.hpp` 664-684: the format specification is parsed as that of an
`int64_t`, of which only the precision is used, which {fmt} does not accept for integers. `fmtInt` is what {fmt} writes for an `int64_t` with
the same specification (its documentation, for the version the library uses); characters (`c`) and locales (`L`) are left out. The `<<` of GMP
writes the decimal digits, as the flags of the fresh stream ask for.
-/

namespace Verif.MpFormat

/-- Alignment in a specification. For math/multiprec.hpp 665-673. -/
inductive Align where
  | none | left | right | center
deriving DecidableEq

/-- The sign in a specification. For math/multiprec.hpp 665-673. -/
inductive Sign where
  | minus | plus | space
deriving DecidableEq

/-- The presentation type. For math/multiprec.hpp 665-673. -/
inductive Ty where
  | dec | bin | oct | hex
deriving DecidableEq

/-- What `parse_format_specs` stores, math/multiprec.hpp 665-673. -/
structure Spec where
  fill : Char := ' '
  align : Align := .none
  sign : Sign := .minus
  alt : Bool := false
  zero : Bool := false
  width : Nat := 0
  ty : Ty := .dec

/-- The digits of a number, the first one first. -/
def digs (b n : Nat) : List Nat := if n = 0 then [0] else (Nat.digits b n).reverse

/-- The text of the digits. -/
def text (b n : Nat) : List Char := (digs b n).map Nat.digitChar

/-- What `ss << num` writes, math/multiprec.hpp 677-680. -/
def fmtMpz (_ : Spec) (n : Int) : List Char := (if n < 0 then ['-'] else []) ++ text 10 n.natAbs

/-- The base of a presentation type. Documentation of {fmt}, for math/multiprec.hpp 670. -/
def Ty.base : Ty → Nat
  | .dec => 10
  | .bin => 2
  | .oct => 8
  | .hex => 16

/-- The sign {fmt} writes. Documentation of {fmt}, for math/multiprec.hpp 670. -/
def signText (s : Sign) (n : Int) : List Char :=
  if n < 0 then ['-'] else match s with
    | .minus => []
    | .plus => ['+']
    | .space => [' ']

/-- The prefix with `#`. Documentation of {fmt}, for math/multiprec.hpp 670. -/
def altText (s : Spec) (n : Int) : List Char :=
  if s.alt then match s.ty with
    | .dec => []
    | .bin => ['0', 'b']
    | .oct => if n = 0 then [] else ['0']
    | .hex => ['0', 'x']
  else []

/-- Fill characters around a text that is too short; numbers are aligned to the right. Documentation of {fmt}, for math/multiprec.hpp 670. -/
def pad (s : Spec) (t : List Char) : List Char :=
  match s.align with
  | .left => t ++ List.replicate (s.width - t.length) s.fill
  | .center => List.replicate ((s.width - t.length) / 2) s.fill ++ t ++ List.replicate (s.width - t.length - (s.width - t.length) / 2) s.fill
  | _ => List.replicate (s.width - t.length) s.fill ++ t

/-- What {fmt} writes for an `int64_t`. Documentation of {fmt}, for math/multiprec.hpp 670. -/
def fmtInt (s : Spec) (n : Int) : List Char :=
  if s.zero ∧ s.align = .none then
    signText s.sign n ++ altText s n ++
      List.replicate (s.width - (signText s.sign n ++ altText s n ++ text s.ty.base n.natAbs).length) '0' ++ text s.ty.base n.natAbs
  else pad s (signText s.sign n ++ altText s n ++ text s.ty.base n.natAbs)

end Verif.MpFormat
