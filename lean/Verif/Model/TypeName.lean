import Verif.Basic

/-!
# Names of types

Models `typetraits::typeName<T>()` (core/traits.hpp 44-90), which cuts the name of a type out of the text that the compiler gives for the
function it is in. Texts are lists of characters; positions are `size_t` with `npos = 2^64 - 1`.

The texts of the compilers are taken from their documentation: `__PRETTY_FUNCTION__` of GCC and Clang, `__FUNCSIG__` of MSVC. How a compiler
spells a type is not modelled: the name is an argument.
-/

namespace Verif.TypeName

/-- The compilers of traits.hpp 51-63. -/
inductive Compiler where
  | clang | gcc | msvc
deriving DecidableEq, Repr

/-- traits.hpp 53, 57, 61: the text of the function `librapid::detail::typeNameArray<T>` before the name of the type. -/
def before : Compiler → List Char
  | .clang => "auto librapid::detail::typeNameArray() [T = ".toList
  | .gcc => "constexpr auto librapid::detail::typeNameArray() [with T = ".toList
  | .msvc => "auto __cdecl librapid::detail::typeNameArray<".toList

/-- traits.hpp 53, 57, 61: the text after the name of the type. -/
def behind : Compiler → List Char
  | .clang => "]".toList
  | .gcc => "]".toList
  | .msvc => ">(void)".toList

/-- traits.hpp 53, 57, 61: the text of the function, for a type the compiler spells `name`. -/
def function (c : Compiler) (name : List Char) : List Char := before c ++ name ++ behind c

/-- traits.hpp 51, 55, 59. -/
def pre : Compiler → List Char
  | .clang => "[T = ".toList
  | .gcc => "with T = ".toList
  | .msvc => "type_name_array<".toList

/-- traits.hpp 52, 56, 60. -/
def suf : Compiler → List Char
  | .clang => "]".toList
  | .gcc => "]".toList
  | .msvc => ">(void)".toList

/-- `std::string_view::npos`, as in traits.hpp 67-68. -/
def npos : Nat := 2 ^ 64 - 1

/-- `std::string_view::find`, as in traits.hpp 67: the first position. -/
def findFrom (p : List Char) : List Char → Nat → Nat
  | [], i => if p = [] then i else npos
  | c :: s, i => if p.isPrefixOf (c :: s) then i else findFrom p s (i + 1)

/-- `std::string_view::rfind`, as in traits.hpp 68: the last position. -/
def rfindFrom (p : List Char) : List Char → Nat → Nat
  | [], i => if p = [] then i else npos
  | c :: s, i => let r := rfindFrom p s (i + 1); if r ≠ npos then r else if p.isPrefixOf (c :: s) then i else npos

/-- traits.hpp 67-73: `none` if the program does not compile (the assertion of line 70, or `substr` outside). -/
def typeName (c : Compiler) (name : List Char) : Option (List Char) :=
  let f := function c name
  let start := (findFrom (pre c) f 0 + (pre c).length) % 2 ^ 64
  let stop := rfindFrom (suf c) f 0
  if start < stop ∧ start ≤ f.length then some ((f.drop start).take (stop - start)) else none

end Verif.TypeName
