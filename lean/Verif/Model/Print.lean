import Verif.Model.View

/-!
# Formatting arrays

`/repo/librapid/include/librapid/array/generalArrayViewToString.hpp` and the formatter of array/arrayTypeDef.hpp 100-143.

What is written to the output is a list of tokens: the elements, which the scalar's own formatter writes (`fmt`), and the layout
characters in between. The formatter of a scalar and the alignment computed from it are parameters.
-/

namespace Verif.Print

open ShapeM ViewM

/-- One thing written to the output. For array/generalArrayViewToString.hpp 8-180. -/
inductive Tok (α : Type) where
  | opn -- opening bracket
  | cls -- closing bracket
  | sep -- the separator character
  | space
  | newline
  | elem (x : α)
deriving DecidableEq, Repr

/-- 57-82: the bracket characters. -/
def brackets : Char → Char × Char
  | 'r' => ('(', ')')
  | 's' => ('[', ']')
  | 'c' => ('{', '}')
  | 'a' => ('<', '>')
  | 'p' => ('|', '|')
  | _ => ('[', ']')

/-- The characters of a token. For array/generalArrayViewToString.hpp 8-180. -/
def Tok.text (bracket separator : Char) (fmt : α → List Char) : Tok α → List Char
  | .opn => [(brackets bracket).1]
  | .cls => [(brackets bracket).2]
  | .sep => [separator]
  | .space => [' ']
  | .newline => ['\n']
  | .elem x => fmt x

/-- Kinds of scalar types `alignment` distinguishes. For array/generalArrayViewToString.hpp 8-180. -/
inductive Kind where
  | integral
  | floating
  | other
deriving DecidableEq

/-- 7-23 `alignment` of the formatted text: characters before the decimal point, and from it on. -/
def alignment : Kind → List Char → Int × Int
  | .integral, s => (s.length, 0)
  | .floating, s => if '.' ∈ s then (s.idxOf '.', s.length - s.idxOf '.') else (s.length, 0)
  | .other, _ => (0, 0)

/-- 32-39: record one value in column `i`. -/
def record (alignments : List (Int × Int)) (i : Nat) (p : Int × Int) : Out (List (Int × Int)) :=
  if (alignments.length : Int) ≤ i then .ok (alignments ++ [p])
  else do
    let q ← readAt alignments i
    writeAt alignments i (max q.1 p.1, max q.2 p.2)

/-- 25-46 `generalArrayViewToStringColWidthFinder`. `fuel` bounds the recursion; the number of dimensions is enough. -/
def colWidths (asserts : Bool) (al : α → Int × Int) (data : List α) : Nat → View → List (Int × Int) → Out (List (Int × Int))
  | fuel, v, acc =>
    if ndim v.shape = 1 then do
      let d ← at' asserts v.shape 0
      forUp 0 d (fun i acc => do
        let x ← scalar v data i
        record acc i (al x)) acc
    else if 1 < ndim v.shape then
      match fuel with
      | 0 => .ub
      | fuel + 1 => do
        let d ← at' asserts v.shape 0
        forUp 0 d (fun i acc => do
          let v' ← index asserts v i
          colWidths asserts al data fuel v' acc) acc
    else .ok acc

/-- `std::string(n, ' ')`. For array/generalArrayViewToString.hpp 8-180. -/
def spaces (n : Nat) : List (Tok α) := List.replicate n .space

/-- 100-106: after an element that is not the last. -/
def sepAfter (separator : Char) : List (Tok α) := if separator = ' ' then [.space] else [.sep, .space]

/-- 121-128: after a sub-array that is not the last. -/
def lineAfter (separator : Char) (ndim : Nat) : List (Tok α) :=
  (if separator = ' ' then [.newline] else [.sep, .newline]) ++ if ndim > 2 then [.newline] else []

/-- 91-106: one element of a row. -/
def cell (al : α → Int × Int) (separator : Char) (column : Int × Int) (x : α) (last : Bool) : List (Tok α) :=
  spaces (max (column.1 - (al x).1) 0).toNat ++ [.elem x] ++ spaces (max (column.2 - (al x).2) 0).toNat ++
    if last then [] else sepAfter separator

/-- 48-132 `generalArrayViewToStringImpl`: appends to the output. -/
def write (asserts : Bool) (al : α → Int × Int) (separator : Char) (data : List α) (alignments : List (Int × Int)) :
    Nat → View → Nat → List (Tok α) → Out (List (Tok α))
  | fuel, v, indent, ctx =>
    if ndim v.shape = 0 then do
      let x ← scalar v data 0
      .ok (ctx ++ [.elem x])
    else if ndim v.shape = 1 then do
      let d ← at' asserts v.shape 0
      let ctx ← forUp 0 d (fun i ctx => do
        let c ← readAt alignments i
        let x ← scalar v data i
        .ok (ctx ++ cell al separator c x (decide ((i : Int) = (d : Int) - 1)))) (ctx ++ [.opn])
      .ok (ctx ++ [.cls])
    else
      match fuel with
      | 0 => .ub
      | fuel + 1 => do
        let d ← at' asserts v.shape 0
        let ctx ← forUp 0 d (fun i ctx => do
          let v' ← index asserts v i
          let ctx ← write asserts al separator data alignments fuel v' (indent + 1) (ctx ++ if i > 0 then spaces (indent + 1) else [])
          .ok (ctx ++ if (i : Int) = (d : Int) - 1 then [] else lineAfter separator (ndim v.shape))) (ctx ++ [.opn])
        .ok (ctx ++ [.cls])

/-- 134-144 `generalArrayViewToString`, called by `str`, 148-155. -/
def toTokens (asserts : Bool) (al : α → Int × Int) (separator : Char) (data : List α) (v : View) : Out (List (Tok α)) := do
  let alignments ← colWidths asserts al data (ndim v.shape) v []
  write asserts al separator data alignments (ndim v.shape) v 0 []

/-- Formatting an array: arrayContainer.hpp 937-943. -/
def arrayTokens (asserts : Bool) (al : α → Int × Int) (separator : Char) (data : List α) (s : AnyShape) : Out (List (Tok α)) := do
  let v ← ofArray s
  toTokens asserts al separator data v

/-- arrayTypeDef.hpp 109-130 `parse`: the format specification is copied to `m_formatString`, which has 16 characters, one of which must
be the terminating zero. -/
def parseSpec (spec : List Char) : Out (List Char) := if spec.length < 16 then .ok spec else .ub

end Verif.Print
