import Verif.Basic

/-!
# Model of `Shape`, `MatrixShape`, `VectorShape` and `Stride` (array/shape.hpp, array/strideTools.hpp)

Extents are `uint32_t` in the code: naturals here, reduced modulo 2^32 wherever the code stores or multiplies them in
`uint32_t`. A `Shape` is the list of its first `m_dims` extents; the other entries of the 16-element array are
indeterminate and reading one is `ub`. The three classes are the three constructors of `AnyShape`, so that code which is
a template over the shape class can be modelled once.
-/

namespace Verif.ShapeM

/-- `uint32_t` arithmetic. -/
def two32 : Nat := 2 ^ 32

/-- `size_t` arithmetic. The type `size_t`; for array/shape.hpp and array/strideTools.hpp. -/
def two64 : Nat := 2 ^ 64

/-- core/config.hpp: `LIBRAPID_MAX_ARRAY_DIMS`. core/config.hpp 482-484. -/
def maxDims : Nat := 16

/-- shape.hpp 16-150 `Shape`, 152-211 `MatrixShape`, 213-273 `VectorShape`. -/
inductive AnyShape where
  | shape (ext : List Nat)
  | matrix (rows cols : Nat)
  | vector (elements : Nat)
deriving DecidableEq, Repr

/-- Conversion of an integer to `uint32_t`. -/
def u32 (x : Int) : Nat := (x % (two32 : Int)).toNat

/-- shape.hpp 286-295 (and 308-320) `Shape` from an initializer list or a vector: every value is stored, without a check
against the 16-element array. -/
def ofList (vals : List Int) : Out AnyShape :=
  if vals.length ≤ maxDims then .ok (.shape (vals.map u32)) else .ub

/-- shape.hpp 425-459 (and 479-519) `MatrixShape` from a list of values. With assertions off and more than two values
the last branch is taken. -/
def matrixOfList (asserts : Bool) (vals : List Int) : Out AnyShape := do
  if asserts && !(decide (vals.length ≤ 2)) then .throw .invalidArgument
  else match vals with
    | [r, c] => .ok (.matrix (u32 r) (u32 c))
    | [r] => .ok (.matrix (u32 r) 1)
    | _ => .ok (.matrix 0 0)

/-- shape.hpp 598-614 `VectorShape` from a list of values (an empty list is read out of bounds when assertions are
off). -/
def vectorOfList (asserts : Bool) (vals : List Int) : Out AnyShape := do
  if asserts && !(decide (vals.length = 1)) then .throw .invalidArgument
  else match vals with
    | n :: _ => .ok (.vector (u32 n))
    | [] => .ub

/-- shape.hpp 297-306 conversions of the two special classes to `Shape`. -/
def toShape : AnyShape → AnyShape
  | .shape e => .shape e
  | .matrix r c => .shape [r, c]
  | .vector n => .shape [n]

/-- shape.hpp 461-477 `MatrixShape(const Shape &)`. -/
def matrixOfShape (asserts : Bool) (ext : List Nat) : Out AnyShape := do
  if asserts && !(decide (ext.length ≤ 2)) then .throw .invalidArgument
  else match ext with
    | [r, c] => .ok (.matrix r c)
    | [r] => .ok (.matrix r 1)
    | _ => .ok (.matrix 0 0)

/-- shape.hpp 616-623 `VectorShape(const Shape &)`. -/
def vectorOfShape (asserts : Bool) (ext : List Nat) : Out AnyShape := do
  if asserts && !(decide (ext.length = 1)) then .throw .invalidArgument
  else match ext with
    | n :: _ => .ok (.vector n)
    | [] => .ub

/-- The extents an object holds, in order. For array/shape.hpp 16-420. -/
def ext : AnyShape → List Nat
  | .shape e => e
  | .matrix r c => [r, c]
  | .vector n => [n]

/-- shape.hpp 377, 558, 684 `ndim()`. -/
def ndim : AnyShape → Nat
  | .shape e => e.length
  | .matrix _ _ => 2
  | .vector _ => 1

/-- shape.hpp 336-363 (`Shape`), 532-556 (`MatrixShape`), 658-682 (`VectorShape`) `operator[]`. With assertions off,
`MatrixShape` returns the columns for every index other than 0 and `VectorShape` its only extent for every index. -/
def at' (asserts : Bool) : AnyShape → Int → Out Nat
  | .shape e, i =>
    if asserts && !(decide (i < e.length)) then .throw .outOfRange
    else if asserts && !(decide (0 ≤ i)) then .throw .outOfRange
    else readAt e i
  | .matrix r c, i =>
    if asserts && !(decide (i < 2)) then .throw .outOfRange
    else if asserts && !(decide (0 ≤ i)) then .throw .outOfRange
    else .ok (if i = 0 then r else c)
  | .vector n, i =>
    if asserts && !(decide (i < 1)) then .throw .rangeError
    else if asserts && !(decide (0 ≤ i)) then .throw .rangeError
    else .ok n

/-- shape.hpp 405-409 `Shape::size`: a `size_t` product in a loop over the dimensions. -/
def shapeSize (e : List Nat) : Nat := e.foldl (fun res d => res * d % two64) 1

/-- shape.hpp 405-409, 582 (`uint32_t` product, then widened), 705 `size()`. -/
def size : AnyShape → Nat
  | .shape e => shapeSize e
  | .matrix r c => r * c % two32
  | .vector n => n

/-- shape.hpp 399-402: the copy loop of `Shape::subshape`. A range leaving the dimensions (only with assertions off) would
copy indeterminate entries or leave a negative number of dimensions: counted as `ub`. -/
def copyRange (e : List Nat) (start stop : Int) : Out (List Nat) :=
  if 0 ≤ start ∧ start ≤ stop ∧ stop ≤ e.length then .ok ((e.drop start.toNat).take (stop.toNat - start.toNat))
  else .ub

/-- shape.hpp 379-403 `Shape::subshape`. -/
def shapeSubshape (asserts : Bool) (e : List Nat) (start stop : Int) : Out (List Nat) :=
  let start := if start < 0 then 0 else start
  let stop := if stop < 0 then (e.length : Int) else stop
  if asserts && !(decide (start ≤ stop)) then .throw .rangeError
  else if asserts && !(decide (stop ≤ e.length)) then .throw .outOfRange
  else copyRange e start stop

/-- shape.hpp 379-403, 560-580, 686-703 `subshape`; the result is always a `Shape`. The one of `VectorShape` ignores its
arguments and its extent. -/
def subshape (asserts : Bool) : AnyShape → Int → Int → Out (List Nat)
  | .shape e, start, stop => shapeSubshape asserts e start stop
  | .matrix r c, start, stop =>
    if asserts && !(decide (start ≤ stop)) then .throw .invalidArgument
    else if asserts && !(decide (stop ≤ 2)) then .throw .outOfRange
    else if asserts && !(decide (0 ≤ start)) then .throw .outOfRange
    else shapeSubshape asserts [r, c] start stop
  | .vector _, start, stop =>
    if asserts && !(decide (start ≤ stop)) then .throw .invalidArgument
    else if asserts && !(decide (stop ≤ 1)) then .throw .rangeError
    else if asserts && !(decide (0 ≤ start)) then .throw .rangeError
    else .ok [0]

/-- shape.hpp 365-371 `Shape::operator==`: the loop over the dimensions. -/
def shapeEqLoop : List Nat → List Nat → Bool
  | a :: as, b :: bs => if a ≠ b then false else shapeEqLoop as bs
  | _, _ => true

/-- shape.hpp 365-371 `Shape::operator==`. -/
def shapeEq (a b : List Nat) : Bool := if a.length ≠ b.length then false else shapeEqLoop a b

/-- shape.hpp 365-371, 715-765 `operator==` between the classes. There is no `operator==` for two `MatrixShape`s or two
`VectorShape`s (it does not compile): `none`. -/
def eq : AnyShape → AnyShape → Option Bool
  | .shape a, .shape b => some (shapeEq a b)
  | .shape a, .matrix r c => some (match a with | [x, y] => decide (x = r) && decide (y = c) | _ => false)
  | .matrix r c, .shape a => some (match a with | [x, y] => decide (x = r) && decide (y = c) | _ => false)
  | .shape a, .vector n => some (match a with | [x] => decide (x = n) | _ => false)
  | .vector n, .shape a => some (match a with | [x] => decide (x = n) | _ => false)
  | .matrix _ _, .vector _ => some false
  | .vector _, .matrix _ _ => some false
  | .matrix _ _, .matrix _ _ => none
  | .vector _, .vector _ => none

/-- shape.hpp 373-375, 725-775 `operator!=`. -/
def ne (a b : AnyShape) : Option Bool := (eq a b).map (!·)

/-- shape.hpp 799-817 `shapesMatch` on a tuple of `Shape`s: compares the first two, then recurses on the rest without
both of them. -/
def shapesMatch : List (List Nat) → Bool
  | a :: b :: [] => shapeEq a b
  | a :: b :: rest => shapeEq a b && shapesMatch rest
  | _ => true

/-- strideTools.hpp 95-98: `tmp[n-1] = 1` and `tmp[i-1] = tmp[i] * extent[i]` in `uint32_t`, from the last dimension to
the first. -/
def strideLoop : List Nat → List Nat
  | [] => []
  | [_] => [1]
  | _ :: e :: es =>
    match strideLoop (e :: es) with
    | [] => []
    | t :: ts => (t * e % two32) :: t :: ts

/-- strideTools.hpp 87-99 `Stride(shape)`. For a shape of size zero only entry 0 is overwritten. A 0-dimensional shape
(size 1) writes `tmp[-1]`. The wrap-around of `MatrixShape::size` makes this branch depend on the class. -/
def mkStride (s : AnyShape) : Out (List Nat) :=
  if size s = 0 then .ok ((ext s).set 0 1)
  else if ndim s = 0 then .ub
  else .ok (strideLoop (ext s))

/-- strideTools.hpp 111-120 `substride` of a stride stored in a shape object of the same class as `s`. -/
def substride (asserts : Bool) (s : AnyShape) (stride : List Nat) (start stop : Nat) : Out (List Nat) :=
  if asserts && !(decide (start < stop)) then .throw .assertion
  else if asserts && !(decide (stop ≤ ndim s)) then .throw .assertion
  else match s, stride with
    | .shape _, e => subshape asserts (.shape e) start stop
    | .matrix _ _, [a, b] => subshape asserts (.matrix a b) start stop
    | .vector _, [a] => subshape asserts (.vector a) start stop
    | _, _ => .ub

/-- Shape objects a program can build from in-range extents. For array/shape.hpp 16-420. -/
def Valid (s : AnyShape) : Prop := (ext s).length ≤ maxDims ∧ ∀ d ∈ ext s, d < two32

instance (s : AnyShape) : Decidable (Valid s) := inferInstanceAs (Decidable (_ ∧ _))

end Verif.ShapeM
