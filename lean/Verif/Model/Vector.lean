import Verif.Basic

/-!
# Fixed-size vectors

`/repo/librapid/include/librapid/math/vectorImpl.hpp` and `vectorForward.hpp`.

A `Vector<T, N>` stores its components in `SimdVectorStorage` when the packet of `T` has more than one lane (`width > 1`) and in
`GenericVectorStorage` otherwise (`width = 1`), vectorForward.hpp 12-17. The two classes have the same members; one counts in packets
and the other in scalars, which is the same at width 1. They differ in what a constructor leaves where no value is given:
`GenericVectorStorage` has `data {}` and stores zeros, `SimdVectorStorage` leaves the memory as it was (`mem` below).

Simplifications: the memory of a vector is a function from lane numbers; only lanes below `packets dims width * width` exist, and every
access checks that. Reading the union's packets after writing its scalars is taken to read the same bytes (as GCC, Clang and MSVC
define it). Scalar operations are total functions on `K`. `xsimd::reduce_add` adds the lanes from the left; the theorems that use it are
about exact (associative and commutative) addition. The prefix operators do not compile for vectors (`VECTOR_UNARY_OP`, 900-916, calls
`requires IsVector` on a packet), so the unary operations are those of `VECTOR_FUNC_STRUCT_DEF`.
-/

namespace Verif.Vec

/-- `(N + packetWidth - 1) / packetWidth`, 277, 294. -/
def packets (dims width : Nat) : Nat := (dims + width - 1) / width

/-- A `Vector<T, dims>` whose packets have `width` lanes. math/vectorImpl.hpp 170-380. -/
structure V (K : Type) where
  dims : Nat
  width : Nat
  lane : Nat → K

/-- `length` of the storage. math/vectorImpl.hpp 36, 52. -/
def V.length (v : V K) : Nat := packets v.dims v.width

/-- `operator[]`, 222-237, 332-347: `scalar` has `dims` elements. -/
def V.get (asserts : Bool) (v : V K) (index : Int) : Out K := do
  Out.assert asserts (decide (0 ≤ index ∧ index < v.dims))
  if 0 ≤ index ∧ index < v.dims then .ok (v.lane index.toNat) else .ub

/-- Assigning through `operator[]`. math/vectorImpl.hpp 231-237. -/
def V.put (asserts : Bool) (v : V K) (index : Int) (x : K) : Out (V K) := do
  Out.assert asserts (decide (0 ≤ index ∧ index < v.dims))
  if 0 ≤ index ∧ index < v.dims then .ok { v with lane := fun j => if j = index.toNat then x else v.lane j } else .ub

/-- `_get`, 251-257, 363-369: packet `index`. The assertion compares with `dims`, the number of scalars; the array has `length` packets. -/
def V.getP (asserts : Bool) (v : V K) (index : Nat) : Out (Nat → K) := do
  Out.assert asserts (decide (index < v.dims))
  if index < v.length then .ok (fun l => v.lane (index * v.width + l)) else .ub

/-- `_set`, 259-265, 371-377. -/
def V.setP (asserts : Bool) (v : V K) (index : Nat) (p : Nat → K) : Out (V K) := do
  Out.assert asserts (decide (index < v.dims))
  if index < v.length then
    .ok { v with lane := fun j => if index * v.width ≤ j ∧ j < index * v.width + v.width then p (j - index * v.width) else v.lane j }
  else .ub

/-! ### Constructors -/

/-- What the storage holds before a constructor stores values: zeros in `GenericVectorStorage` (`data {}`, 186-189), the memory as it was in
`SimdVectorStorage` (`data`, 303). -/
def fresh [Zero K] (dims width : Nat) (mem : Nat → K) : V K := ⟨dims, width, if width = 1 then fun _ => 0 else mem⟩

/-- The first components from a list. math/vectorImpl.hpp 170-380. -/
def fill (v : V K) (xs : List K) : V K :=
  { v with lane := fun j => match xs[j]? with | some x => if j < v.dims then x else v.lane j | none => v.lane j }

/-- `Vector(args...)`, 497-498: 193, 306-310. More arguments than components do not compile. -/
def ofArgs [Zero K] (dims width : Nat) (mem : Nat → K) (args : List K) : V K := fill (fresh dims width mem) args

/-- `Vector(initializer_list)`, `Vector(std::vector)`, 500-504: 200-220, 312-330. -/
def ofList [Zero K] (asserts : Bool) (dims width : Nat) (mem : Nat → K) (xs : List K) : Out (V K) := do
  Out.assert asserts (decide (xs.length ≤ dims))
  .ok (fill (fresh dims width mem) xs)

/-- `for (i = 0; i < dims; ++i) m_data[i] = value`: `Vector(T)`, `full`, `operator=(scalar)`, 492-495, 529-533, 567-570. -/
def setAll (v : V K) (x : K) : V K := { v with lane := fun j => if j < v.dims then x else v.lane j }

/-- `Vector(T value)`, `full(value)`. math/vectorImpl.hpp 170-380. -/
def full [Zero K] (dims width : Nat) (mem : Nat → K) (x : K) : V K := setAll (fresh dims width mem) x

/-- `zero()`, 521: `Vector()` value-initialises, which zeroes the whole object first because `Vector() = default` is not user-provided. -/
def zero [Zero K] (dims width : Nat) : V K := ⟨dims, width, fun _ => 0⟩

/-! ### Expressions -/

/-- An expression template: `BinaryVecOp` and `UnaryVecOp` hold their operands by value, 683-685, 740-741. -/
inductive Expr (K : Type) where
  | vec (v : V K)
  | scalar (x : K)
  | bin (f : K → K → K) (l r : Expr K)
  | un (f : K → K) (e : Expr K)

/-- `StorageType` of an expression: that of the left operand unless that is a scalar, vectorForward.hpp 19-34. -/
def Expr.shape : Expr K → Option (Nat × Nat)
  | .vec v => some (v.dims, v.width)
  | .scalar _ => none
  | .bin _ l r => match l.shape with | some s => some s | none => r.shape
  | .un _ e => e.shape

/-- `scalarGetHelper`/`_get`, 404-434, 725-727, 785-787: packet `index` of an expression. A scalar operand is the same in every lane. -/
def Expr.getP (asserts : Bool) : Expr K → Nat → Out (Nat → K)
  | .vec v, i => v.getP asserts i
  | .scalar x, _ => .ok fun _ => x
  | .bin f l r, i => do
    let a ← l.getP asserts i
    let b ← r.getP asserts i
    .ok fun k => f (a k) (b k)
  | .un f e, i => do
    let a ← e.getP asserts i
    .ok fun k => f (a k)

/-- `vectorDetail::assign` with equal scalar types, 790-835: the packets both have, in order. -/
def assign (asserts : Bool) (dst : V K) (src : Expr K) : Out (V K) :=
  match src.shape with
  | none => .ub -- there is no expression without a vector
  | some (n, w) =>
    forUp 0 (min dst.length (packets n w)) (fun i d => do
      let p ← src.getP asserts i
      d.setP asserts i p) dst

/-- `eval()`, 697-700, 752-755: `Vector<Scalar, dims> result(*this)`. -/
def eval [Zero K] (asserts : Bool) (mem : Nat → K) : Expr K → Out (V K)
  | .vec v => .ok v -- 599
  | src => match src.shape with
    | none => .ub
    | some (n, w) => assign asserts (fresh n w mem) src

/-! ### Casts -/

/-- `cast<Scalar, NewDims>()` with the same scalar type, 601-608: in `SimdVectorStorage`, 145-166, all packets of the new vector are copied
from the old one; in `GenericVectorStorage`, 124-129, the components both have. -/
def castSame [Zero K] (newDims : Nat) (mem : Nat → K) (v : V K) : Out (V K) :=
  if v.width = 1 then .ok ⟨newDims, 1, fun j => if j < min newDims v.dims then v.lane j else 0⟩
  else if packets newDims v.width ≤ v.length then
    .ok ⟨newDims, v.width, fun j => if j < packets newDims v.width * v.width then v.lane j else mem j⟩
  else .ub

/-- `cast<NewScalar, NewDims>()` to another scalar type: the components both have, converted, 124-143, 168. -/
def castTo [Zero L] (conv : K → L) (newDims newWidth : Nat) (mem : Nat → L) (v : V K) : V L :=
  let r : V L := fresh newDims newWidth mem
  { r with lane := fun j => if j < min newDims v.dims then conv (v.lane j) else r.lane j }

/-! ### Reductions -/

/-- Sum of the values of `g` below `n`, from the left, starting at 0. -/
def addUp [Add K] [Zero K] (n : Nat) (g : Nat → K) : K := (List.range n).foldl (fun s i => s + g i) 0

/-- `sum()`, 239-243, 349-354: packets are added lane by lane, then the lanes (`xsimd::reduce_add`). -/
def V.sum [Add K] [Zero K] (v : V K) : K :=
  addUp v.width fun l => addUp v.length fun i => v.lane (i * v.width + l)

/-- `sum2()`, 245-249, 356-361. -/
def V.sum2 [Add K] [Mul K] [Zero K] (v : V K) : K :=
  addUp v.width fun l => addUp v.length fun i => v.lane (i * v.width + l) * v.lane (i * v.width + l)

/-- `sum(val)`, 1020-1024. -/
def sum [Add K] [Zero K] (asserts : Bool) (mem : Nat → K) (e : Expr K) : Out K := do
  let v ← eval asserts mem e
  .ok v.sum

/-- `mag2(val)`, 1008-1012. -/
def mag2 [Add K] [Mul K] [Zero K] (asserts : Bool) (mem : Nat → K) (e : Expr K) : Out K := do
  let v ← eval asserts mem e
  .ok v.sum2

/-- `dot(first, second)`, 1026-1030. -/
def dot [Add K] [Mul K] [Zero K] (asserts : Bool) (mem : Nat → K) (a b : Expr K) : Out K :=
  sum asserts mem (.bin (· * ·) a b)

/-- `cross(first, second)`, 1032-1050, on vectors. The assertion is the only check of the dimensions. -/
def cross [Sub K] [Mul K] [Zero K] (asserts : Bool) (mem : Nat → K) (a b : V K) : Out (V K) := do
  Out.assert asserts (decide (a.dims = 3 ∧ b.dims = 3))
  let x1 ← a.get asserts 0
  let y1 ← a.get asserts 1
  let z1 ← a.get asserts 2
  let x2 ← b.get asserts 0
  let y2 ← b.get asserts 1
  let z2 ← b.get asserts 2
  ofList asserts 3 a.width mem [y1 * z2 - z1 * y2, z1 * x2 - x1 * z2, x1 * y2 - y1 * x2]

/-- `norm(val)`, 1054-1056: an expression `val / mag(val)`. -/
def norm [Add K] [Mul K] [Div K] [Zero K] (sqrt : K → K) (asserts : Bool) (mem : Nat → K) (e : Expr K) : Out (Expr K) := do
  let m ← mag2 asserts mem e
  .ok (.bin (· / ·) e (.scalar (sqrt m)))

/-- `fromPolar(r, theta)`, 553-555. -/
def fromPolar2 [Zero K] [Mul K] (cos sin : K → K) (width : Nat) (mem : Nat → K) (r theta : K) : V K :=
  ofArgs 2 width mem [cos theta * r, sin theta * r]

/-- `fromPolar(r, theta, phi)`, 557-562. -/
def fromPolar3 [Zero K] [Mul K] (cos sin : K → K) (width : Nat) (mem : Nat → K) (r theta phi : K) : V K :=
  ofArgs 3 width mem [cos theta * cos phi * r, sin theta * cos phi * r, sin phi * r]

/-- `randomPointInSphere`, vector.hpp 39-55, of the three draws `u`, `v`, `t`. -/
def randomPointInSphere [Zero K] [One K] [Add K] [Mul K] [Sub K] [OfNat K 2] (cos sin acos cbrt : K → K) (pi : K) (width : Nat) (mem : Nat → K)
    (u v t : K) : V K :=
  let theta := u * 2 * pi
  let phi := acos (2 * v - 1)
  let r := cbrt t
  ofArgs 3 width mem [r * sin phi * cos theta, r * sin phi * sin theta, r * cos phi]

end Verif.Vec
