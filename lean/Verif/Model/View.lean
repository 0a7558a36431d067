import Verif.Model.Shape

/-!
# Model of element access and views (array/arrayContainer.hpp, array/generalArrayView.hpp)

An array is its shape object and the list of its storage elements. A view holds a reference to the array, which here is
the storage passed to each operation, its own shape, stride and offset. `int64_t` offsets are `Int`.
-/

namespace Verif.ViewM

open ShapeM

/-- arrayContainer.hpp 693-704, 719-730: the loop of `operator()` over the indices, from dimension `dim`, with the index
accumulated so far. `m_shape[dim]` is read inside the assertion and in the update. -/
def callLoop (asserts : Bool) (s : AnyShape) (dim : Nat) (index : Int) : List Int → Out Int
  | [] => .ok index
  | i :: is => do
    let d ← at' asserts s dim
    if asserts && !(decide (0 ≤ i) && decide (i < d)) then .throw .outOfRange
    else callLoop asserts s (dim + 1) (index * d + i) is

/-- arrayContainer.hpp 681-731 `operator()(indices...)`: the storage position it denotes. -/
def callIndex (asserts : Bool) (s : AnyShape) (is : List Int) : Out Int :=
  if asserts && !(decide (ndim s = is.length)) then .throw .invalidArgument
  else callLoop asserts s 0 0 is

/-- arrayContainer.hpp 681-705 `operator()(indices...) const`. Storage access is unchecked. -/
def callRead {α : Type} (asserts : Bool) (s : AnyShape) (data : List α) (is : List Int) : Out α := do
  let p ← callIndex asserts s is
  readAt data p

/-- arrayContainer.hpp 707-731: assignment of a scalar through the reference returned by `operator()(indices...)`. -/
def callWrite {α : Type} (asserts : Bool) (s : AnyShape) (data : List α) (is : List Int) (v : α) : Out (List α) := do
  let p ← callIndex asserts s is
  writeAt data p v

/-- generalArrayView.hpp 184-189: the data members other than the reference `m_ref`. -/
structure View where
  shape : AnyShape
  stride : List Nat
  offset : Int
deriving DecidableEq, Repr

/-- generalArrayView.hpp 191-196: a view of a whole array. -/
def ofArray (s : AnyShape) : Out View := do
  let st ← mkStride s
  return ⟨s, st, 0⟩

/-- generalArrayView.hpp 198-203 copy constructor: the offset is not copied and keeps its default 0. -/
def copy (v : View) : View := ⟨v.shape, v.stride, 0⟩

/-- generalArrayView.hpp 205-210 move constructor. -/
def move (v : View) : View := ⟨v.shape, v.stride, v.offset⟩

/-- generalArrayView.hpp 394-399, 414-419 and arrayContainer.hpp 588-593, 636-641: the bounds assertion of
`operator[]`, which reads `m_shape[0]`; nothing when assertions are off. -/
def boundCheck (asserts : Bool) (s : AnyShape) (i : Int) : Out Unit :=
  if asserts then do
    let d ← at' asserts s 0
    Out.guard (decide (0 ≤ i) && decide (i < d)) .outOfRange
  else .ok ()

/-- generalArrayView.hpp 403-406, 423-426: the stride of the sub-view. -/
def subStride (asserts : Bool) (s : AnyShape) (stride : List Nat) : Out (List Nat) :=
  if ndim s = 1 then mkStride (.shape [1]) else substride asserts s stride 1 (ndim s)

/-- generalArrayView.hpp 391-429 `operator[](index)`. The stride is recomputed from the view's shape. -/
def index (asserts : Bool) (v : View) (i : Int) : Out View := do
  boundCheck asserts v.shape i
  let stride ← mkStride v.shape
  let shape' ← subshape asserts v.shape 1 (ndim v.shape)
  let stride' ← subStride asserts v.shape stride
  let s0 ← readAt stride 0
  return ⟨.shape shape', stride', v.offset + i * s0⟩

/-- arrayContainer.hpp 585-595, 633-643 `operator[](index)` of an array: its own assertion, then the view's. -/
def arrayIndex (asserts : Bool) (s : AnyShape) (i : Int) : Out View := do
  boundCheck asserts s i
  let v ← ofArray s
  index asserts v i

/-- `v[i][j]...`. Repeated `operator[]`, array/generalArrayView.hpp 392-430. -/
def chainFrom (asserts : Bool) (v : View) : List Int → Out View
  | [] => .ok v
  | i :: is => do
    let v' ← index asserts v i
    chainFrom asserts v' is

/-- `a[i][j]...` with at least one subscript. Repeated `operator[]`, array/generalArrayView.hpp 392-430. -/
def chain (asserts : Bool) (s : AnyShape) (i : Int) (is : List Int) : Out View := do
  let v ← arrayIndex asserts s i
  chainFrom asserts v is

/-- generalArrayView.hpp 503-508: the coordinates of flat position `index`, for the extents in reverse order. A zero
extent divides by zero. -/
def decodeRev : List Nat → Nat → Out (List Nat)
  | [], _ => .ok []
  | d :: ds, idx => if d = 0 then .ub else do
    let r ← decodeRev ds (idx / d)
    return idx % d :: r

/-- generalArrayView.hpp 509-510: `offset += tmp[i] * m_stride[i]`, each product in `uint32_t`. -/
def dotStride : List Nat → List Nat → Nat
  | t :: ts, s :: ss => t * s % two32 + dotStride ts ss
  | _, _ => 0

/-- generalArrayView.hpp 498-512: the storage position that `scalar(index)` reads, for a non-negative flat index. -/
def scalarPos (v : View) (idx : Nat) : Out Int :=
  if ndim v.shape = 0 then .ok v.offset
  else do
    let r ← decodeRev (ext v.shape).reverse idx
    return v.offset + (dotStride r.reverse v.stride : Nat)

/-- generalArrayView.hpp 498-512 `scalar(index)`. -/
def scalar {α : Type} (v : View) (data : List α) (idx : Nat) : Out α := do
  let p ← scalarPos v idx
  readAt data p

/-- generalArrayView.hpp 431-448 `get()` and the conversion to a scalar. -/
def get {α : Type} (asserts : Bool) (v : View) (data : List α) : Out α :=
  if asserts && !(decide (ndim v.shape = 0)) then .throw .invalidArgument else scalar v data 0

/-- generalArrayView.hpp 212-221 `operator=(scalar)`. -/
def assignScalar {α : Type} (asserts : Bool) (v : View) (data : List α) (x : α) : Out (List α) :=
  if asserts && !(decide (ndim v.shape = 0)) then .throw .invalidArgument else writeAt data v.offset x

/-- generalArrayView.hpp 241-250 (same at 275-284, 308-317, 341-350, 376-385, 558-567): one pass of the carry loop, from
the last dimension to the first. Returns the new coordinates, the new `p` and whether every dimension carried (then
`idim == ndim` and the outer loop ends). `++coord` and `(m_shape - 1) * m_stride` are `uint32_t`. -/
def carry : List Nat → List Nat → List Nat → Int → Out (List Nat × Int × Bool)
  | [], _, _, p => .ok ([], p, true)
  | d :: ds, s :: ss, c :: cs, p => do
    let (cs', p', all) ← carry ds ss cs p
    if all then
      let c' := (c + 1) % two32
      if c' = d then return (0 :: cs', p' - (((d + (two32 - 1)) % two32 * s % two32 : Nat) : Int), true)
      else return (c' :: cs', p' + s, false)
    else return (c :: cs', p', false)
  | _, _, _, _ => .ub

/-- One pass of the `do` loop of the view assignments (generalArrayView.hpp 238-251): write element `d` of the source at
`p + m_offset`, then advance. State: coordinates, `d`, `p`, storage. The source may read the storage being written. -/
def assignBody {α : Type} (v : View) (src : Nat → List α → Out α) (st : List Nat × Nat × Int × List α) :
    Out ((List Nat × Nat × Int × List α) × Bool) := do
  let (coord, d, p, data) := st
  let x ← src d data
  let data' ← writeAt data (p + v.offset) x
  let (coord', p', all) ← carry (ext v.shape) v.stride coord p
  return ((coord', d + 1, p', data'), !all)

/-- generalArrayView.hpp 223-389: the assignments from a view, an array, an expression, a transpose or a product. All five
check the shapes and run the same loop; `src` is the source's `scalar`. (`m_shape.operator==` exists only for `Shape`.) -/
def assign {α : Type} (asserts : Bool) (v : View) (srcShape : AnyShape) (src : Nat → List α → Out α) (data : List α) :
    Out (List α) := do
  if asserts && !(shapeEq (ext v.shape) (ext srcShape)) then .throw .rangeError
  else
    let r ← doWhile (assignBody v src) (List.replicate (ndim v.shape) 0, 0, 0, data)
    return r.2.2.2

/-- One pass of the `do` loop of `eval` (generalArrayView.hpp 555-568). -/
def evalBody {α : Type} (v : View) (data : List α) (st : List Nat × Nat × Int × List α) :
    Out ((List Nat × Nat × Int × List α) × Bool) := do
  let (coord, d, p, res) := st
  let x ← readAt data (p + v.offset)
  let res' ← writeAt res (d : Nat) x
  let (coord', p', all) ← carry (ext v.shape) v.stride coord p
  return ((coord', d + 1, p', res'), !all)

/-- generalArrayView.hpp 546-571 `eval`: `init` stands for the freshly allocated, uninitialised elements of the result, one
per element of the view's shape. -/
def eval {α : Type} (v : View) (data : List α) (init : List α) : Out (List α) := do
  let r ← doWhile (evalBody v data) (List.replicate (ndim v.shape) 0, 0, 0, init)
  return r.2.2.2

end Verif.ViewM
