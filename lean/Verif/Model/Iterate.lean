import Verif.Model.View

/-!
# Model of range-based `for` over arrays and views (array/arrayIterator.hpp)

`for (auto x : a) body` is the C++ rewriting: take `a.begin()` and `a.end()`, and while they differ run the body on `*it`
and increment `it`. The body's result is the list of what it visits.
-/

namespace Verif.ViewM

open ShapeM

/-- arrayIterator.hpp 45-47: an iterator owns a view and a `size_t` position. -/
structure Iter where
  view : View
  pos : Nat
deriving DecidableEq, Repr

/-- arrayContainer.hpp 915-919, 927-930 `ArrayContainer::begin`: the temporary view is moved into the iterator
(arrayIterator.hpp 58-60). -/
def arrayBegin (s : AnyShape) : Out Iter := do
  let v ← ofArray s
  return ⟨move v, 0⟩

/-- arrayContainer.hpp 921-925, 932-935 `ArrayContainer::end`. -/
def arrayEnd (asserts : Bool) (s : AnyShape) : Out Iter := do
  let v ← ofArray s
  let n ← at' asserts s 0
  return ⟨move v, n⟩

/-- generalArrayView.hpp 573-577 `GeneralArrayView::begin`: `*this` is an lvalue, so the iterator's view is built by the copy
constructor (arrayIterator.hpp 54-56). -/
def viewBegin (v : View) : Iter := ⟨copy v, 0⟩

/-- generalArrayView.hpp 579-583 `GeneralArrayView::end`. -/
def viewEnd (asserts : Bool) (v : View) : Out Iter := do
  let n ← at' asserts v.shape 0
  return ⟨copy v, n⟩

/-- arrayIterator.hpp 78-86 `operator*`: `m_array[m_index]`. -/
def deref (asserts : Bool) (it : Iter) : Out View := index asserts it.view it.pos

/-- arrayIterator.hpp 62-66 `operator++`. -/
def next (it : Iter) : Iter := ⟨it.view, it.pos + 1⟩

/-- The loop of a range-based `for`, with `operator!=` (arrayIterator.hpp 68-76) comparing only positions. The number bounds
the passes; `begin()` and `end()` give positions `0` and `n`, for which `n` passes suffice (running out would be `ub`). -/
def rangeFor {β : Type} (asserts : Bool) (body : View → Out (List β)) (stop : Iter) : Nat → Iter → Out (List β)
  | 0, it => if it.pos = stop.pos then .ok [] else .ub
  | n + 1, it =>
    if it.pos = stop.pos then .ok []
    else do
      let x ← deref asserts it
      let r ← body x
      let rs ← rangeFor asserts body stop n (next it)
      return r ++ rs

/-- `for (auto x : a) body`. The statement of C++ over array/arrayIterator.hpp 10-110. -/
def forArray {β : Type} (asserts : Bool) (s : AnyShape) (body : View → Out (List β)) : Out (List β) := do
  let b ← arrayBegin s
  let e ← arrayEnd asserts s
  rangeFor asserts body e e.pos b

/-- `for (auto x : v) body` over a view. The statement of C++ over array/arrayIterator.hpp 10-110. -/
def forView {β : Type} (asserts : Bool) (v : View) (body : View → Out (List β)) : Out (List β) := do
  let e ← viewEnd asserts v
  rangeFor asserts body e e.pos (viewBegin v)

/-- `depth` nested range-based loops over a view, the innermost body reading the scalar with `get()`. The statement of C++ over
array/arrayIterator.hpp 10-110. -/
def nestView {α : Type} (asserts : Bool) (data : List α) : Nat → View → Out (List α)
  | 0, v => do
    let x ← get asserts v data
    return [x]
  | n + 1, v => forView asserts v (nestView asserts data n)

/-- As many nested range-based loops over an array as it has dimensions, the innermost body reading the scalar. The statement of C++ over
array/arrayIterator.hpp 10-110. -/
def nestArray {α : Type} (asserts : Bool) (s : AnyShape) (data : List α) : Out (List α) :=
  forArray asserts s (nestView asserts data (ndim s - 1))

end Verif.ViewM
