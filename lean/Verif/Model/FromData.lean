import Verif.Model.View
import Verif.Spec.Shape

/-!
# Model of the constructors from nested data (array/arrayFromData.hpp) and of the comma initialiser

`Nest α d` is a list nested `d` deep: `std::initializer_list` or `std::vector` of ... of scalars. The header defines the
constructors for depths 1 to 8; the model defines them at every depth by the same text. An array is its shape object and the list
of its elements. `junk` stands for the values of freshly allocated elements.
-/

namespace Verif.FromDataM

open ShapeM Grid

/-- Data nested `d` deep. For array/arrayFromData.hpp 5-159. -/
def Nest (α : Type) : Nat → Type
  | 0 => α
  | d + 1 => List (Nest α d)

/-- An array: extents and elements. For array/arrayFromData.hpp 5-159. -/
abbrev Arr (α : Type) : Type := List Nat × List α

/-- The two families of constructors, which differ in one exception type. For array/arrayFromData.hpp 5-159. -/
inductive Form where
  | initList
  | vector
deriving DecidableEq, Repr

/-- arrayFromData.hpp 49 and 93: what a row of the wrong length throws. -/
def rowExc : Form → Exc
  | .initList => .lengthError
  | .vector => .rangeError

/-- The elements of a new array of extents `dims`: uninitialised (arrayContainer.hpp, `ArrayContainer(const ShapeType &)`). For
array/arrayFromData.hpp 5-159. -/
def fresh {α : Type} (junk : Nat → α) (dims : List Nat) : List α := (List.range (count dims)).map junk

/-- arrayFromData.hpp 5-21: from a list of scalars. The size is stored as `uint32_t`. -/
def fromRow {α : Type} (asserts : Bool) (xs : List α) : Out (Arr α) :=
  if asserts && !(decide (0 < xs.length)) then .throw .invalidArgument else .ok ([u32 xs.length], xs)

/-- arrayFromData.hpp 46-55, 90-99: every row has as many elements as the first. -/
def checkRows {α : Type} (e : Exc) (cols : Nat) : List (List α) → Out Unit
  | [] => .ok ()
  | r :: rs => if r.length = cols then checkRows e cols rs else .throw e

/-- One assignment `res[i] = t`, a view assignment (arrayFromData.hpp 58, 102 and 135). -/
def setRow {α : Type} (asserts : Bool) (dims : List Nat) (i : Nat) (t : Arr α) (res : List α) : Out (List α) := do
  let v ← ViewM.arrayIndex asserts (.shape dims) i
  ViewM.assign asserts v (.shape t.1) (fun k _ => readAt t.2 k) res

/-- arrayFromData.hpp 57-58, 101-102: each row becomes an array and is assigned to `res[index++]`. -/
def fillRows {α : Type} (asserts : Bool) (dims : List Nat) (i : Nat) : List (List α) → List α → Out (List α)
  | [], res => .ok res
  | r :: rs, res => do
    let t ← fromRow asserts r
    let res' ← setRow asserts dims i t res
    fillRows asserts dims (i + 1) rs res'

/-- With assertions compiled in, the check of all the rows; otherwise nothing. For array/arrayFromData.hpp 5-159. -/
def checkIf {α : Type} (asserts : Bool) (e : Exc) (cols : Nat) (rows : List (List α)) : Out Unit :=
  if asserts then checkRows e cols rows else .ok ()

/-- arrayFromData.hpp 23-28, 45-65 and 68-73, 89-108: from a list of rows, for `ShapeType` other than `MatrixShape`. Reading the
first row of an empty list is undefined. -/
def fromRows {α : Type} (asserts : Bool) (junk : Nat → α) (form : Form) (rows : List (List α)) : Out (Arr α) :=
  match rows with
  | [] => if asserts then .throw .invalidArgument else .ub
  | r :: rs => do
    let dims := [u32 (r :: rs).length, u32 r.length]
    checkIf asserts (rowExc form) (u32 r.length) (r :: rs)
    let res ← fillRows asserts dims 0 (r :: rs) (fresh junk dims)
    return (dims, res)

/-- arrayFromData.hpp 119-120: the sub-arrays, built in order. -/
def buildAll {β γ : Type} (f : β → Out γ) : List β → Out (List γ)
  | [] => .ok []
  | x :: xs => do
    let t ← f x
    let ts ← buildAll f xs
    return t :: ts

/-- arrayFromData.hpp 122-129: every sub-array has the shape of the first. -/
def checkShapes {α : Type} (asserts : Bool) (zero : List Nat) : List (Arr α) → Out Unit
  | [] => .ok ()
  | t :: ts => if asserts && !(shapeEq t.1 zero) then .throw .rangeError else checkShapes asserts zero ts

/-- arrayFromData.hpp 134: `res[i] = tmp[i]` for every `i`. -/
def fillAll {α : Type} (asserts : Bool) (dims : List Nat) (i : Nat) : List (Arr α) → List α → Out (List α)
  | [], res => .ok res
  | t :: ts, res => do
    let res' ← setRow asserts dims i t res
    fillAll asserts dims (i + 1) ts res'

/-- arrayFromData.hpp 121-136: putting the sub-arrays together. With none, `tmp[0]` is undefined. -/
def assemble {α : Type} (asserts : Bool) (junk : Nat → α) (tmp : List (Arr α)) : Out (Arr α) :=
  match tmp with
  | [] => .ub
  | t :: ts => do
    checkShapes asserts t.1 (t :: ts)
    let dims := u32 (t :: ts).length :: t.1
    let res ← fillAll asserts dims 0 (t :: ts) (fresh junk dims)
    return (dims, res)

/-- arrayFromData.hpp 111-137 `HIGHER_DIMENSIONAL_FROM_DATA`, given the constructor for the items. -/
def fromItems {α β : Type} (asserts : Bool) (junk : Nat → α) (f : β → Out (Arr α)) (data : List β) : Out (Arr α) :=
  if asserts && !(decide (0 < data.length)) then .throw .invalidArgument
  else do
    let tmp ← buildAll f data
    assemble asserts junk tmp

/-- The constructor of `Array` (shape type `Shape`) from data nested `d + 1` deep. -/
def fromData {α : Type} (asserts : Bool) (junk : Nat → α) (form : Form) : (d : Nat) → Nest α (d + 1) → Out (Arr α)
  | 0, data => fromRow asserts data
  | 1, data => fromRows asserts junk form data
  | d + 2, data => fromItems (β := Nest α (d + 2)) asserts junk (fromData asserts junk form (d + 1)) data

/-- arrayFromData.hpp 39-41, 84: the inner loop of the `MatrixShape` constructor, through `operator()`. -/
def setCells {α : Type} (asserts : Bool) (s : AnyShape) (i j : Nat) : List α → List α → Out (List α)
  | [], res => .ok res
  | x :: xs, res => do
    let res' ← ViewM.callWrite asserts s res [(i : Int), (j : Int)] x
    setCells asserts s i (j + 1) xs res'

/-- arrayFromData.hpp 31-42, 76-85: the outer loop, which checks the length of each row before writing it. -/
def setRows {α : Type} (asserts : Bool) (s : AnyShape) (cols : Nat) (i : Nat) : List (List α) → List α → Out (List α)
  | [], res => .ok res
  | r :: rs, res =>
    if asserts && !(decide (r.length = cols)) then .throw .rangeError
    else do
      let res' ← setCells asserts s i 0 r res
      setRows asserts s cols (i + 1) rs res'

/-- arrayFromData.hpp 28-44, 73-88: from a list of rows, for `MatrixShape`. -/
def matrixFromRows {α : Type} (asserts : Bool) (junk : Nat → α) (rows : List (List α)) : Out (AnyShape × List α) :=
  match rows with
  | [] => if asserts then .throw .invalidArgument else .ub
  | r :: rs => do
    let s := AnyShape.matrix (u32 (r :: rs).length) (u32 r.length)
    let res ← setRows asserts s (u32 r.length) 0 (r :: rs) (fresh junk (ext s))
    return (s, res)

/-- commaInitializer.hpp 34-39 `next`, for each value in turn: write at `m_index` through the storage's `operator[]`, which asserts
the bound (storage.hpp), then advance. -/
def commaFrom {α : Type} (asserts : Bool) (data : List α) (index : Nat) : List α → Out (List α)
  | [] => .ok data
  | x :: xs =>
    if asserts && !(decide (index < data.length)) then .throw .assertion
    else do
      let data' ← writeAt data (index : Nat) x
      commaFrom asserts data' (index + 1) xs

/-- `array << x, y, ...` (arrayContainer.hpp `operator<<`, commaInitializer.hpp 10-33). The initialiser starts at element 0. -/
def comma {α : Type} (asserts : Bool) (data : List α) (xs : List α) : Out (List α) := commaFrom asserts data 0 xs

end Verif.FromDataM
