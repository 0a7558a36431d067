import Verif.Basic
import Mathlib.Order.Defs.LinearOrder

/-!
# Model of `librapid::Set` (datastructures/set.hpp)

The class keeps a `std::vector` sorted in increasing order. Element types are modelled by an arbitrary linear order
(the C++ class relies on `<`, `>`, `!=` being the relations of one total order; `float` NaNs are not modelled).
`int64_t` indices are modelled by `Int` (vector sizes are far below 2^62, so `head + tail` does not overflow).
-/

namespace Verif.SetM

/-- set.hpp 12-511: the single data member `m_data`. -/
structure LSet (α : Type) where
  data : List α
deriving DecidableEq, Repr

variable {α : Type} [LinearOrder α]

theorem mid_bounds {h t : Int} (hle : h ≤ t) : h ≤ (h + t).tdiv 2 ∧ (h + t).tdiv 2 ≤ t := by
  rcases Int.le_total 0 (h + t) with hp | hn
  · rw [Int.tdiv_eq_ediv_of_nonneg hp]; omega
  · have e : h + t = -(-(h + t)) := by omega
    have hp : 0 ≤ -(h + t) := by omega
    rw [e, Int.neg_tdiv, Int.tdiv_eq_ediv_of_nonneg hp]; omega

/-- set.hpp 93-113 `contains`, the `while (!found && head <= tail)` loop, from a given `head`, `tail`.
`mid = (head + tail) / 2` is C++ (truncating) division. -/
def containsLoop (d : List α) (val : α) (head tail : Int) : Out Bool :=
  if head ≤ tail then
    let mid := (head + tail).tdiv 2
    match readAt d mid with
    | .ok m =>
      if val < m then containsLoop d val head (mid - 1)
      else if val > m then containsLoop d val (mid + 1) tail
      else .ok true
    | .throw e => .throw e
    | .ub => .ub
  else .ok false
termination_by (tail - head + 1).toNat
decreasing_by
  all_goals
    have := mid_bounds (by assumption : head ≤ tail)
    omega

/-- set.hpp 93-113 `contains`: binary search over the whole vector. -/
def contains (s : LSet α) (val : α) : Out Bool :=
  containsLoop s.data val 0 ((s.data.length : Int) - 1)

/-- set.hpp 122-129: scan for the first element greater than `val` and insert before it, else append. -/
def insertScan (val : α) : List α → List α
  | [] => [val]
  | x :: xs => if x > val then val :: x :: xs else x :: insertScan val xs

/-- set.hpp 118-131 `insert(val)`. -/
def insert (s : LSet α) (val : α) : Out (LSet α) := do
  if ← contains s val then return s
  return ⟨insertScan val s.data⟩

/-- set.hpp 139-149 `insert(vector)` / `insert(initializer_list)`: element by element, in order. -/
def insertMany (s : LSet α) : List α → Out (LSet α)
  | [] => .ok s
  | v :: vs => do
    let s' ← insert s v
    insertMany s' vs

/-- set.hpp 207-217: the search loop of `discard`; erases at `mid` when found. -/
def discardLoop (d : List α) (val : α) (head tail : Int) : Out (List α) :=
  if head ≤ tail then
    let mid := (head + tail).tdiv 2
    match readAt d mid with
    | .ok m =>
      if val < m then discardLoop d val head (mid - 1)
      else if val > m then discardLoop d val (mid + 1) tail
      else .ok (d.eraseIdx mid.toNat)
    | .throw e => .throw e
    | .ub => .ub
  else .ok d
termination_by (tail - head + 1).toNat
decreasing_by
  all_goals
    have := mid_bounds (by assumption : head ≤ tail)
    omega

/-- set.hpp 200-220 `discard(val)`. -/
def discard (s : LSet α) (val : α) : Out (LSet α) := do
  let d ← discardLoop s.data val 0 ((s.data.length : Int) - 1)
  return ⟨d⟩

/-- set.hpp 228-243 `discard(vector)` / `discard(initializer_list)`. -/
def discardMany (s : LSet α) : List α → Out (LSet α)
  | [] => .ok s
  | v :: vs => do
    let s' ← discard s v
    discardMany s' vs

/-- set.hpp 251-254 `remove(val)`: assertion that the value is present, then `discard`. -/
def remove (asserts : Bool) (s : LSet α) (val : α) : Out (LSet α) := do
  let c ← contains s val
  Out.assert asserts c
  discard s val

/-- set.hpp 262-277 `remove(vector)` / `remove(initializer_list)`. -/
def removeMany (asserts : Bool) (s : LSet α) : List α → Out (LSet α)
  | [] => .ok s
  | v :: vs => do
    let s' ← remove asserts s v
    removeMany asserts s' vs

/-- set.hpp 491-498 `prune`: keep element `i` if `i == 0` or it differs from element `i - 1`.
`prev` is element `i - 1` (none for `i == 0`). -/
def pruneFrom (prev : Option α) : List α → List α
  | [] => []
  | x :: xs =>
    match prev with
    | none => x :: pruneFrom (some x) xs
    | some p => if x ≠ p then x :: pruneFrom (some x) xs else pruneFrom (some x) xs

/-- set.hpp 56-66 constructors from a vector or an initializer list (and 46-52 from an array's elements in storage
order): `sort()` then `prune()`. `std::sort` is modelled by merge sort; for a total order its result is the unique
sorted permutation. -/
def ofList (l : List α) : LSet α := ⟨pruneFrom none (l.mergeSort (fun a b => decide (a ≤ b)))⟩

/-- set.hpp 31 default constructor. -/
def empty : LSet α := ⟨[]⟩

/-- set.hpp 75 `size`. -/
def size (s : LSet α) : Int := s.data.length

/-- set.hpp 82-88 `operator[]`: the assertion, then the (unchecked) vector access. -/
def index (asserts : Bool) (s : LSet α) (i : Int) : Out α := do
  Out.assert asserts (decide (0 ≤ i) && decide (i < s.data.length))
  readAt s.data i

/-- set.hpp 340-356 `operator|`: the merge loop on the remaining parts of both vectors, then both remainders. -/
def unionLoop : List α → List α → List α
  | a :: as, b :: bs =>
    if a < b then a :: unionLoop as (b :: bs)
    else if a > b then b :: unionLoop (a :: as) bs
    else a :: unionLoop as bs
  | as, bs => as ++ bs
termination_by a b => a.length + b.length

/-- set.hpp 330-359 `operator|`. -/
def union (s t : LSet α) : LSet α := ⟨unionLoop s.data t.data⟩

/-- set.hpp 377-387 `operator&` loop. -/
def interLoop : List α → List α → List α
  | a :: as, b :: bs =>
    if a < b then interLoop as (b :: bs)
    else if a > b then interLoop (a :: as) bs
    else a :: interLoop as bs
  | _, _ => []
termination_by a b => a.length + b.length

/-- set.hpp 367-390 `operator&`. -/
def inter (s t : LSet α) : LSet α := ⟨interLoop s.data t.data⟩

/-- set.hpp 408-419 `operator^` loop; nothing is appended after it. -/
def symmLoop : List α → List α → List α
  | a :: as, b :: bs =>
    if a < b then a :: symmLoop as (b :: bs)
    else if a > b then b :: symmLoop (a :: as) bs
    else symmLoop as bs
  | _, _ => []
termination_by a b => a.length + b.length

/-- set.hpp 398-422 `operator^`. -/
def symm (s t : LSet α) : LSet α := ⟨symmLoop s.data t.data⟩

/-- set.hpp 440-453 `operator-(Set)` loop, then the remainder of the left vector. -/
def diffLoop : List α → List α → List α
  | a :: as, b :: bs =>
    if a < b then a :: diffLoop as (b :: bs)
    else if a > b then diffLoop (a :: as) bs
    else diffLoop as bs
  | as, _ => as
termination_by a b => a.length + b.length

/-- set.hpp 430-456 `operator-(const Set &)`. -/
def diff (s t : LSet α) : LSet α := ⟨diffLoop s.data t.data⟩

/-- set.hpp 458 defaulted `operator<=>`: lexicographic comparison of the vectors. -/
def cmpList : List α → List α → Ordering
  | [], [] => .eq
  | [], _ :: _ => .lt
  | _ :: _, [] => .gt
  | a :: as, b :: bs => if a < b then .lt else if a > b then .gt else cmpList as bs

/-- set.hpp 458 `operator<=>`. -/
def cmp (s t : LSet α) : Ordering := cmpList s.data t.data

/-- set.hpp 458: `operator==` implied by the defaulted `operator<=>` (element-wise vector equality). -/
def eq (s t : LSet α) : Bool := decide (s.data = t.data)

/-- Elementary mutating operations of the public interface. `plus`/`minus` forms (155-192, 283-322) copy the set and
then call these, so a history over a single object uses the same functions. -/
inductive Op (α : Type) where
  | assign (l : List α)          -- `s = Set(l)`
  | insert (x : α)               -- `s.insert(x)`, `s += x`, `s = s + x`
  | insertMany (l : List α)      -- `s.insert(l)`, `s += l`, `s = s + l`
  | discard (x : α)              -- `s.discard(x)`, `s -= x`, `s = s - x`
  | discardMany (l : List α)     -- `s.discard(l)`, `s -= l`, `s = s - l`
deriving Repr

/-- One operation on the set. For datastructures/set.hpp 20-547. -/
def step (s : LSet α) : Op α → Out (LSet α)
  | .assign l => .ok (ofList l)
  | .insert x => SetM.insert s x
  | .insertMany l => SetM.insertMany s l
  | .discard x => SetM.discard s x
  | .discardMany l => SetM.discardMany s l

/-- A history of operations starting from the default-constructed set. For datastructures/set.hpp 20-547. -/
def run (s : LSet α) : List (Op α) → Out (LSet α)
  | [] => .ok s
  | op :: ops => do
    let s' ← step s op
    run s' ops

/-- Sets a program can hold: everything obtained through the public constructors, mutators (set.hpp 31-322) and
operators (set.hpp 330-456), in any combination. -/
inductive Reachable : LSet α → Prop
  | default : Reachable SetM.empty
  | ofList (l : List α) : Reachable (SetM.ofList l)
  | step {s s' : LSet α} (op : Op α) : Reachable s → SetM.step s op = .ok s' → Reachable s'
  | remove {s s' : LSet α} (asserts : Bool) (x : α) :
      Reachable s → SetM.remove asserts s x = .ok s' → Reachable s'
  | union {s t : LSet α} : Reachable s → Reachable t → Reachable (SetM.union s t)
  | inter {s t : LSet α} : Reachable s → Reachable t → Reachable (SetM.inter s t)
  | symm {s t : LSet α} : Reachable s → Reachable t → Reachable (SetM.symm s t)
  | diff {s t : LSet α} : Reachable s → Reachable t → Reachable (SetM.diff s t)

end Verif.SetM
