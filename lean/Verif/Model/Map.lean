/-!
# `Map` and `UnorderedMap`

`/repo/librapid/include/librapid/datastructures/map.hpp`. The two classes derive from `std::map` and `std::unordered_map` and add
`contains`, `get` and `str`. What they inherit is modelled as far as the C++ standard specifies it:

* `std::map`: the elements in the order of the comparison object, found through `lower_bound`; the balanced tree that finds the
  position is not modelled;
* `std::unordered_map`: a list of buckets; an element is in the bucket of its hash, the buckets are rebuilt with any number of
  buckets before an insertion (the policy of the standard library is a parameter, `rehash`).

`get(const Key &)` (lines 35-37, 95-97) calls the inherited `operator[]`, which is not `const`, on a `const` object: it does not
compile when it is used, and is not modelled.
-/

namespace Verif.MapM

variable {K V : Type}

/-! ## `Map` -/

/-- `std::map::lower_bound`: the elements from the first one on whose key is not less than `k`. The container of the C++ library that
datastructures/map.hpp 8-131 derives from. -/
def lowerBound (less : K → K → Bool) (k : K) : List (K × V) → List (K × V)
  | [] => []
  | p :: m => if less p.1 k then lowerBound less k m else p :: m

/-- `std::map::find`: the element at `lower_bound`, unless `k` is less than its key. The container of the C++ library that
datastructures/map.hpp 8-131 derives from. -/
def find (less : K → K → Bool) (m : List (K × V)) (k : K) : Option (K × V) :=
  match lowerBound less k m with
  | [] => none
  | p :: _ => if less k p.1 then none else some p

/-- `m[k] = v` with the inherited `operator[]`: the value of the element found is replaced, and a new element is inserted at
`lower_bound` if there is none. The container of the C++ library that datastructures/map.hpp 8-131 derives from. -/
def set (less : K → K → Bool) (k : K) (v : V) : List (K × V) → List (K × V)
  | [] => [(k, v)]
  | p :: m => if less p.1 k then p :: set less k v m else if less k p.1 then (k, v) :: p :: m else (p.1, v) :: m

/-- The inherited `erase(k)`. The container of the C++ library that datastructures/map.hpp 8-131 derives from. -/
def erase (less : K → K → Bool) (k : K) : List (K × V) → List (K × V)
  | [] => []
  | p :: m => if less p.1 k then p :: erase less k m else if less k p.1 then p :: m else m

/-- `contains(key)`, lines 11-13 -/
def contains (less : K → K → Bool) (m : List (K × V)) (k : K) : Bool := (find less m k).isSome

/-- `contains(key, value)`, lines 22-30: the result and the content of `value` afterwards. -/
def containsGet (less : K → K → Bool) (m : List (K × V)) (k : K) (value : V) : Bool × V :=
  match find less m k with
  | some p => (true, p.2)
  | none => (false, value)

/-- `get(key, defaultValue)`, lines 43-48 -/
def get (less : K → K → Bool) (m : List (K × V)) (k : K) (d : V) : V :=
  match find less m k with
  | some p => p.2
  | none => d

/-- `str`, lines 50-62, for given formatting of keys and values. -/
def str (fk : K → String) (fv : V → String) (m : List (K × V)) : String :=
  (m.foldl (fun s p => s ++ ("  " ++ fk p.1) ++ ": " ++ fv p.2 ++ "\n") "[\n") ++ "]"

/-! ## `UnorderedMap` -/

/-- A table: its buckets. A table without buckets holds nothing. The container of the C++ library that datastructures/map.hpp 8-131
derives from. -/
abbrev Table (K V : Type) := List (List (K × V))

/-- The bucket of `k` among `n`. The container of the C++ library that datastructures/map.hpp 8-131 derives from. -/
def bucketOf (hash : K → Nat) (n : Nat) (k : K) : Nat := hash k % n

/-- Search in a bucket: the first element with an equal key. The container of the C++ library that datastructures/map.hpp 8-131 derives
from. -/
def findIn (eq : K → K → Bool) (k : K) : List (K × V) → Option (K × V)
  | [] => none
  | p :: b => if eq p.1 k then some p else findIn eq k b

/-- `std::unordered_map::find`. The container of the C++ library that datastructures/map.hpp 8-131 derives from. -/
def ufind (hash : K → Nat) (eq : K → K → Bool) (t : Table K V) (k : K) : Option (K × V) :=
  if t.length = 0 then none
  else match t[bucketOf hash t.length k]? with
    | some b => findIn eq k b
    | none => none

/-- Assignment in a bucket. The container of the C++ library that datastructures/map.hpp 8-131 derives from. -/
def setIn (eq : K → K → Bool) (k : K) (v : V) : List (K × V) → List (K × V)
  | [] => [(k, v)]
  | p :: b => if eq p.1 k then (p.1, v) :: b else p :: setIn eq k v b

/-- Erasure in a bucket. The container of the C++ library that datastructures/map.hpp 8-131 derives from. -/
def eraseIn (eq : K → K → Bool) (k : K) : List (K × V) → List (K × V)
  | [] => []
  | p :: b => if eq p.1 k then b else p :: eraseIn eq k b

/-- All elements put into `n` buckets, each at the front of its bucket (the order is unspecified). The container of the C++ library that
datastructures/map.hpp 8-131 derives from. -/
def rebucket (hash : K → Nat) (n : Nat) (t : Table K V) : Table K V :=
  (t.flatten).foldl (fun u p => u.modify (bucketOf hash n p.1) (p :: ·)) (List.replicate n [])

/-- `m[k] = v`. The container of the C++ library that datastructures/map.hpp 8-131 derives from. -/
def uset (hash : K → Nat) (eq : K → K → Bool) (rehash : Table K V → Option Nat) (t : Table K V) (k : K) (v : V) : Table K V :=
  let t := match rehash t with
    | some n => rebucket hash n t
    | none => t
  t.modify (bucketOf hash t.length k) (setIn eq k v)

/-- `erase(k)`. The container of the C++ library that datastructures/map.hpp 8-131 derives from. -/
def uerase (hash : K → Nat) (eq : K → K → Bool) (t : Table K V) (k : K) : Table K V :=
  t.modify (bucketOf hash t.length k) (eraseIn eq k)

/-- `contains(key)`, lines 71-73 -/
def ucontains (hash : K → Nat) (eq : K → K → Bool) (t : Table K V) (k : K) : Bool := (ufind hash eq t k).isSome

/-- `contains(key, value)`, lines 82-90 -/
def ucontainsGet (hash : K → Nat) (eq : K → K → Bool) (t : Table K V) (k : K) (value : V) : Bool × V :=
  match ufind hash eq t k with
  | some p => (true, p.2)
  | none => (false, value)

/-- `get(key, defaultValue)`, lines 103-108 -/
def uget (hash : K → Nat) (eq : K → K → Bool) (t : Table K V) (k : K) (d : V) : V :=
  match ufind hash eq t k with
  | some p => p.2
  | none => d

/-! ## Histories -/

/-- What a program does to a map: the lookups do not appear, since they take the map by `const`. The container of the C++ library that
datastructures/map.hpp 8-131 derives from. -/
inductive Op (K V : Type) where
  | set (k : K) (v : V)
  | erase (k : K)
  | clear

/-- The map after a history. The container of the C++ library that datastructures/map.hpp 8-131 derives from. -/
def run (less : K → K → Bool) (h : List (Op K V)) : List (K × V) :=
  h.foldl (fun m o => match o with
    | .set k v => set less k v m
    | .erase k => erase less k m
    | .clear => []) []

/-- The table after a history; `clear` keeps the buckets. The container of the C++ library that datastructures/map.hpp 8-131 derives
from. -/
def urun (hash : K → Nat) (eq : K → K → Bool) (rehash : Table K V → Option Nat) (h : List (Op K V)) : Table K V :=
  h.foldl (fun t o => match o with
    | .set k v => uset hash eq rehash t k v
    | .erase k => uerase hash eq t k
    | .clear => t.map fun _ => []) []

end Verif.MapM
