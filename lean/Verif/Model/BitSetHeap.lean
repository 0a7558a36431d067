import Verif.Model.BitSet

/-!
# Model of `librapid::BitSet<numBits, false>` (datastructures/bitset.hpp)

With `stackAlloc = false` the words of a bit set are an array made with `new` (bitset.hpp 22-23, 372-374). A program has any
number of variables of one such type. Memory is the list of all arrays allocated so far, each live with its words or freed; the
only data member of a variable is the pointer, here the number of the array.

Simplifications:
* Allocation always succeeds. The words of a new array are undetermined until they are written, which every constructor does
  before anything reads them; here the array is allocated together with its first words.
* A result returned by value is computed before its array is allocated; if the computation is undefined, so is the call.
* An exception is caught by the program right after the statement that throws it.
-/

namespace Verif.BitSetM.Heap

/-- A program state: the arrays (`none` once deleted) and the pointer of each living variable (bitset.hpp 381-382). -/
structure St where
  blocks : List (Option (List W))
  objs : Nat → Option Nat

/-- No arrays and no variables. Memory and programs of the model, for bitset.hpp 25-374. -/
def init : St := ⟨[], fun _ => .none⟩

/-- The words of variable `x`. A variable outside its lifetime and a deleted array are undefined behaviour. Memory and programs of the
model, for bitset.hpp 25-374. -/
def load (s : St) (x : Nat) : Out (List W) :=
  match s.objs x with
  | some p =>
    match s.blocks[p]? with
    | some (some ws) => .ok ws
    | _ => .ub
  | .none => .ub

/-- Write the words of variable `x`. Memory and programs of the model, for bitset.hpp 25-374. -/
def store (s : St) (x : Nat) (ws : List W) : Out St :=
  match s.objs x with
  | some p =>
    match s.blocks[p]? with
    | some (some _) => .ok { s with blocks := s.blocks.set p (some ws) }
    | _ => .ub
  | .none => .ub

/-- Set the pointer of variable `x`. Memory and programs of the model, for bitset.hpp 25-374. -/
def point (s : St) (x p : Nat) : St := { s with objs := fun z => if z = x then some p else s.objs z }

/-- The end of the life of variable `x`. Memory and programs of the model, for bitset.hpp 25-374. -/
def drop (s : St) (x : Nat) : St := { s with objs := fun z => if z = x then .none else s.objs z }

/-- `new ElementType[numElements]` (bitset.hpp 372-374), filled with `ws`. -/
def alloc (s : St) (ws : List W) : St := { s with blocks := s.blocks ++ [some ws] }

/-- `delete[]` of array `p`. bitset.hpp 61. -/
def free (s : St) (p : Nat) : Out St :=
  match s.blocks[p]? with
  | some (some _) => .ok { s with blocks := s.blocks.set p .none }
  | _ => .ub

/-- A new variable `x` with an array of its own holding `ws`. bitset.hpp 372-374. -/
def create (s : St) (x : Nat) (ws : List W) : Out St :=
  match s.objs x with
  | some _ => .ub
  | .none => .ok (point (alloc s ws) x s.blocks.length)

/-- In-place changes of one bit set (bitset.hpp 64-88, 229-283). -/
inductive Upd where
  | set (i : Nat) (v : Bool)
  | setRange (i j : Nat) (v : Bool)
  | shl (k : Int)
  | shr (k : Int)

/-- The effect of an in-place change. Memory and programs of the model, for bitset.hpp 25-374. -/
def Upd.apply {n : Nat} : Upd → BS n → Out (BS n)
  | .set i v, b => BitSetM.set b i v
  | .setRange i j v, b => BitSetM.setRange b i j v
  | .shl k, b => BitSetM.shl b k
  | .shr k, b => BitSetM.shr b k

/-- The compound assignments with another bit set (bitset.hpp 182-227). -/
inductive Op where
  | or
  | and
  | xor

/-- The effect of a compound assignment. Memory and programs of the model, for bitset.hpp 25-374. -/
def Op.apply {n : Nat} : Op → BS n → BS n → Out (BS n)
  | .or, a, b => orAssign a b
  | .and, a, b => andAssign a b
  | .xor, a, b => xorAssign a b

/-- The statements of a program. Memory and programs of the model, for bitset.hpp 25-374. -/
inductive Cmd where
  /-- `BitSet x;` -/
  | ctor (x : Nat)
  /-- `BitSet x(value);` -/
  | ofValue (x : Nat) (v : W)
  /-- `BitSet x(str, zero, one);` -/
  | ofString (x : Nat) (t : List Char) (z o : Char)
  /-- `BitSet x(y);` -/
  | copy (x y : Nat)
  /-- `BitSet x(std::move(y));` -/
  | move (x y : Nat)
  /-- `x = y;` -/
  | assign (x y : Nat)
  /-- `x = std::move(y);` -/
  | assignMove (x y : Nat)
  /-- `x.set(i, v);` and the other in-place changes -/
  | upd (x : Nat) (u : Upd)
  /-- `x |= y;` `x &= y;` `x ^= y;` -/
  | opAssign (x : Nat) (o : Op) (y : Nat)
  /-- `BitSet x = y | z;` and the like -/
  | binary (x y : Nat) (o : Op) (z : Nat)
  /-- `BitSet x = y << k;` -/
  | shifted (x y : Nat) (left : Bool) (k : Int)
  /-- `BitSet x = ~y;` -/
  | compl (x y : Nat)
  /-- the end of the scope of `x` -/
  | dtor (x : Nat)

/-- The return of a local `res` holding `ws` into the new variable `x` (bitset.hpp 285-328 `return res;`). A compiler may construct
`res` in the place of the result (`elide`); C++ does not require it for a named local. Otherwise the result is made by the
defaulted move constructor (bitset.hpp 36), which copies the pointer, and then `res` is destroyed (bitset.hpp 60-62). -/
def ret (elide : Bool) (s : St) (x : Nat) (ws : List W) : Out St :=
  match s.objs x with
  | some _ => .ub
  | .none =>
    let s' := point (alloc s ws) x s.blocks.length
    if elide then .ok s' else free s' s.blocks.length

/-- `BitSet(BitSet &&) = default` (bitset.hpp 36): the pointer is copied, the source keeps it. -/
def moveCtor (s : St) (x y : Nat) : Out St :=
  match s.objs x, s.objs y with
  | .none, some p => .ok (point s x p)
  | _, _ => .ub

/-- `operator=(const BitSet &) = default` and `operator=(BitSet &&) = default` (bitset.hpp 57-58): the pointer is copied. -/
def assignPtr (s : St) (x y : Nat) : Out St :=
  match s.objs x, s.objs y with
  | some _, some p => .ok (point s x p)
  | _, _ => .ub

/-- `~BitSet()` (bitset.hpp 60-62). -/
def dtor (s : St) (x : Nat) : Out St :=
  match s.objs x with
  | some p => do
    let s' ← free s p
    return drop s' x
  | .none => .ub

/-- `BitSet(const std::string &, char, char)` (bitset.hpp 44-55). The array is allocated first (line 45); an exception thrown by the
body leaves it behind, because the destructor of an object that was not constructed does not run. -/
def stringCtor (asserts : Bool) (n : Nat) (s : St) (x : Nat) (t : List Char) (z o : Char) : Out (Bool × St) :=
  match s.objs x with
  | some _ => .ub
  | .none =>
    match BitSetM.ofString asserts n t z o with
    | .ok b => .ok (false, point (alloc s b.words) x s.blocks.length)
    | .throw _ => .ok (true, alloc s (empty n).words)
    | .ub => .ub

/-- One statement that cannot throw. Memory and programs of the model, for bitset.hpp 25-374. -/
def step (elide : Bool) (n : Nat) (s : St) : Cmd → Out St
  | .ctor x => create s x (empty n).words
  | .ofValue x v => do create s x (← BitSetM.ofValue n v).words
  | .ofString _ _ _ _ => .ub
  | .copy x y => do create s x (← load s y)
  | .move x y => moveCtor s x y
  | .assign x y => assignPtr s x y
  | .assignMove x y => assignPtr s x y
  | .upd x u => do
    let ws ← load s x
    store s x (← u.apply (⟨ws⟩ : BS n)).words
  | .opAssign x o y => do
    let ws ← load s x
    let vs ← load s y
    store s x (← o.apply (⟨ws⟩ : BS n) (⟨vs⟩ : BS n)).words
  | .binary x y o z => do
    let ws ← load s y
    let vs ← load s z
    ret elide s x (← o.apply (⟨ws⟩ : BS n) (⟨vs⟩ : BS n)).words
  | .shifted x y left k => do
    let ws ← load s y
    ret elide s x (← (if left then Upd.shl k else Upd.shr k).apply (⟨ws⟩ : BS n)).words
  | .compl x y => do
    let ws ← load s y
    ret elide s x (← BitSetM.compl (⟨ws⟩ : BS n)).words
  | .dtor x => dtor s x

/-- One statement; the flag tells whether it threw. Memory and programs of the model, for bitset.hpp 25-374. -/
def exec (asserts elide : Bool) (n : Nat) (s : St) : Cmd → Out (Bool × St)
  | .ofString x t z o => stringCtor asserts n s x t z o
  | c => do return (false, ← step elide n s c)

/-- A program: which statements threw, and the state at the end. Memory and programs of the model, for bitset.hpp 25-374. -/
def run (asserts elide : Bool) (n : Nat) : List Cmd → St → Out (List Bool × St)
  | [], s => .ok ([], s)
  | c :: cs, s => do
    let r ← exec asserts elide n s c
    let q ← run asserts elide n cs r.2
    return (r.1 :: q.1, q.2)

end Verif.BitSetM.Heap
