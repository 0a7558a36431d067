import Verif.Basic

/-!
# Model of `librapid::BitSet<numBits, true>` (datastructures/bitset.hpp)

The words `m_data` are a list of 64-bit vectors; a bit set of `n` bits has `numElements n` of them. Indices are `Nat`
(the C++ `uint64_t` cannot overflow for indices inside the object, and indices outside are undefined behaviour here).
-/

namespace Verif.BitSetM

/-- bitset.hpp 17-19: one element of 64 bits. -/
abbrev W := BitVec 64

/-- bitset.hpp 21: number of words. -/
def numElements (n : Nat) : Nat := (n + 63) / 64

/-- bitset.hpp 381-382: the object; `n` is the template parameter `numBits_`. -/
structure BS (n : Nat) where
  words : List W
deriving DecidableEq, Repr

/-- bitset.hpp 25, 376-379: default constructor, all words zero. -/
def empty (n : Nat) : BS n := ⟨List.replicate (numElements n) 0⟩

/-- bitset.hpp 64-72 `set(index, value)` on the word array. -/
def setBit (ws : List W) (index : Nat) (value : Bool) : Out (List W) := do
  let w ← readAt ws (index / 64 : Nat)
  if value then writeAt ws (index / 64 : Nat) (w ||| (1#64 <<< (index % 64)))
  else writeAt ws (index / 64 : Nat) (w &&& ~~~(1#64 <<< (index % 64)))

/-- bitset.hpp 64-72 `set(index, value)`. -/
def set {n : Nat} (s : BS n) (index : Nat) (value : Bool) : Out (BS n) := do
  let ws ← setBit s.words index value
  return ⟨ws⟩

/-- bitset.hpp 74-88 `set(start, end, value)`, after the swap. -/
def setRangeCore (ws : List W) (start stop : Nat) (value : Bool) : Out (List W) := do
  let blockStart := start / 64 + 1
  let blockEnd := stop / 64
  let ws ← forUp start (min stop (blockStart * 64)) (fun i ws => setBit ws i value) ws
  let ws ← forUp blockStart blockEnd
    (fun i ws => writeAt ws (i : Nat) (if value then BitVec.allOnes 64 else 0)) ws
  forUp (blockEnd * 64) stop (fun i ws => setBit ws i value) ws

/-- bitset.hpp 74-88 `set(start, end, value)`. -/
def setRange {n : Nat} (s : BS n) (start stop : Nat) (value : Bool) : Out (BS n) := do
  let ws ← if start > stop then setRangeCore s.words stop start value
    else setRangeCore s.words start stop value
  return ⟨ws⟩

/-- bitset.hpp 90-94 `get(index)`. -/
def get {n : Nat} (s : BS n) (index : Nat) : Out Bool := do
  let w ← readAt s.words (index / 64 : Nat)
  return (w &&& (1#64 <<< (index % 64))) != 0

/-- bitset.hpp 96-100 `any`. -/
def any {n : Nat} (s : BS n) : Out Bool := do
  let r ← searchUp 0 (numElements n) (fun i => do
    let w ← readAt s.words (i : Nat)
    return if w ≠ 0 then some true else none)
  return r.getD false

/-- bitset.hpp 102-106 `all`. -/
def all {n : Nat} (s : BS n) : Out Bool := do
  let r ← searchUp 0 (numElements n) (fun i => do
    let w ← readAt s.words (i : Nat)
    return if w ≠ BitVec.allOnes 64 then some false else none)
  return r.getD true

/-- bitset.hpp 108-112 `none`. -/
def none {n : Nat} (s : BS n) : Out Bool := do
  let r ← searchUp 0 (numElements n) (fun i => do
    let w ← readAt s.words (i : Nat)
    return if w ≠ 0 then some false else .none)
  return r.getD true

/-- `__builtin_ctzll` (bitset.hpp 119) by the portable loop of lines 136-138: index of the lowest set bit.
Only called on non-zero words. -/
def ctz (w : W) : Nat := ((List.range 64).find? (fun j => w.getLsbD j)).getD 64

/-- `63 - __builtin_clzll` (bitset.hpp 150) by the portable loop of lines 167-169: index of the highest set bit.
Only called on non-zero words. -/
def topBit (w : W) : Nat := ((List.range 64).reverse.find? (fun j => w.getLsbD j)).getD 64

/-- bitset.hpp 114-143 `first`. -/
def first {n : Nat} (s : BS n) : Out Nat := do
  let r ← searchUp 0 (numElements n) (fun i => do
    let w ← readAt s.words (i : Nat)
    return if w ≠ 0 then some (ctz w + i * 64) else .none)
  return r.getD n

/-- bitset.hpp 145-174 `last`: the loop from index `i` downward. The condition `i >= 0` on an unsigned index is always
true, so after index 0 the index wraps to 2^64 - 1 and the read is out of bounds. -/
def lastLoop (ws : List W) (i : Nat) : Out Nat :=
  match readAt ws (i : Int) with
  | .ok w =>
    if w ≠ 0 then .ok (topBit w + i * 64)
    else match i with
      | 0 => .ub
      | j + 1 => lastLoop ws j
  | .throw e => .throw e
  | .ub => .ub

/-- bitset.hpp 145-174 `last`. With no words at all the initial index already wraps. -/
def last {n : Nat} (s : BS n) : Out Nat :=
  if numElements n = 0 then .ub else lastLoop s.words (numElements n - 1)

/-- `std::popcount` of one word. bitset.hpp 178, 387. -/
def popWord (w : W) : Nat := (List.range 64).countP (fun j => w.getLsbD j)

/-- bitset.hpp 176-180 `popCount` (and the free function 390-397). -/
def popCount {n : Nat} (s : BS n) : Out Nat :=
  forUp 0 (numElements n) (fun i res => do
    let w ← readAt s.words (i : Nat)
    return res + popWord w) 0

/-- The loop `while (index < min(numElements, otherElements)) m_data[index] op= other.data()[index]` of bitset.hpp
186-190, 202-206, 220-224. -/
def zipWords (op : W → W → W) (n m : Nat) (a b : List W) : Out (List W) :=
  forUp 0 (min (numElements n) (numElements m)) (fun i ws => do
    let x ← readAt ws (i : Nat)
    let y ← readAt b (i : Nat)
    writeAt ws (i : Nat) (op x y)) a

/-- bitset.hpp 182-193 `operator|=`. -/
def orAssign {n m : Nat} (a : BS n) (b : BS m) : Out (BS n) := do
  return ⟨← zipWords (· ||| ·) n m a.words b.words⟩

/-- bitset.hpp 195-214 `operator&=`: the words beyond the other operand are cleared. -/
def andAssign {n m : Nat} (a : BS n) (b : BS m) : Out (BS n) := do
  let ws ← zipWords (· &&& ·) n m a.words b.words
  return ⟨← forUp (min (numElements n) (numElements m)) (numElements n) (fun i ws => writeAt ws (i : Nat) 0) ws⟩

/-- bitset.hpp 216-227 `operator^=`. -/
def xorAssign {n m : Nat} (a : BS n) (b : BS m) : Out (BS n) := do
  return ⟨← zipWords (· ^^^ ·) n m a.words b.words⟩

/-- A shift of a 64-bit word by `k` bits to the left; a distance of 64 or more is undefined in C++. -/
def wShl (w : W) (k : Nat) : Out W := if k < 64 then .ok (w <<< k) else .ub

/-- A shift of a 64-bit word by `k` bits to the right; a distance of 64 or more is undefined in C++. -/
def wShr (w : W) (k : Nat) : Out W := if k < 64 then .ok (w >>> k) else .ub

/-- bitset.hpp 229-255, body of the middle loop of `<<=` for index `i`. -/
def shlBody (es ds : Nat) (i : Nat) (ws : List W) : Out (List W) := do
  let x ← readAt ws ((i : Int) - es)
  let tmp ← wShl x ds
  if (i : Int) - es - 1 ≥ 0 then
    let y ← readAt ws ((i : Int) - es - 1)
    let z ← wShr y (64 - ds)
    writeAt ws (i : Nat) (tmp ||| z)
  else
    writeAt ws (i : Nat) tmp

/-- bitset.hpp 229-255 `operator<<=` for a positive distance. The middle loop runs `i` from `numElements - 1` down to
`elementShift`; here `i = numElements - 1 - t` for `t` counting up. The first loop starts at `numElements -
elementShift` computed in `uint64_t` and compared with the unsigned `numElements`: when `elementShift > numElements`
it does not run (the start, converted back to `uint64_t`, is huge). -/
def shlPos (n : Nat) (ws : List W) (shift : Nat) : Out (List W) := do
  let es := shift / 64
  let ds := shift % 64
  let ne := numElements n
  let ws ← forUp (if es ≤ ne then ne - es else ne) ne (fun i ws => writeAt ws (i : Nat) 0) ws
  let ws ← forUp 0 (ne - es) (fun t ws => shlBody es ds (ne - 1 - t) ws) ws
  forUp 0 es (fun i ws => writeAt ws (i : Nat) 0) ws

/-- bitset.hpp 268-277, body of the middle loop of `>>=` for index `i`. -/
def shrBody (ne es ds : Nat) (i : Nat) (ws : List W) : Out (List W) := do
  let x ← readAt ws ((i : Int) + es)
  let tmp ← wShr x ds
  if i + es + 1 < ne then
    let y ← readAt ws ((i : Int) + es + 1)
    let z ← wShl y (64 - ds)
    writeAt ws (i : Nat) (tmp ||| z)
  else
    writeAt ws (i : Nat) tmp

/-- bitset.hpp 257-283 `operator>>=` for a positive distance. When `elementShift > numElements` the first loop already
writes out of bounds, so the later loops only matter for `elementShift <= numElements`. -/
def shrPos (n : Nat) (ws : List W) (shift : Nat) : Out (List W) := do
  let es := shift / 64
  let ds := shift % 64
  let ne := numElements n
  let ws ← forUp 0 es (fun i ws => writeAt ws (i : Nat) 0) ws
  let ws ← forUp 0 (ne - es) (fun i ws => shrBody ne es ds i ws) ws
  forUp (ne - es) ne (fun i ws => writeAt ws (i : Nat) 0) ws

/-- bitset.hpp 229-255 `operator<<=(int64_t)` (and `<<`, 309-313, which copies first). Negating the least `int64_t` is
signed overflow. -/
def shl {n : Nat} (s : BS n) (shift : Int) : Out (BS n) := do
  if shift = -2 ^ 63 then .ub
  else if shift < 0 then return ⟨← shrPos n s.words (-shift).toNat⟩
  else if shift = 0 then return s
  else return ⟨← shlPos n s.words shift.toNat⟩

/-- bitset.hpp 257-283 `operator>>=(int64_t)` (and `>>`, 315-319). -/
def shr {n : Nat} (s : BS n) (shift : Int) : Out (BS n) := do
  if shift = -2 ^ 63 then .ub
  else if shift < 0 then return ⟨← shlPos n s.words (-shift).toNat⟩
  else if shift = 0 then return s
  else return ⟨← shrPos n s.words shift.toNat⟩

/-- bitset.hpp 362-366 `highMask`. -/
def highMask (n : Nat) : W := (List.range (n % 64)).foldl (fun r i => r ||| (1#64 <<< i)) 0

/-- bitset.hpp 321-328 `operator~`. For `numBits = 0` the masked word `m_data[-1]` is out of bounds. -/
def compl {n : Nat} (s : BS n) : Out (BS n) := do
  let ws ← forUp 0 (numElements n) (fun i ws => do
    let w ← readAt ws (i : Nat)
    writeAt ws (i : Nat) (~~~w)) s.words
  let w ← readAt ws ((numElements n : Int) - 1)
  return ⟨← writeAt ws ((numElements n : Int) - 1) (w &&& highMask n)⟩

/-- bitset.hpp 330-335 `operator==`. -/
def eq {n : Nat} (a b : BS n) : Out Bool := do
  let r ← searchUp 0 (numElements n) (fun i => do
    let x ← readAt a.words (i : Nat)
    let y ← readAt b.words (i : Nat)
    return if x ≠ y then some false else .none)
  return r.getD true

/-- bitset.hpp 38-42 constructor from a 64-bit value; a `static_assert` requires at least one word. The value is
stored as it is, also for fewer than 64 bits. -/
def ofValue (n : Nat) (v : W) : Out (BS n) := do
  return ⟨← writeAt (empty n).words 0 v⟩

/-- bitset.hpp 47-54: one iteration of the string constructor's loop. Any other character is an error
(`std::runtime_error`, only with assertions compiled in; otherwise ignored). -/
def ofStringBody (asserts : Bool) (str : List Char) (zero one : Char) (i : Nat) (ws : List W) : Out (List W) :=
  match str[i]? with
  | some c =>
    if c = zero then .ok ws
    else if c = one then setBit ws (str.length - i - 1) true
    else if asserts then .throw .runtimeError else .ok ws
  | .none => .ub

/-- bitset.hpp 44-55 constructor from a string with characters `zero` and `one`. -/
def ofString (asserts : Bool) (n : Nat) (str : List Char) (zero one : Char) : Out (BS n) := do
  return ⟨← forUp 0 str.length (ofStringBody asserts str zero one) (empty n).words⟩

/-- bitset.hpp 356-359 `str` with the formatter for `int` of 400-418: bits from the most significant down, each printed
as the integer `0` or `1`. The loop runs `i` from `numBits - 1` down to 0; here `i = numBits - 1 - t`. -/
def str {n : Nat} (s : BS n) : Out (List Char) :=
  forUp 0 n (fun t acc => do
    let b ← get s (n - 1 - t)
    return acc ++ [if b then '1' else '0']) []

/-- Bit sets a program can hold (stack-allocated class): public constructors and mutators of bitset.hpp 25-328 that
return normally, including the binary operators (which copy and then apply the in-place forms). -/
inductive Reachable : {n : Nat} → BS n → Prop
  | empty (n : Nat) : Reachable (empty n)
  | ofValue {n : Nat} {s : BS n} (v : W) : ofValue n v = .ok s → Reachable s
  | ofString {n : Nat} {s : BS n} (asserts : Bool) (t : List Char) (z o : Char) :
      ofString asserts n t z o = .ok s → Reachable s
  | set {n : Nat} {s s' : BS n} (i : Nat) (v : Bool) : Reachable s → set s i v = .ok s' → Reachable s'
  | setRange {n : Nat} {s s' : BS n} (i j : Nat) (v : Bool) : Reachable s → setRange s i j v = .ok s' → Reachable s'
  | orAssign {n m : Nat} {s s' : BS n} {t : BS m} :
      Reachable s → Reachable t → orAssign s t = .ok s' → Reachable s'
  | andAssign {n m : Nat} {s s' : BS n} {t : BS m} :
      Reachable s → Reachable t → andAssign s t = .ok s' → Reachable s'
  | xorAssign {n m : Nat} {s s' : BS n} {t : BS m} :
      Reachable s → Reachable t → xorAssign s t = .ok s' → Reachable s'
  | shl {n : Nat} {s s' : BS n} (k : Int) : Reachable s → shl s k = .ok s' → Reachable s'
  | shr {n : Nat} {s s' : BS n} (k : Int) : Reachable s → shr s k = .ok s' → Reachable s'
  | compl {n : Nat} {s s' : BS n} : Reachable s → compl s = .ok s' → Reachable s'

end Verif.BitSetM
