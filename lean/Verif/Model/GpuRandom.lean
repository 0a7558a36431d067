import Verif.Model.GpuAssign
import Verif.Model.Mt19937

/-!
# Random numbers on a GPU

`/repo/librapid/include/librapid/opencl/kernels/fill.cl`, `cuda/kernels/fill.cu` (the same code) and array/fill.hpp 54-118.
-/

namespace Verif.Gpu

open Verif.RandomM Verif.Ieee

/-! ### The generator -/

/-- `mt19937_state`, fill.cl 29-32 -/
structure GMt where
  mt : Nat → Nat
  mti : Nat

/-- fill.cl 117-122: `mt[i]` after seeding -/
def seedWord (s : Nat) : Nat → Nat
  | 0 => s % 2 ^ 32
  | i + 1 => (1812433253 * (seedWord s i ^^^ (seedWord s i >>> 30)) + (i + 1)) % 2 ^ 32

/-- `mt19937_seed`, fill.cl 117-129. The argument is converted to `uint`. -/
def gmtSeed (s : Nat) : GMt := ⟨seedWord s, 624⟩

/-- The lines `y = …; mt[i] = mt[k] ^ (y >> 1) ^ mag01[y & 1]` -/
def twist (m : Nat → Nat) (i j k : Nat) : Nat → Nat := Function.update m i (mtWord (m i) (m j) (m k))

/-- fill.cl 44-57 -/
def gmtUpdate (g : GMt) : GMt :=
  if g.mti < 624 - 397 then ⟨twist g.mt g.mti (g.mti + 1) (g.mti + 397), g.mti⟩
  else if g.mti < 624 - 1 then ⟨twist g.mt g.mti (g.mti + 1) (g.mti + 397 - 624), g.mti⟩
  else ⟨twist g.mt 623 0 396, 0⟩

/-- `_mt19937_uint`, fill.cl 40-67: the variant the kernels use. -/
def gmtUint (g : GMt) : Nat × GMt :=
  let g := gmtUpdate g
  (temper (g.mt g.mti), ⟨g.mt, g.mti + 1⟩)

/-- The two loops of `_mt19937_loop_uint`, fill.cl 84-91: `r` more steps from `kk`. -/
def regenLoop : Nat → Nat → (Nat → Nat) → Nat → Nat
  | 0, _, m => m
  | r + 1, kk, m => regenLoop r (kk + 1) (twist m kk (kk + 1) (if kk < 624 - 397 then kk + 397 else kk + 397 - 624))

/-- `_mt19937_loop_uint`, fill.cl 76-108: the other variant, which nothing uses. -/
def loopUint (g : GMt) : Nat × GMt :=
  let g := if 624 ≤ g.mti then ⟨twist (regenLoop 623 0 g.mt) 623 0 396, 0⟩ else g
  (temper (g.mt g.mti), ⟨g.mt, g.mti + 1⟩)

/-- The output number `n` of a generator. For opencl/kernels/fill.cl 29-122. -/
def nthOut {S : Type} (next : S → Nat × S) : Nat → S → Nat
  | 0, g => (next g).1
  | n + 1, g => nthOut next n (next g).2

/-! ### Numbers -/

/-- `mt19937_ulong`, fill.cl 136. The order of the two calls is not specified; `lr`: the left one comes first. -/
def gmtUlong (lr : Bool) (g : GMt) : Nat × GMt :=
  let a := gmtUint g
  let b := gmtUint a.2
  (if lr then a.1 * 2 ^ 32 + b.1 else b.1 * 2 ^ 32 + a.1, b.2)

/-- `mt19937_double`, fill.cl 150: the conversion of the integer rounds, the product with 2^-64 is exact. -/
def toUnit (u : Nat) : ℚ := rnd binary64 u / 2 ^ 64

/-- `(double)(mt19937_double * (upper - lower) + lower)`, fill.cl 171 -/
def fillDouble (lower upper : ℚ) (u : Nat) : ℚ := rnd binary64 (rnd binary64 (toUnit u * rnd binary64 (upper - lower)) + lower)

/-- `(float)(mt19937_double * (upper - lower) + lower)`: the difference is computed in `float`, the rest in `double`. -/
def fillFloat (lower upper : ℚ) (u : Nat) : ℚ := rnd binary32 (rnd binary64 (rnd binary64 (toUnit u * rnd binary32 (upper - lower)) + lower))

/-! ### The kernel -/

/-- The two buffers. For opencl/kernels/fill.cl 29-122. -/
inductive FLoc where
  | seed (j : Nat)
  | data (i : Nat)
  deriving DecidableEq

variable {V : Type}

/-- fill.cl 170-175: the loop over `i = gid, gid + W, …` and the new seed. `draw v k` is the number made from the generator seeded with `v` after `k` others,
`next v k` the new seed. -/
def fillLoop (n S W gid : Nat) (draw next : V → Nat → V) (v : V) : Nat → Nat → Nat → Prog FLoc V
  | 0, _, _ => .fail
  | r + 1, i, k => if i < n then .write (.data i) (draw v k) (fillLoop n S W gid draw next v r (i + W) (k + 1)) else .write (.seed (gid % S)) (next v k) .ret

/-- `fillRandom`, fill.cl 158-176: `n` elements, `S` seeds, `W` work items. -/
def fillRandom (n S W : Nat) (draw next : V → Nat → V) (gid : Nat) : Prog FLoc V :=
  .read (.seed (gid % S)) fun v => fillLoop n S W gid draw next v (n + 1) gid 0

/-- array/fill.hpp 64, 92 -/
def numSeeds : Nat := 1024

end Verif.Gpu
