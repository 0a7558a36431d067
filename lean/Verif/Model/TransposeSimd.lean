import Verif.Model.Transpose
import Mathlib.Data.Fin.VecNotation

/-!
# Model of the vectorised transposes (array/linalg/transpose.hpp 26-221, 271-363)

A register of `w` lanes is a function on `Fin w`. Each intrinsic is written from Intel's and Arm's reference manuals.
-/

namespace Verif.TransM

open Conc

variable {α : Type}

/-! ### Intrinsics -/

/-- `_mm256_insertf128_ps(_mm256_castps128_ps256(l), h, 1)`. -/
def join128ps (l h : Fin 4 → α) : Fin 8 → α := ![l 0, l 1, l 2, l 3, h 0, h 1, h 2, h 3]
/-- `_mm256_unpacklo_ps`. -/
def unpackloPs (a b : Fin 8 → α) : Fin 8 → α := ![a 0, b 0, a 1, b 1, a 4, b 4, a 5, b 5]
/-- `_mm256_unpackhi_ps`. -/
def unpackhiPs (a b : Fin 8 → α) : Fin 8 → α := ![a 2, b 2, a 3, b 3, a 6, b 6, a 7, b 7]
/-- `_mm256_shuffle_ps`: in each half, two lanes of `a` and two of `b`, chosen by two bits of the immediate each. -/
def shufflePs (a b : Fin 8 → α) (imm : Nat) : Fin 8 → α := fun i =>
  if i.val % 4 < 2 then a ⟨i.val / 4 * 4 + imm / 4 ^ (i.val % 4) % 4, by omega⟩
  else b ⟨i.val / 4 * 4 + imm / 4 ^ (i.val % 4) % 4, by omega⟩
/-- `_mm256_blend_ps`, `_mm256_blend_pd`: lane `i` of `b` where bit `i` of the immediate is set. -/
def blend {w : Nat} (a b : Fin w → α) (imm : Nat) : Fin w → α := fun i => if imm / 2 ^ i.val % 2 = 1 then b i else a i
/-- `_mm256_insertf128_pd(_mm256_castpd128_pd256(l), h, 1)`. -/
def join128pd (l h : Fin 2 → α) : Fin 4 → α := ![l 0, l 1, h 0, h 1]
/-- `_mm256_unpacklo_pd`. -/
def unpackloPd (a b : Fin 4 → α) : Fin 4 → α := ![a 0, b 0, a 2, b 2]
/-- `_mm256_unpackhi_pd`. -/
def unpackhiPd (a b : Fin 4 → α) : Fin 4 → α := ![a 1, b 1, a 3, b 3]
/-- `_mm256_shuffle_pd`: in each half, a lane of `a` then one of `b`, chosen by one bit of the immediate each. -/
def shufflePd (a b : Fin 4 → α) (imm : Nat) : Fin 4 → α := fun i =>
  if i.val % 2 = 0 then a ⟨i.val / 2 * 2 + imm / 2 ^ i.val % 2, by omega⟩ else b ⟨i.val / 2 * 2 + imm / 2 ^ i.val % 2, by omega⟩
/-- `_mm_shuffle_ps`. For array/linalg/transpose.hpp 26-221, 271-363. -/
def shuffle4 (a b : Fin 4 → α) (imm : Nat) : Fin 4 → α := fun i =>
  if i.val < 2 then a ⟨imm / 4 ^ i.val % 4, by omega⟩ else b ⟨imm / 4 ^ i.val % 4, by omega⟩
/-- `_mm_unpacklo_pd`, `vzip1q_f64`. -/
def unpacklo2 (a b : Fin 2 → α) : Fin 2 → α := ![a 0, b 0]
/-- `_mm_unpackhi_pd`, `vzip2q_f64`. -/
def unpackhi2 (a b : Fin 2 → α) : Fin 2 → α := ![a 1, b 1]
/-- `vzip1q_f32`. -/
def zip1 (a b : Fin 4 → α) : Fin 4 → α := ![a 0, b 0, a 1, b 1]
/-- `vzip2q_f32`. -/
def zip2 (a b : Fin 4 → α) : Fin 4 → α := ![a 2, b 2, a 3, b 3]
/-- `vcombine_f32`. -/
def combine (l h : Fin 2 → α) : Fin 4 → α := ![l 0, l 1, h 0, h 1]
/-- `vget_low_f32`. -/
def getLow (a : Fin 4 → α) : Fin 2 → α := ![a 0, a 1]
/-- `vget_high_f32`. -/
def getHigh (a : Fin 4 → α) : Fin 2 → α := ![a 2, a 3]

/-! ### The kernels: from the loaded block (row, column) to the stored block (row, column), before scaling -/

/-- Four floats from row `r`, column `c` (`_mm_loadu_ps`). For array/linalg/transpose.hpp 26-221, 271-363. -/
def quad (x : Fin 8 → Fin 8 → α) (r : Fin 8) (c : Nat) (h : c ≤ 4) : Fin 4 → α := fun i => x r ⟨c + i.val, by omega⟩

/-- transpose.hpp 25-86: AVX2, float. -/
def avx2Float (x : Fin 8 → Fin 8 → α) : Fin 8 → Fin 8 → α :=
  let r0 := join128ps (quad x 0 0 (by omega)) (quad x 4 0 (by omega))
  let r1 := join128ps (quad x 1 0 (by omega)) (quad x 5 0 (by omega))
  let r2 := join128ps (quad x 2 0 (by omega)) (quad x 6 0 (by omega))
  let r3 := join128ps (quad x 3 0 (by omega)) (quad x 7 0 (by omega))
  let r4 := join128ps (quad x 0 4 (by omega)) (quad x 4 4 (by omega))
  let r5 := join128ps (quad x 1 4 (by omega)) (quad x 5 4 (by omega))
  let r6 := join128ps (quad x 2 4 (by omega)) (quad x 6 4 (by omega))
  let r7 := join128ps (quad x 3 4 (by omega)) (quad x 7 4 (by omega))
  let t0 := unpackloPs r0 r1
  let t1 := unpackhiPs r0 r1
  let t2 := unpackloPs r2 r3
  let t3 := unpackhiPs r2 r3
  let t4 := unpackloPs r4 r5
  let t5 := unpackhiPs r4 r5
  let t6 := unpackloPs r6 r7
  let t7 := unpackhiPs r6 r7
  let v := shufflePs t0 t2 0x4E
  let s0 := blend t0 v 0xCC
  let s1 := blend t2 v 0x33
  let v' := shufflePs t1 t3 0x4E
  let s2 := blend t1 v' 0xCC
  let s3 := blend t3 v' 0x33
  let v'' := shufflePs t4 t6 0x4E
  let s4 := blend t4 v'' 0xCC
  let s5 := blend t6 v'' 0x33
  let v''' := shufflePs t5 t7 0x4E
  let s6 := blend t5 v''' 0xCC
  let s7 := blend t7 v''' 0x33
  ![s0, s1, s2, s3, s4, s5, s6, s7]

/-- Two doubles from row `r`, column `c` (`_mm_loadu_pd`). For array/linalg/transpose.hpp 26-221, 271-363. -/
def pair (x : Fin 4 → Fin 4 → α) (r : Fin 4) (c : Nat) (h : c ≤ 2) : Fin 2 → α := fun i => x r ⟨c + i.val, by omega⟩

/-- transpose.hpp 88-126: AVX2, double. -/
def avx2Double (x : Fin 4 → Fin 4 → α) : Fin 4 → Fin 4 → α :=
  let r0 := join128pd (pair x 0 0 (by omega)) (pair x 2 0 (by omega))
  let r1 := join128pd (pair x 1 0 (by omega)) (pair x 3 0 (by omega))
  let r2 := join128pd (pair x 0 2 (by omega)) (pair x 2 2 (by omega))
  let r3 := join128pd (pair x 1 2 (by omega)) (pair x 3 2 (by omega))
  let t0 := unpackloPd r0 r1
  let t1 := unpackhiPd r0 r1
  let t2 := unpackloPd r2 r3
  let t3 := unpackhiPd r2 r3
  let v := shufflePd t0 t2 0x0
  let s0 := blend t0 v 0xC
  let s1 := blend t2 v 0x3
  let v' := shufflePd t1 t3 0x0
  let s2 := blend t1 v' 0xC
  let s3 := blend t3 v' 0x3
  ![s0, s1, s2, s3]

/-- transpose.hpp 133-150: SSE, float. -/
def sseFloat (x : Fin 4 → Fin 4 → α) : Fin 4 → Fin 4 → α :=
  let tmp0 := shuffle4 (x 0) (x 1) 0x44
  let tmp2 := shuffle4 (x 0) (x 1) 0xEE
  let tmp1 := shuffle4 (x 2) (x 3) 0x44
  let tmp3 := shuffle4 (x 2) (x 3) 0xEE
  ![shuffle4 tmp0 tmp1 0x88, shuffle4 tmp0 tmp1 0xDD, shuffle4 tmp2 tmp3 0x88, shuffle4 tmp2 tmp3 0xDD]

/-- transpose.hpp 153-169: SSE, double; 207-221: NEON, double. -/
def twoByTwo (x : Fin 2 → Fin 2 → α) : Fin 2 → Fin 2 → α := ![unpacklo2 (x 0) (x 1), unpackhi2 (x 0) (x 1)]

/-- transpose.hpp 176-205: NEON, float. -/
def neonFloat (x : Fin 4 → Fin 4 → α) : Fin 4 → Fin 4 → α :=
  let t0 := zip1 (x 0) (x 1)
  let t1 := zip2 (x 0) (x 1)
  let t2 := zip1 (x 2) (x 3)
  let t3 := zip2 (x 2) (x 3)
  ![combine (getLow t0) (getLow t2), combine (getHigh t0) (getHigh t2), combine (getLow t1) (getLow t3),
    combine (getHigh t1) (getHigh t3)]

/-- One of the vectorised versions: lanes, the kernel, the alignment its stores need (in elements), and whether the remaining
blocks at the edges are scaled. For array/linalg/transpose.hpp 26-221, 271-363. -/
structure Simd (α : Type) where
  w : Nat
  F : (Fin w → Fin w → α) → Fin w → Fin w → α
  align : Nat
  scaledEdges : Bool

/-- transpose.hpp 25-86, 272-315. -/
def avx2F : Simd α := ⟨8, avx2Float, 1, false⟩
/-- transpose.hpp 88-126, 320-363; the stores `_mm256_store_pd` need 32-byte alignment, i.e. 4 doubles (the storage itself is
64-byte aligned). -/
def avx2D : Simd α := ⟨4, avx2Double, 4, true⟩
/-- transpose.hpp 133-150, 272-315. -/
def sseF : Simd α := ⟨4, sseFloat, 1, false⟩
/-- transpose.hpp 153-169, 320-363. -/
def sseD : Simd α := ⟨2, twoByTwo, 1, true⟩
/-- transpose.hpp 176-205, 272-315. -/
def neonF : Simd α := ⟨4, neonFloat, 1, false⟩
/-- transpose.hpp 207-221, 320-363. -/
def neonD : Simd α := ⟨2, twoByTwo, 1, true⟩

/-! ### The loops -/

/-- `n` programs one after the other, with all their results. For array/linalg/transpose.hpp 26-221, 271-363. -/
def collect {β : Type} : (n : Nat) → (Fin n → Prog α β) → Prog α (Fin n → β)
  | 0, _ => .ret Fin.elim0
  | n + 1, p => (p 0).bind fun v => (collect n fun i => p i.succ).bind fun f => .ret (Fin.cases v f)

/-- Read one element. For array/linalg/transpose.hpp 26-221, 271-363. -/
def load (a : Addr) : Prog α α := .read a .ret

/-- Store a row of the block. A misaligned address is undefined behaviour for the aligned store. For array/linalg/transpose.hpp 26-221,
271-363. -/
def storeRow (s : Simd α) (mul : α → α → α) (dst base : Nat) (row : Fin s.w → α) (alpha : α) : Prog α (Fin s.w → Unit) :=
  if base % s.align = 0 then collect s.w fun i => .write (dst, base + i.val) (mul (row i) alpha) (.ret ()) else .fail

/-- The kernels' loads from `in` and stores to `out`, both with the same stride: `transposeFloatKernel(out, in, alpha, cols)`. For
array/linalg/transpose.hpp 26-221, 271-363. -/
def kernel (s : Simd α) (mul : α → α → α) (src dst inBase outBase : Nat) (alpha : α) (stride : Nat) : Prog α Unit :=
  (collect s.w fun r => collect s.w fun c => load (src, inBase + r.val * stride + c.val)).bind fun x =>
    (collect s.w fun k => storeRow s mul dst (outBase + k.val * stride) (s.F x k) alpha).bind fun _ => .ret ()

/-- transpose.hpp 290, 308 (float, unscaled) and 338, 356 (double, scaled). -/
def edgeMul (s : Simd α) (mul : α → α → α) (v alpha : α) : α := if s.scaledEdges then mul v alpha else v

/-- transpose.hpp 283-294, 301-312, 331-342, 349-360: a full block by the kernel with stride `rows`, others element by element. -/
def simdBlock (s : Simd α) (mul : α → α → α) (src dst rows cols : Nat) (alpha : α) (i j : Nat) : Prog α Unit :=
  if i + s.w ≤ rows ∧ j + s.w ≤ cols then kernel s mul src dst (i * cols + j) (j * rows + i) alpha rows
  else block (edgeMul s mul) src dst rows cols alpha s.w i j

/-- One iteration of the outer loop. For array/linalg/transpose.hpp 26-221, 271-363. -/
def simdRow (s : Simd α) (mul : α → α → α) (src dst rows cols : Nat) (alpha : α) (i : Nat) : Prog α Unit :=
  seqAll (fun j => simdBlock s mul src dst rows cols alpha i j) (indices 0 cols s.w)

/-- transpose.hpp 271-315 and 319-363: `transposeImpl` for float and double. -/
def SimdImpl (s : Simd α) (mul : α → α → α) (small : Bool) (threshold : Nat) (src dst rows cols : Nat) (alpha : α) (m : Mem α)
    (o : Out (Mem α)) : Prop :=
  LoopOutcome (simdRow s mul src dst rows cols alpha) (indices 0 rows s.w) (inParallel small threshold rows cols) m o

end Verif.TransM
