import Verif.Model.Gpu

/-!
# The library's GPU kernels

`/repo/librapid/include/librapid/array/linalg/level2/gemv.cl`, gemv.cu, level3/gemm.cl, gemm.cu and opencl/kernels/transpose.cl, together with
the launch geometries of linalg/level2/gemv.hpp, level3/gemm.hpp and linalg/transpose.hpp.

Indices are computed with `int` or `Int`; an index not below `lim` (2^31, 2^63) is signed overflow, hence undefined. Partial results of an
index computation are not larger than the index and are not checked separately. Scalar arithmetic is a parameter.
-/

namespace Verif.Gpu

variable {K : Type} [Zero K] [Add K] [Mul K]

/-- Continue if the index can be represented. For level2/gemv.cl, level3/gemm.cl and opencl/kernels/transpose.cl. -/
def within (lim i : Nat) (k : Prog L V) : Prog L V := if i < lim then k else .fail

/-! ### Matrix times vector -/

/-- The three buffers of gemv. For level2/gemv.cl, level3/gemm.cl and opencl/kernels/transpose.cl. -/
inductive GemvLoc where
  | a (i : Nat)
  | x (i : Nat)
  | y (i : Nat)
deriving DecidableEq

/-- Arguments of gemv: gemv.cl 2-12, gemv.cu 5-6. -/
structure GemvArgs (K : Type) where
  trans : Bool
  m : Nat
  n : Nat
  alpha : K
  lda : Nat
  incX : Nat
  beta : K
  incY : Nat

/-- gemv.cl 20-26, gemv.cu 11-15: index into the matrix. The two kernels write the sums in different order. -/
def GemvArgs.at (g : GemvArgs K) (idx j : Nat) : Nat := if g.trans then j * g.lda + idx else idx * g.lda + j

/-- The loop over a row, with `r` iterations to go. For level2/gemv.cl, level3/gemm.cl and opencl/kernels/transpose.cl. -/
def gemvLoop (lim : Nat) (g : GemvArgs K) (idx : Nat) (k : K → Prog GemvLoc K) : Nat → Nat → K → Prog GemvLoc K
  | 0, _, acc => k acc
  | r + 1, j, acc => within lim (g.at idx j) <| .read (.a (g.at idx j)) fun va =>
    within lim (j * g.incX) <| .read (.x (j * g.incX)) fun vx => gemvLoop lim g idx k r (j + 1) (acc + va * vx)

/-- gemv.cl 17-29, gemv.cu 8-19: the work item with global index `idx`. -/
def gemv (lim : Nat) (g : GemvArgs K) (idx : Nat) : Prog GemvLoc K :=
  if idx < g.m then
    gemvLoop lim g idx (fun acc => within lim (idx * g.incY) <| .read (.y (idx * g.incY)) fun vy =>
      .write (.y (idx * g.incY)) (g.alpha * acc + g.beta * vy) .ret) g.n 0 0
  else .ret

/-- gemv.hpp 99: number of work items. -/
def gemvItems (m n : Nat) : Nat := m * n

/-! ### Transpose -/

/-- Buffers of the transpose kernel, and the tile of each group. For level2/gemv.cl, level3/gemm.cl and opencl/kernels/transpose.cl. -/
inductive TrLoc where
  | inp (i : Nat)
  | out (i : Nat)
  | tile (g : Nat × Nat) (r c : Nat)
deriving DecidableEq

/-- A work item in a two-dimensional grid of `gx` by `gy` groups of `D` by `D`. For level2/gemv.cl, level3/gemm.cl and
opencl/kernels/transpose.cl. -/
abbrev Item (gx gy D : Nat) := (Fin gx × Fin gy) × (Fin D × Fin D)

/-- transpose.cl 18-23: after the barrier. -/
def transposeTail (lim rows cols D : Nat) (alpha : K) (g l : Nat × Nat) : Prog TrLoc K :=
  if g.2 * D + l.1 < rows ∧ g.1 * D + l.2 < cols then
    within lim ((g.1 * D + l.2) * rows + (g.2 * D + l.1)) <| .read (.tile g l.1 l.2) fun v =>
      .write (.out ((g.1 * D + l.2) * rows + (g.2 * D + l.1))) (v * alpha) .ret
  else .ret

/-- transpose.cl 12-24: work item `l` of group `g`. -/
def transpose (lim rows cols D : Nat) (alpha : K) (g l : Nat × Nat) : Prog TrLoc K :=
  if g.1 * D + l.1 < cols ∧ g.2 * D + l.2 < rows then
    within lim ((g.2 * D + l.2) * cols + (g.1 * D + l.1)) <| .read (.inp ((g.2 * D + l.2) * cols + (g.1 * D + l.1))) fun v =>
      .write (.tile g l.2 l.1) v <| .barrier (transposeTail lim rows cols D alpha g l)
  else .barrier (transposeTail lim rows cols D alpha g l)

/-- transpose.hpp 383-384, gemm.hpp 102-103, 285-286: number of groups that cover an extent. -/
def groupsFor (extent D : Nat) : Nat := (extent + D - 1) / D

/-! ### Matrix product -/

/-- Buffers of the matrix product, and the two tiles of each group. For level2/gemv.cl, level3/gemm.cl and opencl/kernels/transpose.cl. -/
inductive GemmLoc where
  | a (i : Nat)
  | b (i : Nat)
  | c (i : Nat)
  | asub (g : Nat × Nat) (r c : Nat)
  | bsub (g : Nat × Nat) (r c : Nat)
deriving DecidableEq

/-- Arguments: gemm.cu 5-6, gemm.cl 4-16. -/
structure GemmArgs (K : Type) where
  transA : Bool
  transB : Bool
  m : Nat
  n : Nat
  k : Nat
  alpha : K
  lda : Nat
  ldb : Nat
  beta : K
  ldc : Nat

/-- gemm.cu 23, gemm.cl 33: both alternatives are the same index. -/
def GemmArgs.atA (p : GemmArgs K) (iny tiled : Nat) : Nat := if p.transA then tiled + p.lda * iny else iny * p.lda + tiled

/-- gemm.cu 26, gemm.cl 36. -/
def GemmArgs.atB (p : GemmArgs K) (inx iny tiled : Nat) : Nat := if p.transB then tiled + p.ldb * inx else iny * p.ldb + tiled

/-- gemm.cu 38, gemm.cl 48-50. `l` is the local index, `inx = g.1 * D + l.1`, `iny = g.2 * D + l.2`. -/
def gemmFinish (lim : Nat) (p : GemmArgs K) (inx iny : Nat) (acc : K) : Prog GemmLoc K :=
  if iny < p.m ∧ inx < p.n then
    within lim (iny * p.ldc + inx) <| .read (.c (iny * p.ldc + inx)) fun vc => .write (.c (iny * p.ldc + inx)) (p.alpha * acc + p.beta * vc) .ret
  else .ret

/-- gemm.cu 31-33, gemm.cl 41-43: the inner loop, with `r` iterations to go. -/
def gemmInner (p : GemmArgs K) (g l : Nat × Nat) (base : Nat) (cont : K → Prog GemmLoc K) : Nat → Nat → K → Prog GemmLoc K
  | 0, _, acc => cont acc
  | r + 1, j, acc =>
    if base + j < p.k then .read (.asub g l.2 j) fun va => .read (.bsub g j l.1) fun vb => gemmInner p g l base cont r (j + 1) (acc + va * vb)
    else gemmInner p g l base cont r (j + 1) acc

/-- gemm.cu 22-24, gemm.cl 32-34: load one element of A. -/
def gemmLoadA (lim D : Nat) (p : GemmArgs K) (g l : Nat × Nat) (t : Nat) (cont : Prog GemmLoc K) : Prog GemmLoc K :=
  if t * D + l.1 < p.k ∧ g.2 * D + l.2 < p.m then
    within lim (p.atA (g.2 * D + l.2) (t * D + l.1)) <| .read (.a (p.atA (g.2 * D + l.2) (t * D + l.1))) fun v => .write (.asub g l.2 l.1) v cont
  else .write (.asub g l.2 l.1) 0 cont

/-- gemm.cu 25-27, gemm.cl 35-37: load one element of B. -/
def gemmLoadB (lim D : Nat) (p : GemmArgs K) (g l : Nat × Nat) (t : Nat) (cont : Prog GemmLoc K) : Prog GemmLoc K :=
  if t * D + l.1 < p.k ∧ g.1 * D + l.1 < p.n then
    within lim (p.atB (g.1 * D + l.1) (g.2 * D + l.2) (t * D + l.1)) <|
      .read (.b (p.atB (g.1 * D + l.1) (g.2 * D + l.2) (t * D + l.1))) fun v => .write (.bsub g l.2 l.1) v cont
  else .write (.bsub g l.2 l.1) 0 cont

/-- gemm.cu 19-36, gemm.cl 29-46: the loop over the tiles, with `r` tiles to go. -/
def gemmTiles (lim D : Nat) (p : GemmArgs K) (g l : Nat × Nat) : Nat → Nat → K → Prog GemmLoc K
  | 0, _, acc => gemmFinish lim p (g.1 * D + l.1) (g.2 * D + l.2) acc
  | r + 1, t, acc => gemmLoadA lim D p g l t <| gemmLoadB lim D p g l t <| .barrier <|
    gemmInner p g l (t * D) (fun acc => .barrier (gemmTiles lim D p g l r (t + 1) acc)) D 0 acc

/-- gemm.cu 7-39, gemm.cl 17-51; `tiles` is the number of tiles, gemm.cu 17 or gemm.cl 27. -/
def gemm (lim D tiles : Nat) (p : GemmArgs K) (g l : Nat × Nat) : Prog GemmLoc K := gemmTiles lim D p g l tiles 0 0

/-- gemm.cu 17 -/
def tilesCuda (k D : Nat) : Nat := (k + D - 1) / D

/-- gemm.cl 27 -/
def tilesOpenCL (k D : Nat) : Nat := k / D + 1

/-- The indices of a work item. For level2/gemv.cl, level3/gemm.cl and opencl/kernels/transpose.cl. -/
def Item.group {gx gy D : Nat} (t : Item gx gy D) : Nat × Nat := (t.1.1, t.1.2)
/-- `get_local_id`. For level2/gemv.cl, level3/gemm.cl and opencl/kernels/transpose.cl. -/
def Item.local {gx gy D : Nat} (t : Item gx gy D) : Nat × Nat := (t.2.1, t.2.2)

end Verif.Gpu
