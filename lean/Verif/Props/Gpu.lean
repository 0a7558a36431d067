import Verif.Lemmas.GpuMore
import Mathlib.Data.Int.Basic
import Mathlib.Algebra.Ring.Int.Defs

/-!
# C60: GPU kernels compute the same products under every schedule

An execution is complete when no step is possible (`Stuck`). A complete execution in which some work item has not returned (`¬ Done`) is one
that went wrong: an access outside the buffers, an index that cannot be represented, or a barrier that part of a group never reaches.
-/

namespace Verif.Gpu
open Finset

variable {G : Type}

/-! ### Matrix times vector -/

/-- gemv.cl, gemv.cu: whatever the number of work items (at least `m`), their grouping and their order, the kernel ends, every `y[i * incY]` is
`alpha * Σ_j A(i, j) * x[j * incX] + beta * y[i * incY]` (added up in the order of `j`), and nothing else is changed. -/
theorem C60_gemv {K : Type} [Semiring K] {lim items : Nat} {grp : Fin items → G} {g : GemvArgs K} {A : Nat → Nat → K} {X Y : Nat → K} {M : Mem GemvLoc K}
    (hitems : g.m ≤ items) (hinc : 0 < g.incY)
    (hA : ∀ i j, i < g.m → j < g.n → (if g.trans then j * g.lda + i else i * g.lda + j) < lim ∧ M (.a (if g.trans then j * g.lda + i else i * g.lda + j)) = some (A i j))
    (hX : ∀ j, j < g.n → j * g.incX < lim ∧ M (.x (j * g.incX)) = some (X j)) (hY : ∀ i, i < g.m → i * g.incY < lim ∧ M (.y (i * g.incY)) = some (Y i))
    {n : Nat} {c : Cfg (Fin items) GemvLoc K} (hs : Steps grp ⟨fun t => gemv lim g t, M⟩ n c) (hst : Stuck grp c) :
    Done c ∧ (∀ i, i < g.m → c.mem (.y (i * g.incY)) = some (g.alpha * ∑ j ∈ range g.n, A i j * X j + g.beta * Y i)) ∧
      ∀ x, (∀ i, i < g.m → x ≠ .y (i * g.incY)) → c.mem x = M x := by
  have h : GemvData lim g A X Y M := ⟨hA, hX, hY⟩
  have hout : ∀ t : Fin items, ¬ (t : Nat) < g.m → Eff M (gemv lim g t) M .ret (fun _ => False) (fun _ => False) := by
    intro t ht
    unfold gemv
    rw [if_neg ht]; exact Eff.ret
  have key : ∀ t : Fin items, safe M (gemv lim g t) ∧ (solo M (gemv lim g t)).2 = .ret ∧ (∀ x, wr M (gemv lim g t) x → (t : Nat) < g.m ∧ x = .y (t * g.incY)) ∧
      ∀ i, acc M (gemv lim g t) (.y i) → i = t * g.incY := by
    intro t
    by_cases ht : (t : Nat) < g.m
    · have e := gemv_eff h ht
      refine ⟨e.safe, by rw [e.solo], fun x hx => ⟨ht, (e.wr x).1 hx⟩, fun i hi => ?_⟩
      rcases e.acc _ hi with ⟨_, h⟩ | ⟨_, h⟩ | h
      · cases h
      · cases h
      · injection h
    · have e := hout t ht
      exact ⟨e.safe, by rw [e.solo], fun x hx => ((e.wr x).1 hx).elim, fun i hi => (e.acc _ hi).elim⟩
  obtain ⟨h1, h2, h3⟩ := indep_sound (fun t => (key t).1) (fun t => (key t).2.1) (fun t t' x hw ha => by
    obtain ⟨-, rfl⟩ := (key t).2.2.1 x hw
    exact Fin.ext (Nat.eq_of_mul_eq_mul_right hinc ((key t').2.2.2 _ ha))) hs hst
  refine ⟨h1, fun i hi => ?_, fun x hx => h3 x fun t hw => ?_⟩
  · have e := gemv_eff h hi
    have := h2 ⟨i, by omega⟩ (.y (i * g.incY)) ((e.wr _).2 rfl)
    rw [this, e.solo, dotFrom_sum]
    simp
  · obtain ⟨ht, rfl⟩ := (key t).2.2.1 x hw
    exact hx t ht rfl

/-- Every execution can be completed, and none is longer than the number of items times the work of one. -/
theorem C60_gemv_ends {K : Type} [Zero K] [Add K] [Mul K] {lim items : Nat} {grp : Fin items → G} {g : GemvArgs K} {M : Mem GemvLoc K} :
    (∃ n c, Steps grp ⟨fun t : Fin items => gemv lim g t, M⟩ n c ∧ Stuck grp c) ∧
      ∀ n c, Steps grp ⟨fun t : Fin items => gemv lim g t, M⟩ n c → n ≤ items * (2 * g.n + 2) := by
  refine ⟨exists_complete (List.finRange items) (List.mem_finRange) (fun _ => 2 * g.n + 2) fun t => gemv_atMost, fun n c hs => ?_⟩
  obtain ⟨b', -, h⟩ := steps_bounded (List.finRange items) (List.mem_finRange) (fun _ => 2 * g.n + 2) (fun t => gemv_atMost) hs
  rw [List.map_const', List.sum_replicate_nat, List.length_finRange] at h
  omega

/-- The library starts `m * n` work items (gemv.hpp 99): enough as soon as the matrix has a column. -/
theorem C60_gemv_items {m n : Nat} (hn : 0 < n) : m ≤ gemvItems m n := Nat.le_mul_of_pos_right m hn

/-- What one expects of the library's launch. -/
def C60GemvClaim : Prop :=
  ∀ (lim : Nat) (grp : Fin 0 → Unit) (g : GemvArgs ℤ) (M : Mem GemvLoc ℤ) (Y : Nat → ℤ), g.n = 0 → 0 < g.incY → (∀ i, i < g.m → i * g.incY < lim ∧ M (.y (i * g.incY)) = some (Y i)) →
    ∀ n c, Steps grp ⟨fun t : Fin 0 => gemv lim g t, M⟩ n c → Stuck grp c → ∀ i, i < g.m → c.mem (.y (i * g.incY)) = some (g.beta * Y i)

/-- With a matrix without columns no work item runs, and `y` is not multiplied by `beta`. -/
theorem C60_gemv_no_columns_false : gemvItems 1 0 = 0 ∧ ¬ C60GemvClaim := by
  refine ⟨rfl, fun h => ?_⟩
  let g : GemvArgs ℤ := ⟨false, 1, 0, 1, 0, 1, 0, 1⟩
  have := h 100 (fun _ => ()) g (fun _ => some 1) (fun _ => 1) rfl (by decide) (fun i hi => ⟨by have : i < 1 := hi; show i * 1 < 100; omega, rfl⟩) 0 _ Steps.refl
    (fun d hd => by cases hd with
      | @read t => exact t.elim0
      | @write t => exact t.elim0
      | barrier _ _ ne => obtain ⟨t, -⟩ := ne; exact t.elim0) 0 (by decide)
  exact absurd this (by decide)

/-! ### Transpose -/

theorem covers {e D : Nat} (hD : 0 < D) : e ≤ groupsFor e D * D := by
  unfold groupsFor
  have := Nat.div_add_mod (e + D - 1) D
  have h2 := Nat.mod_lt (e + D - 1) hD
  rw [Nat.mul_comm] at this
  omega

/-- transpose.cl: for any extents, any tile side `D` and any grid that covers the matrix, however the work items of all groups interleave between
the barriers, the kernel ends with `out[j * rows + i] = alpha * A(i, j)`, reads and writes nothing outside its buffers, and changes neither the
input nor the rest of the output. The output buffer must be another one than the input. -/
theorem C60_transpose {K : Type} [Zero K] [Add K] [Mul K] {lim gx gy D rows cols : Nat} {alpha : K} {A : Nat → Nat → K} {M : Mem TrLoc K}
    (hsize : rows * cols ≤ lim) (hD : 0 < D) (hx : cols ≤ gx * D) (hy : rows ≤ gy * D)
    (hin : ∀ i j, i < rows → j < cols → M (.inp (i * cols + j)) = some (A i j)) (hout : ∀ i, i < rows * cols → M (.out i) ≠ none)
    (htile : ∀ g r c, r < D → c < D → M (.tile g r c) ≠ none) {n : Nat} {c : Cfg (Item gx gy D) TrLoc K}
    (hs : Steps (fun t : Item gx gy D => t.1) ⟨fun t => transpose lim rows cols D alpha (t.1.1, t.1.2) (t.2.1, t.2.2), M⟩ n c)
    (hst : Stuck (fun t : Item gx gy D => t.1) c) :
    Done c ∧ (∀ i j, i < rows → j < cols → c.mem (.out (j * rows + i)) = some (A i j * alpha)) ∧
      (∀ i, c.mem (.inp i) = M (.inp i)) ∧ ∀ i, rows * cols ≤ i → c.mem (.out i) = M (.out i) := by
  have own_lt : ∀ (g : Fin gx × Fin gy) i, TrOwn gx gy D rows cols g (.out i) → i < rows * cols := by
    rintro g i ⟨r, c, hr, hc, h1, h2, rfl⟩
    rw [Nat.mul_comm rows]
    exact cell_lt h2 h1
  have hr := transpose_rule (gx := gx) (gy := gy) (D := D) (alpha := alpha) (A := A) hsize
  have hq : ∀ g, TrQ gx gy D rows cols lim alpha A g (fun t => transpose lim rows cols D alpha (t.1.1, t.1.2) (t.2.1, t.2.2)) M :=
    fun g => .load (fun t _ => rfl) hin (fun i hi => hout i (own_lt g i hi)) (fun r c => htile _ r c)
  obtain ⟨h1, h2⟩ := hr.sound hq hs hst
  refine ⟨h1, fun i j hi hj => ?_, fun i => hr.frame hq hs fun g h => h, fun i hi => hr.frame hq hs fun g h => ?_⟩
  · have e1 : i / D * D + i % D = i := by rw [Nat.mul_comm]; exact Nat.div_add_mod i D
    have e2 : j / D * D + j % D = j := by rw [Nat.mul_comm]; exact Nat.div_add_mod j D
    have b1 : i / D < gy := (Nat.div_lt_iff_lt_mul hD).2 (by omega)
    have b2 : j / D < gx := (Nat.div_lt_iff_lt_mul hD).2 (by omega)
    have := h2 (⟨j / D, b2⟩, ⟨i / D, b1⟩) (i % D) (j % D) (Nat.mod_lt _ hD) (Nat.mod_lt _ hD) (by simpa only [e1] using hi) (by simpa only [e2] using hj)
    simpa only [e1, e2] using this
  · have := own_lt g i h
    omega

/-- Every execution can be completed, in at most five steps per work item. -/
theorem C60_transpose_ends {K : Type} [Zero K] [Add K] [Mul K] {lim gx gy D rows cols : Nat} {alpha : K} {M : Mem TrLoc K} :
    (∃ n c, Steps (fun t : Item gx gy D => t.1) ⟨fun t => transpose lim rows cols D alpha (t.1.1, t.1.2) (t.2.1, t.2.2), M⟩ n c ∧
      Stuck (fun t : Item gx gy D => t.1) c) ∧
    ∀ n c, Steps (fun t : Item gx gy D => t.1) ⟨fun t => transpose lim rows cols D alpha (t.1.1, t.1.2) (t.2.1, t.2.2), M⟩ n c → n ≤ gx * gy * (D * D) * 5 := by
  refine ⟨exists_complete (allItems gx gy D) mem_allItems (fun _ => 5) fun t => transpose_atMost, fun n c hs => ?_⟩
  obtain ⟨b', -, h⟩ := steps_bounded (allItems gx gy D) mem_allItems (fun _ => 5) (fun t => transpose_atMost) hs
  rw [List.map_const', List.sum_replicate_nat] at h
  have : (allItems gx gy D).length = gx * gy * (D * D) := by simp [allItems, List.length_product]
  rw [this] at h
  omega

/-- The library's grid covers the matrix (transpose.hpp 383-384, with `D = 16`). -/
theorem C60_transpose_grid (e : Nat) : e ≤ groupsFor e 16 * 16 := covers (by decide)

/-! ### Matrix product -/

/-- gemm.cl, gemm.cu: what the kernel computes, however the work items interleave. Whenever all the indices it forms are inside the buffers, it ends, and
`c[r, q]` is `alpha * Σ_s a[r, s] * b'[s] + beta * c[r, q]`, where `b'[s]` is read at row `(r / D) * D + s % D` and column `(s / D) * D + q % D` of `b` (or,
with `transB`, at position `(s / D) * D + q % D` of row `q`), and counts as 0 if that column is not below `k`. `transA` makes no difference. -/
theorem C60_gemm_value {K : Type} [Semiring K] {lim gx gy D tiles : Nat} {p : GemmArgs K} {a b c : Nat → K} {M : Mem GemmLoc K}
    (hD : 0 < D) (hld : p.n ≤ p.ldc) (hx : p.n ≤ gx * D) (hy : p.m ≤ gy * D) (ht : p.k ≤ tiles * D)
    (ha : ∀ i q, i < p.m → q < p.k → i * p.lda + q < lim ∧ M (.a (i * p.lda + q)) = some (a (i * p.lda + q)))
    (hb : ∀ gx t x y, x < D → gx * D + x < p.n → y < gy * D → t * D + x < p.k →
      p.atB (gx * D + x) y (t * D + x) < lim ∧ M (.b (p.atB (gx * D + x) y (t * D + x))) = some (b (p.atB (gx * D + x) y (t * D + x))))
    (hc : ∀ i q, i < p.m → q < p.n → i * p.ldc + q < lim ∧ M (.c (i * p.ldc + q)) = some (c (i * p.ldc + q)))
    (hsub : ∀ g r c, r < D → c < D → M (.asub g r c) ≠ none ∧ M (.bsub g r c) ≠ none)
    {n : Nat} {d : Cfg (Item gx gy D) GemmLoc K} (hs : Steps (fun t : Item gx gy D => t.1) ⟨fun t => gemm lim D tiles p (t.1.1, t.1.2) (t.2.1, t.2.2), M⟩ n d)
    (hst : Stuck (fun t : Item gx gy D => t.1) d) :
    Done d ∧ (∀ r q, r < p.m → q < p.n → d.mem (.c (r * p.ldc + q)) =
      some (p.alpha * ∑ s ∈ range p.k, a (r * p.lda + s) * (if s / D * D + q % D < p.k then b (if p.transB then s / D * D + q % D + p.ldb * q
        else (r / D * D + s % D) * p.ldb + (s / D * D + q % D)) else 0) + p.beta * c (r * p.ldc + q))) ∧
      (∀ i, d.mem (.a i) = M (.a i)) ∧ (∀ i, d.mem (.b i) = M (.b i)) ∧
      ∀ i, (∀ r q, r < p.m → q < p.n → i ≠ r * p.ldc + q) → d.mem (.c i) = M (.c i) := by
  have eA : ∀ i q, p.atA i q = i * p.lda + q := by
    intro i q; unfold GemmArgs.atA
    split
    · rw [Nat.mul_comm]; omega
    · rfl
  have hr := gemm_rule (gx := gx) (gy := gy) (D := D) (lim := lim) (tiles := tiles) (a := a) (b := b) (c := c) hld
  have hq : ∀ g, GmQ lim gx gy D tiles p a b c g (fun t => gemm lim D tiles p (t.1.1, t.1.2) (t.2.1, t.2.2)) M := by
    refine fun g => .load 0 tiles (by omega) (fun i _ => rfl) ⟨⟨fun i q h1 h2 => by rw [eA]; exact ha i q h1 h2, hb⟩, fun x y h1 h2 => hsub _ _ _ h2 h1, ?_⟩
    rintro _ ⟨x, y, h1, h2, h3, h4, rfl⟩
    exact hc _ _ h3 h4
  obtain ⟨h1, h2⟩ := hr.sound hq hs hst
  refine ⟨h1, fun r q h3 h4 => ?_, fun i => hr.frame hq hs fun g h => h, fun i => hr.frame hq hs fun g h => h, fun i hi => hr.frame hq hs ?_⟩
  · have e1 : r / D * D + r % D = r := by rw [Nat.mul_comm]; exact Nat.div_add_mod r D
    have e2 : q / D * D + q % D = q := by rw [Nat.mul_comm]; exact Nat.div_add_mod q D
    have b1 : r / D < gy := (Nat.div_lt_iff_lt_mul hD).2 (by omega)
    have b2 : q / D < gx := (Nat.div_lt_iff_lt_mul hD).2 (by omega)
    have := h2 (⟨q / D, b2⟩, ⟨r / D, b1⟩) (q % D) (r % D) (Nat.mod_lt _ hD) (Nat.mod_lt _ hD) (by simpa only [e1] using h3) (by simpa only [e2] using h4)
    simp only [e1, e2] at this
    rw [this, accAt_end hD ht (by simpa only [e1] using h3) (by simpa only [e2] using h4)]
    simp only [e1, e2, eA, GemmArgs.atB]
  · rintro g ⟨x, y, -, -, h3, h4, rfl⟩
    exact hi _ _ h3 h4 rfl

/-- Every execution can be completed. -/
theorem C60_gemm_ends {K : Type} [Zero K] [Add K] [Mul K] {lim gx gy D tiles : Nat} {p : GemmArgs K} {M : Mem GemmLoc K} :
    (∃ n c, Steps (fun t : Item gx gy D => t.1) ⟨fun t => gemm lim D tiles p (t.1.1, t.1.2) (t.2.1, t.2.2), M⟩ n c ∧ Stuck (fun t : Item gx gy D => t.1) c) ∧
    ∀ n c, Steps (fun t : Item gx gy D => t.1) ⟨fun t => gemm lim D tiles p (t.1.1, t.1.2) (t.2.1, t.2.2), M⟩ n c →
      n ≤ gx * gy * (D * D) * (tiles * (2 * D + 6) + 2) := by
  refine ⟨exists_complete (allItems gx gy D) mem_allItems (fun _ => tiles * (2 * D + 6) + 2) fun t => gemmTiles_atMost _ _ _, fun n c hs => ?_⟩
  obtain ⟨b', -, h⟩ := steps_bounded (allItems gx gy D) mem_allItems (fun _ => tiles * (2 * D + 6) + 2) (fun t => gemmTiles_atMost _ _ _) hs
  rw [List.map_const', List.sum_replicate_nat] at h
  have : (allItems gx gy D).length = gx * gy * (D * D) := by simp [allItems, List.length_product]
  rw [this] at h
  omega

/-- Both kernels run enough tiles. -/
theorem C60_gemm_tiles (k : Nat) {D : Nat} (hD : 0 < D) : k ≤ tilesCuda k D * D ∧ k ≤ tilesOpenCL k D * D := by
  refine ⟨covers hD, ?_⟩
  unfold tilesOpenCL
  have := Nat.div_add_mod k D
  have h2 := Nat.mod_lt k hD
  rw [Nat.mul_comm] at this
  rw [Nat.add_mul, Nat.one_mul]
  omega

/-- The memory the caller of gemm provides: exactly the matrices (`bRows` rows of `b`), and the tiles of the groups. -/
def gemmMem {K : Type} (p : GemmArgs K) (aRows bRows D : Nat) (a b c : Nat → K) : Mem GemmLoc K
  | .a i => if i < aRows * p.lda then some (a i) else none
  | .b i => if i < bRows * p.ldb then some (b i) else none
  | .c i => if i < p.m * p.ldc then some (c i) else none
  | .asub _ r c => if r < D ∧ c < D then some (a 0) else none
  | .bsub _ r c => if r < D ∧ c < D then some (a 0) else none

/-- What is asked of the kernel: the matrix product, for all extents and all transpositions, with the library's geometry (gemm.hpp 102-103 and 285-286,
tiles of 32) and with buffers that hold the matrices. -/
def C60GemmClaim : Prop :=
  ∀ (lim tiles : Nat) (p : GemmArgs ℤ) (a b c : Nat → ℤ), p.k ≤ tiles * 32 → (if p.transA then p.m else p.k) ≤ p.lda → (if p.transB then p.k else p.n) ≤ p.ldb → p.n ≤ p.ldc →
    (if p.transA then p.k else p.m) * p.lda < lim → (if p.transB then p.n else p.k) * p.ldb < lim → p.m * p.ldc < lim →
    ∀ n (d : Cfg (Item (groupsFor p.n 32) (groupsFor p.m 32) 32) GemmLoc ℤ),
      Steps (fun t => t.1) ⟨fun t => gemm lim 32 tiles p (t.1.1, t.1.2) (t.2.1, t.2.2), gemmMem p (if p.transA then p.k else p.m) (if p.transB then p.n else p.k) 32 a b c⟩ n d →
      Stuck (fun t => t.1) d → Done d ∧ ∀ r q, r < p.m → q < p.n → d.mem (.c (r * p.ldc + q)) =
        some (p.alpha * ∑ s ∈ range p.k, a (if p.transA then s * p.lda + r else r * p.lda + s) * b (if p.transB then q * p.ldb + s else s * p.ldb + q) + p.beta * c (r * p.ldc + q))

/-- The kernel is right for matrices of at most one tile without transpositions, provided `k` is exactly the tile side (32): under every schedule and with either
number of tiles. Missing: all other extents, and transpositions, where the kernel is wrong (below). -/
theorem C60_gemm_partial {K : Type} [Semiring K] {lim D tiles : Nat} {p : GemmArgs K} {a b c : Nat → K}
    (hD : 0 < D) (hA : p.transA = false) (hB : p.transB = false) (hk : p.k = D) (hm : p.m ≤ D) (hn : p.n ≤ D) (htiles : 0 < tiles)
    (hla : p.k ≤ p.lda) (hlb : p.n ≤ p.ldb) (hlc : p.n ≤ p.ldc) (sa : p.m * p.lda ≤ lim) (sb : p.k * p.ldb ≤ lim) (sc : p.m * p.ldc ≤ lim)
    {n : Nat} {d : Cfg (Item 1 1 D) GemmLoc K} (hs : Steps (fun t : Item 1 1 D => t.1) ⟨fun t => gemm lim D tiles p (t.1.1, t.1.2) (t.2.1, t.2.2), gemmMem p p.m p.k D a b c⟩ n d)
    (hst : Stuck (fun t : Item 1 1 D => t.1) d) :
    Done d ∧ ∀ r q, r < p.m → q < p.n → d.mem (.c (r * p.ldc + q)) =
      some (p.alpha * ∑ s ∈ range p.k, a (r * p.lda + s) * b (s * p.ldb + q) + p.beta * c (r * p.ldc + q)) := by
  have h := C60_gemm_value (a := a) (b := b) (c := c) hD hlc (by omega) (by omega) (by rw [hk]; exact Nat.le_mul_of_pos_left _ htiles) (fun i q hi hq => ?_) (fun g t x y hx h1 h2 h3 => ?_)
    (fun i q hi hq => ?_) (fun g r c hr hc => ?_) hs hst
  · refine ⟨h.1, fun r q hr hq => ?_⟩
    rw [h.2.1 r q hr hq]
    congr 2
    congr 1
    refine Finset.sum_congr rfl fun s hs => ?_
    rw [Finset.mem_range] at hs
    have e1 : s / D = 0 := Nat.div_eq_of_lt (by omega)
    have e2 : s % D = s := Nat.mod_eq_of_lt (by omega)
    have e3 : q % D = q := Nat.mod_eq_of_lt (by omega)
    have e4 : r / D = 0 := Nat.div_eq_of_lt (by omega)
    have e5 : q < p.k := by omega
    simp [e1, e2, e3, e4, e5, hB]
  · have h1 : i * p.lda + q < p.m * p.lda := cell_lt hi (by omega)
    exact ⟨by omega, by simp [gemmMem, h1]⟩
  · have ht : t = 0 := by
      by_contra hne
      have : 1 * D ≤ t * D := Nat.mul_le_mul_right _ (by omega)
      omega
    subst ht
    have h4 : y * p.ldb + x < p.k * p.ldb := cell_lt (by omega) (by omega)
    have e : p.atB (g * D + x) y (0 * D + x) = y * p.ldb + x := by simp [GemmArgs.atB, hB]
    rw [e]
    exact ⟨by omega, by simp [gemmMem, h4]⟩
  · have h1 : i * p.ldc + q < p.m * p.ldc := cell_lt hi (by omega)
    exact ⟨by omega, by simp [gemmMem, h1]⟩
  · simp [gemmMem, hr, hc]

/-- `b` is read outside its buffer, on every schedule, whenever the rows of the result, rounded up to whole tiles, are more than `k` (and `b` is not transposed): no
execution ever ends properly. In particular for every square product whose side is not a multiple of the tile side. -/
theorem C60_gemm_outside {K : Type} [Zero K] [Add K] [Mul K] {lim gx gy D tiles : Nat} {p : GemmArgs K} {a b c : Nat → K}
    (hB : p.transB = false) (hgx : 0 < gx) (hD : 0 < D) (hk : 0 < p.k) (hn : 0 < p.n) (hgy : p.k < gy * D) (htiles : 0 < tiles) (aRows : Nat)
    {n : Nat} {d : Cfg (Item gx gy D) GemmLoc K} (hs : Steps (fun t : Item gx gy D => t.1) ⟨fun t => gemm lim D tiles p (t.1.1, t.1.2) (t.2.1, t.2.2), gemmMem p aRows p.k D a b c⟩ n d) :
    ¬ Done d := by
  have hgy0 : 0 < gy := by
    rcases Nat.eq_zero_or_pos gy with h | h
    · subst h; omega
    · exact h
  let g : Nat × Nat := (0, gy - 1)
  let l : Nat × Nat := (0, D - 1)
  let t₀ : Item gx gy D := ((⟨0, hgx⟩, ⟨gy - 1, by omega⟩), (⟨0, hD⟩, ⟨D - 1, by omega⟩))
  obtain ⟨ts, rfl⟩ : ∃ ts, tiles = ts + 1 := ⟨tiles - 1, by omega⟩
  obtain ⟨q, hq⟩ : ∃ q, gemm lim D (ts + 1) p g l = gemmLoadA lim D p g l 0 (gemmLoadB lim D p g l 0 q) := ⟨_, rfl⟩
  have hrow : p.k ≤ (gy - 1) * D + (D - 1) := by
    have : gy * D = (gy - 1) * D + D := by
      conv_lhs => rw [show gy = gy - 1 + 1 by omega, Nat.add_mul, Nat.one_mul]
    omega
  -- what `gemmLoadB` does for this work item
  have hload : gemmLoadB lim D p g l 0 q = .fail ∨ ∃ i k, p.k * p.ldb ≤ i ∧ gemmLoadB lim D p g l 0 q = .read (.b i) k := by
    unfold gemmLoadB
    rw [if_pos (by simpa [l, g] using ⟨hk, hn⟩)]
    unfold within
    split
    · refine .inr ⟨_, _, ?_, rfl⟩
      simp only [GemmArgs.atB, hB, g, l, Nat.zero_mul, Nat.add_zero, if_false, Bool.false_eq_true]
      exact Nat.mul_le_mul_right _ hrow
    · exact .inl rfl
  have inv : (∀ i, p.k * p.ldb ≤ i → d.mem (.b i) = none) ∧
      (d.prog t₀ = gemm lim D (ts + 1) p g l ∨ (∃ v, d.prog t₀ = .write (.asub g l.2 l.1) v (gemmLoadB lim D p g l 0 q)) ∨ d.prog t₀ = gemmLoadB lim D p g l 0 q ∨ d.prog t₀ = .fail) := by
    induction hs with
    | refl => exact ⟨fun i hi => by simp [gemmMem, hi], .inl rfl⟩
    | @step n c d _ s ih =>
      obtain ⟨hm, hp⟩ := ih
      have hbar : ∀ k, c.prog t₀ ≠ .barrier k := by
        intro k hk
        rcases hp with h | ⟨v, h⟩ | h | h
        · rw [h, hq, gemmLoadA] at hk
          unfold within at hk
          split at hk
          · split at hk <;> cases hk
          · cases hk
        · rw [h] at hk; cases hk
        · rw [h] at hk
          rcases hload with h' | ⟨i, k', -, h'⟩ <;> rw [h'] at hk <;> cases hk
        · rw [h] at hk; cases hk
      cases s with
      | @read t x k v h hv =>
        refine ⟨hm, ?_⟩
        show Function.update c.prog t (k v) t₀ = _ ∨ _
        by_cases ht : t₀ = t
        · subst ht
          simp only [Function.update_self]
          rcases hp with h' | ⟨w, h'⟩ | h' | h'
          · rw [h', hq, gemmLoadA] at h
            unfold within at h
            split at h
            · split at h
              · injection h with e1 e2
                subst e2
                exact .inr (.inl ⟨_, rfl⟩)
              · cases h
            · cases h
          · rw [h'] at h; cases h
          · rw [h'] at h
            rcases hload with h2 | ⟨i, k', hi, h2⟩
            · rw [h2] at h; cases h
            · rw [h2] at h
              injection h with e1 e2
              subst e1
              rw [hm i hi] at hv
              cases hv
          · rw [h'] at h; cases h
        · simpa [Function.update_of_ne ht] using hp
      | @write t x v k w h hv =>
        refine ⟨fun i hi => ?_, ?_⟩
        · show Function.update c.mem x (some v) (.b i) = none
          by_cases hx : (.b i) = x
          · subst hx; rw [hm i hi] at hv; cases hv
          · rw [Function.update_of_ne hx]; exact hm i hi
        · show Function.update c.prog t k t₀ = _ ∨ _
          by_cases ht : t₀ = t
          · subst ht
            simp only [Function.update_self]
            rcases hp with h' | ⟨w, h'⟩ | h' | h'
            · rw [h', hq, gemmLoadA] at h
              unfold within at h
              split at h
              · split at h <;> cases h
              · injection h with e1 e2 e3
                exact .inr (.inr (.inl e3.symm))
            · rw [h'] at h
              injection h with e1 e2 e3
              exact .inr (.inr (.inl e3.symm))
            · rw [h'] at h
              rcases hload with h2 | ⟨i, k', hi, h2⟩ <;> rw [h2] at h <;> cases h
            · rw [h'] at h; cases h
          · simpa [Function.update_of_ne ht] using hp
      | @barrier g' p' ne h h' =>
        refine ⟨hm, ?_⟩
        by_cases ht : t₀.1 = g'
        · exact absurd (h t₀ ht) (hbar _)
        · have := h' t₀ ht
          show p' t₀ = _ ∨ (∃ v, p' t₀ = _) ∨ p' t₀ = _ ∨ p' t₀ = _
          rw [this]
          exact hp
  intro hd
  have hd := hd t₀
  rcases inv.2 with h | ⟨v, h⟩ | h | h
  · rw [h, hq, gemmLoadA] at hd
    unfold within at hd
    split at hd
    · split at hd <;> cases hd
    · cases hd
  · rw [h] at hd; cases hd
  · rw [h] at hd
    rcases hload with h' | ⟨i, k', -, h'⟩ <;> rw [h'] at hd <;> cases hd
  · rw [h] at hd; cases hd

/-- So the claim fails already for the product of two numbers. -/
theorem C60_gemm_false : ¬ C60GemmClaim := by
  intro h
  let p : GemmArgs ℤ := ⟨false, false, 1, 1, 1, 1, 1, 1, 0, 1⟩
  obtain ⟨n, d, hs, hst⟩ := (C60_gemm_ends (lim := 100) (gx := groupsFor p.n 32) (gy := groupsFor p.m 32) (D := 32) (tiles := 1) (p := p) (M := gemmMem p 1 1 32 (fun _ => 1) (fun _ => 1) (fun _ => 1))).1
  have := h 100 1 p (fun _ => 1) (fun _ => 1) (fun _ => 1) (by decide) (by decide) (by decide) (by decide) (by decide) (by decide) (by decide) n d hs hst
  exact C60_gemm_outside rfl (by decide) (by decide) (by decide) (by decide) (by decide) (by decide) 1 hs this.1

/-- The claim when every access is inside the buffers. -/
def C60GemmValueClaim : Prop :=
  ∀ (p : GemmArgs ℤ) (a b c : Nat → ℤ), p.transA = false → p.transB = false → p.k ≤ p.lda → p.n ≤ p.ldb → p.n ≤ p.ldc →
    p.m * p.lda < 2 ^ 31 → p.k * p.ldb < 2 ^ 31 → p.m * p.ldc < 2 ^ 31 →
    ∀ n (d : Cfg (Item (groupsFor p.n 32) (groupsFor p.m 32) 32) GemmLoc ℤ),
      Steps (fun t => t.1) ⟨fun t => gemm (2 ^ 31) 32 (tilesCuda p.k 32) p (t.1.1, t.1.2) (t.2.1, t.2.2), gemmMem p p.m p.k 32 a b c⟩ n d →
      Stuck (fun t => t.1) d → Done d → ∀ r q, r < p.m → q < p.n → d.mem (.c (r * p.ldc + q)) =
        some (p.alpha * ∑ s ∈ range p.k, a (r * p.lda + s) * b (s * p.ldb + q) + p.beta * c (r * p.ldc + q))

/-- Where nothing is read outside the buffers the values are still wrong: a row with a single 1 in place 32 times a 64 by 2 matrix gives row 16 of the matrix,
not row 32. -/
theorem C60_gemm_value_false : ¬ C60GemmValueClaim := by
  intro h
  let p : GemmArgs ℤ := ⟨false, false, 1, 2, 64, 1, 64, 2, 0, 2⟩
  let a : Nat → ℤ := fun i => if i = 32 then 1 else 0
  let b : Nat → ℤ := fun i => if i = 64 then 1 else 0
  let c : Nat → ℤ := fun _ => 0
  obtain ⟨n, d, hs, hst⟩ := (C60_gemm_ends (lim := 2 ^ 31) (gx := groupsFor p.n 32) (gy := groupsFor p.m 32) (D := 32) (tiles := tilesCuda p.k 32) (p := p) (M := gemmMem p 1 64 32 a b c)).1
  have hv := C60_gemm_value (gx := groupsFor p.n 32) (gy := groupsFor p.m 32) (tiles := tilesCuda p.k 32) (p := p) (a := a) (b := b) (c := c) (by decide) (by decide) (by decide) (by decide) (by decide) (fun i q (hi : i < 1) (hq : q < 64) => ?_) (fun g t x y hx (h1 : _ < 2) h2 (h3 : _ < 64) => ?_)
    (fun i q (hi : i < 1) (hq : q < 2) => ?_) (fun g r c hr hc => ?_) hs hst
  · have h1 := h p a b c rfl rfl (by decide) (by decide) (by decide) (by decide) (by decide) (by decide) n d hs hst hv.1 0 0 (by decide) (by decide)
    rw [hv.2.1 0 0 (by decide) (by decide)] at h1
    exact absurd h1 (by decide +kernel)
  · show i * 64 + q < 2 ^ 31 ∧ (if i * 64 + q < 1 * 64 then _ else _) = _
    rw [if_pos (by omega)]
    exact ⟨by omega, rfl⟩
  · rw [show groupsFor p.m 32 = 1 by decide] at h2
    show y * 2 + (t * 32 + x) < 2 ^ 31 ∧ (if y * 2 + (t * 32 + x) < 64 * 2 then _ else _) = _
    rw [if_pos (by omega)]
    exact ⟨by omega, rfl⟩
  · show i * 2 + q < 2 ^ 31 ∧ (if i * 2 + q < 1 * 2 then _ else _) = _
    rw [if_pos (by omega)]
    exact ⟨by omega, rfl⟩
  · simp [gemmMem, hr, hc]

/-! ### The hypotheses can be met -/

/-- A 2 by 3 matrix, not transposed, six work items. -/
example : ∃ n c, Steps (fun _ : Fin 6 => ()) ⟨fun t => gemv (2 ^ 31) (⟨false, 2, 3, 1, 3, 1, 2, 1⟩ : GemvArgs ℤ) t, fun l => match l with
      | .a i => if i < 6 then some (i : ℤ) else none
      | .x i => if i < 3 then some 1 else none
      | .y i => if i < 2 then some 10 else none⟩ n c ∧ Stuck (fun _ : Fin 6 => ()) c ∧ c.mem (.y 1) = some 32 := by
  obtain ⟨⟨n, c, hs, hst⟩, -⟩ := C60_gemv_ends (grp := fun _ : Fin 6 => ()) (lim := 2 ^ 31) (g := (⟨false, 2, 3, 1, 3, 1, 2, 1⟩ : GemvArgs ℤ)) (M := fun l => match l with
      | .a i => if i < 6 then some (i : ℤ) else none
      | .x i => if i < 3 then some 1 else none
      | .y i => if i < 2 then some 10 else none)
  refine ⟨n, c, hs, hst, ?_⟩
  have h := C60_gemv (A := fun i j => ((i * 3 + j : Nat) : ℤ)) (X := fun _ => 1) (Y := fun _ => 10) (by decide) (by decide)
    (fun i j (hi : i < 2) (hj : j < 3) => ⟨by show i * 3 + j < 2 ^ 31; omega, by show (if i * 3 + j < 6 then _ else _) = _; rw [if_pos (by omega)]; rfl⟩)
    (fun j (hj : j < 3) => ⟨by show j * 1 < 2 ^ 31; omega, by show (if j * 1 < 3 then _ else _) = _; rw [if_pos (by omega)]⟩)
    (fun i (hi : i < 2) => ⟨by show i * 1 < 2 ^ 31; omega, by show (if i * 1 < 2 then _ else _) = _; rw [if_pos (by omega)]⟩) hs hst
  exact (h.2.1 1 (by decide)).trans (by decide +kernel)

/-- Transposing a 17 by 40 matrix with the library's grid. -/
example : ∃ n c, Steps (fun t : Item (groupsFor 40 16) (groupsFor 17 16) 16 => t.1) ⟨fun t => transpose (2 ^ 31) 17 40 16 (3 : ℤ) (t.1.1, t.1.2) (t.2.1, t.2.2), fun l => match l with
      | .inp i => if i < 680 then some (i : ℤ) else none
      | .out i => if i < 680 then some 0 else none
      | .tile _ _ _ => some 0⟩ n c ∧ Stuck (fun t => t.1) c ∧ c.mem (.out (39 * 17 + 16)) = some (679 * 3) := by
  obtain ⟨⟨n, c, hs, hst⟩, -⟩ := C60_transpose_ends (gx := groupsFor 40 16) (gy := groupsFor 17 16) (D := 16) (lim := 2 ^ 31) (rows := 17) (cols := 40) (alpha := (3 : ℤ)) (M := fun l => match l with
      | .inp i => if i < 680 then some (i : ℤ) else none
      | .out i => if i < 680 then some 0 else none
      | .tile _ _ _ => some 0)
  refine ⟨n, c, hs, hst, ?_⟩
  have h := C60_transpose (A := fun i j => ((i * 40 + j : Nat) : ℤ)) (by decide) (by decide) (C60_transpose_grid 40) (C60_transpose_grid 17)
    (fun i j hi hj => by show (if i * 40 + j < 680 then _ else _) = _; rw [if_pos (by omega)])
    (fun i hi => by show (if i < 680 then _ else _) ≠ _; rw [if_pos (by omega)]; simp) (fun _ _ _ _ _ => by simp) hs hst
  exact (h.2.1 16 39 (by decide) (by decide)).trans (by decide +kernel)

/-- The case in which the product kernel works: 2 by 32 times 32 by 3. -/
example : ∃ n d, Steps (fun t : Item 1 1 32 => t.1) ⟨fun t => gemm (2 ^ 31) 32 2 (⟨false, false, 2, 3, 32, 1, 32, 3, 0, 3⟩ : GemmArgs ℤ) (t.1.1, t.1.2) (t.2.1, t.2.2),
    gemmMem ⟨false, false, 2, 3, 32, 1, 32, 3, 0, 3⟩ 2 32 32 (fun i => i) (fun i => i) (fun _ => 0)⟩ n d ∧ Stuck (fun t : Item 1 1 32 => t.1) d ∧
    d.mem (.c 4) = some (∑ s ∈ range 32, (32 + s : ℤ) * (s * 3 + 1)) := by
  obtain ⟨⟨n, d, hs, hst⟩, -⟩ := C60_gemm_ends (gx := 1) (gy := 1) (D := 32) (lim := 2 ^ 31) (tiles := 2) (p := (⟨false, false, 2, 3, 32, 1, 32, 3, 0, 3⟩ : GemmArgs ℤ))
    (M := gemmMem ⟨false, false, 2, 3, 32, 1, 32, 3, 0, 3⟩ 2 32 32 (fun i => i) (fun i => i) (fun _ => 0))
  refine ⟨n, d, hs, hst, ?_⟩
  have h := C60_gemm_partial (lim := 2 ^ 31) (D := 32) (tiles := 2) (p := (⟨false, false, 2, 3, 32, 1, 32, 3, 0, 3⟩ : GemmArgs ℤ)) (by decide) rfl rfl rfl (by decide) (by decide) (by decide) (by decide) (by decide) (by decide) (by decide) (by decide) (by decide) hs hst
  exact (h.2 1 1 (by decide) (by decide)).trans (by decide +kernel)

end Verif.Gpu
