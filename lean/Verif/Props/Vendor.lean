import Verif.Lemmas.Vendor
import Verif.Props.Matmul

/-!
# Products and scaled sums handed to cuBLASLt, cuBLAS and CLBlast (C135, C136)

`applyTo asserts place op shape outShape a b c`: what evaluating the product `op` of the arrays with elements `a` and `b` into an array
with elements `c` does, when they are on a GPU and their element types are those of BLAS.
-/

namespace Verif.VendorM

open ShapeM MulM TransM

variable {α : Type}

/-- The element type is real. -/
def Elt.Real (e : Elt) : Prop := e = .half ∨ e = .float ∨ e = .double

/-- One element type throughout; on OpenCL nothing else is modelled. -/
def Place.Uniform : Place α → Prop
  | .cuda _ _ eA eB eC eS => eB = eA ∧ eC = eA ∧ eS = eA
  | .opencl => True

/-- One real element type throughout. -/
def Place.Real : Place α → Prop
  | .cuda _ _ eA eB eC eS => eA.Real ∧ eB = eA ∧ eC = eA ∧ eS = eA
  | .opencl => True

/-- The product of two matrices is evaluated: its element (i, j) is `alpha Σ_l op(A)(i, l) op(B)(l, j) + beta C(i, j)`. -/
def GemmCorrect [Semiring α] (asserts : Bool) (place : Place α) (p : MulOp α) (M N K : Nat) (a b c : List α) (Am Bm Cm : Nat → Nat → α) :
    Prop :=
  calculateShape asserts p = .ok [M, N] ∧ ∃ res, applyTo asserts place p [M, N] [M, N] a b c = .ok res ∧
    Holds res M N fun i j => p.alpha * ∑ l ∈ Finset.range K, (if p.transA then Am l i else Am i l) * (if p.transB then Bm j l else Bm l j) +
      p.beta * Cm i j

/-- The product of a matrix, stored as r by n, and a vector is evaluated. -/
def GemvCorrect [Semiring α] (asserts : Bool) (place : Place α) (p : MulOp α) (r n : Nat) (a x y : List α) (Am : Nat → Nat → α)
    (xv yv : Nat → α) : Prop :=
  calculateShape asserts p = .ok [if p.transA then n else r] ∧
    ∃ res, applyTo asserts place p [if p.transA then n else r] [if p.transA then n else r] a x y = .ok res ∧
      HoldsV res (if p.transA then n else r) fun i =>
        p.alpha * ∑ l ∈ Finset.range (if p.transA then r else n), (if p.transA then Am l i else Am i l) * xv l + p.beta * yv i

/-- C135, for the scalars `α`: products of non-empty arrays of one element type. -/
def C135Claim (α : Type) [Semiring α] : Prop :=
  (∀ (asserts : Bool) (place : Place α) (p : MulOp α) (M N K : Nat) (a b c : List α) (Am Bm Cm : Nat → Nat → α), place.Uniform →
    0 < M → 0 < N → 0 < K → p.shapeA = stored p.transA M K → p.shapeB = stored p.transB K N →
    Holds a (if p.transA then K else M) (if p.transA then M else K) Am → Holds b (if p.transB then N else K) (if p.transB then K else N) Bm →
    Holds c M N Cm → GemmCorrect asserts place p M N K a b c Am Bm Cm) ∧
  ∀ (asserts : Bool) (place : Place α) (p : MulOp α) (r n : Nat) (a x y : List α) (Am : Nat → Nat → α) (xv yv : Nat → α), place.Uniform →
    0 < r → 0 < n → p.shapeA = [r, n] → p.shapeB = [if p.transA then r else n] → Holds a r n Am →
    HoldsV x (if p.transA then r else n) xv → HoldsV y (if p.transA then n else r) yv → GemvCorrect asserts place p r n a x y Am xv yv

theorem types_real (asserts fast : Bool) {e : Elt} (he : e.Real) : cublasGemmComputeType asserts fast e.cudaType e.cudaType e.cudaType =
    .ok (computeFor fast e.cudaType) ∧ (computeFor fast e.cudaType).2 = e.cudaType ∧
    supported (computeFor fast e.cudaType).1 (computeFor fast e.cudaType).2 e.cudaType e.cudaType e.cudaType = true := by
  rcases he with rfl | rfl | rfl <;> cases asserts <;> cases fast <;> decide

/-- The call of cuBLASLt for matrices of the right sizes. -/
theorem gemmCuda_ok [Semiring α] (asserts fast : Bool) (zero : List α → Ret α) {e : Elt} (he : e.Real) {tA tB : Bool} {M N K : Nat}
    (hM : 0 < M) (hN : 0 < N) (hK : 0 < K) {alpha beta : α} {a b c : List α} (ha : a.length = (if tA then K else M) * (if tA then M else K))
    (hb : b.length = (if tB then N else K) * (if tB then K else N)) (hc : c.length = M * N) :
    gemmCuda asserts fast zero e e e e tA tB M N K alpha a (if tA then M else K) b (if tB then K else N) beta c N =
      .ok (productOver ⟨if tA then K else M, if tA then M else K, if tA then M else K, .row⟩
        ⟨if tB then N else K, if tB then K else N, if tB then K else N, .row⟩ ⟨M, N, N, .row⟩ tA tB alpha a b beta c) := by
  obtain ⟨h1, h2, h3⟩ := types_real asserts fast he
  have hp1 : 0 < if tA then K else M := by cases tA <;> simpa
  have hp2 : 0 < if tB then N else K := by cases tB <;> simpa
  have hd : Layout.opRows ⟨if tA then K else M, if tA then M else K, if tA then M else K, .row⟩ tA = M ∧
      Layout.opCols ⟨if tA then K else M, if tA then M else K, if tA then M else K, .row⟩ tA =
        Layout.opRows ⟨if tB then N else K, if tB then K else N, if tB then K else N, .row⟩ tB ∧
      Layout.opCols ⟨if tB then N else K, if tB then K else N, if tB then K else N, .row⟩ tB = N := by
    cases tA <;> cases tB <;> simp [Layout.opRows, Layout.opCols]
  have hz : (Layout.none? ⟨if tA then K else M, if tA then M else K, if tA then M else K, .row⟩ ||
      Layout.none? ⟨if tB then N else K, if tB then K else N, if tB then K else N, .row⟩ || Layout.none? ⟨M, N, N, .row⟩) = false := by
    cases tA <;> cases tB <;> simp [Layout.none?] <;> omega
  unfold gemmCuda
  rw [h1]
  simp only [bind, Out.bind, h2]
  unfold ltMatmul
  have hv : (Layout.valid ⟨if tA then K else M, if tA then M else K, if tA then M else K, .row⟩ &&
      Layout.valid ⟨if tB then N else K, if tB then K else N, if tB then K else N, .row⟩ && Layout.valid ⟨M, N, N, .row⟩) = true := by
    simp [Layout.valid]
  rw [h2] at h3
  rw [h3, hv, hz]
  simp only [Bool.not_true, Bool.false_eq_true, if_false]
  rw [if_neg (not_not.2 hd), if_neg (not_not.2 ⟨by rw [span_row hp1, ha], by rw [span_row hp2, hb], by rw [span_row hM, hc]⟩)]
  simp [safeCall]

/-- The call of CLBlast for matrices of the right sizes. -/
theorem clGemm_ok [Semiring α] {tA tB : Bool} {M N K : Nat} (hM : 0 < M) (hN : 0 < N) (hK : 0 < K) {alpha beta : α} {a b c : List α}
    (ha : a.length = (if tA then K else M) * (if tA then M else K)) (hb : b.length = (if tB then N else K) * (if tB then K else N))
    (hc : c.length = M * N) :
    clGemm tA tB M N K alpha a (if tA then M else K) b (if tB then K else N) beta c N =
      .done (productOver ⟨if tA then K else M, if tA then M else K, if tA then M else K, .row⟩
        ⟨if tB then N else K, if tB then K else N, if tB then K else N, .row⟩ ⟨M, N, N, .row⟩ tA tB alpha a b beta c) := by
  have hp1 : 0 < if tA then K else M := by cases tA <;> simpa
  have hp2 : 0 < if tB then N else K := by cases tB <;> simpa
  unfold clGemm
  simp only
  have hv : (Layout.valid ⟨if tA then K else M, if tA then M else K, if tA then M else K, .row⟩ &&
      Layout.valid ⟨if tB then N else K, if tB then K else N, if tB then K else N, .row⟩ && Layout.valid ⟨M, N, N, .row⟩) = true := by
    simp [Layout.valid]
  rw [if_neg (by omega), hv]
  simp only [Bool.not_true, Bool.false_eq_true, if_false]
  rw [if_neg (not_not.2 ⟨by rw [span_row hp1, ha], by rw [span_row hp2, hb], by rw [span_row hM, hc]⟩)]

/-- **C135** for two matrices of one real element type, on CUDA (cuBLASLt) and on OpenCL (CLBlast, `float` and `double`): all extents above
0, transposition flags, contents and scales, with and without assertions. Missing: complex element types on CUDA, for which the property
is false, and matrices without elements. -/
theorem C135_gemm_partial [Semiring α] [DecidableEq α] (asserts : Bool) (place : Place α) (p : MulOp α) (M N K : Nat) (a b c : List α)
    (Am Bm Cm : Nat → Nat → α) (hp : place.Real) (hM : 0 < M) (hN : 0 < N) (hK : 0 < K) (hA : p.shapeA = stored p.transA M K)
    (hB : p.shapeB = stored p.transB K N) (hAm : Holds a (if p.transA then K else M) (if p.transA then M else K) Am)
    (hBm : Holds b (if p.transB then N else K) (if p.transB then K else N) Bm) (hCm : Holds c M N Cm) :
    GemmCorrect asserts place p M N K a b c Am Bm Cm := by
  refine ⟨shape_gemm hA hB, ?_⟩
  rw [holds_iff] at hAm hBm hCm
  refine ⟨_, ?_, holds_iff.2 (product_rows (alpha := p.alpha) (beta := p.beta) hAm hBm hCm)⟩
  unfold applyTo
  rw [class_gemm hA hB]
  simp only [decide_true, Out.assert, Bool.not_true, Bool.and_false, Bool.false_eq_true, if_false, bind, Out.bind, applyKind]
  rw [args_gemm hA hB]
  simp only
  cases place with
  | cuda fast zero eA eB eC eS =>
    obtain ⟨he, rfl, rfl, rfl⟩ := hp
    exact gemmCuda_ok asserts fast zero he hM hN hK hAm.1 hBm.1 hCm.1
  | opencl =>
    simp only [gemmOn]
    rw [clGemm_ok hM hN hK hAm.1 hBm.1 hCm.1]
    rfl

theorem class_gemv [DecidableEq α] {asserts : Bool} {p : MulOp α} {r n : Nat} (hA : p.shapeA = [r, n]) (hB : p.shapeB = [if p.transA then r else n]) :
    matmulClass asserts p = .ok .gemv := by
  obtain ⟨tA, tB, sA, sB, al, be⟩ := p
  simp only at hA hB
  subst hA
  cases asserts <;> cases tA <;> simp [hB, matmulClass, at', ix, readAt, Out.assert, bind, Out.bind, pure]

theorem args_gemv [DecidableEq α] {asserts : Bool} {p : MulOp α} {r n : Nat} (hA : p.shapeA = [r, n]) :
    gemvArgs asserts p = .ok (if p.transA then n else r, if p.transA then r else n, n) := by
  obtain ⟨tA, tB, sA, sB, al, be⟩ := p
  simp only at hA
  subst hA
  cases asserts <;> cases tA <;> simp [gemvArgs, at', ix, readAt, bind, Out.bind, pure]

theorem shape_gemv [DecidableEq α] {asserts : Bool} {p : MulOp α} {r n : Nat} (hA : p.shapeA = [r, n]) (hB : p.shapeB = [if p.transA then r else n]) :
    calculateShape asserts p = .ok [if p.transA then n else r] := by
  unfold calculateShape
  rw [class_gemv hA hB]
  obtain ⟨tA, tB, sA, sB, al, be⟩ := p
  simp only at hA hB
  subst hA
  cases asserts <;> cases tA <;> simp [shapeFor, at', ix, readAt, bind, Out.bind, pure]

/-- `applyTo` for a matrix and a vector. -/
theorem applyTo_gemv [Zero α] [Add α] [Mul α] [DecidableEq α] {asserts : Bool} {place : Place α} {p : MulOp α} {r n : Nat} {a x y : List α}
    (hA : p.shapeA = [r, n]) (hB : p.shapeB = [if p.transA then r else n]) :
    applyTo asserts place p [if p.transA then n else r] [if p.transA then n else r] a x y =
      gemvOn asserts p.transA (if p.transA then n else r) (if p.transA then r else n) p.alpha a n x 1 p.beta y 1 place := by
  unfold applyTo
  rw [class_gemv hA hB]
  simp only [decide_true, Out.assert, Bool.not_true, Bool.and_false, Bool.false_eq_true, if_false, bind, Out.bind, applyKind]
  rw [args_gemv hA]

/-- A vector as a matrix of one column. -/
theorem rows_of_vector {l : List α} {n : Nat} {f : Nat → α} (h : HoldsV l n f) : Rows l n 1 fun i _ => f i :=
  ⟨by rw [h.1, Nat.mul_one], fun i j hi hj => by
    obtain rfl : j = 0 := by omega
    simpa using h.2 i hi⟩

theorem vector_of_rows {l : List α} {n : Nat} {f : Nat → Nat → α} (h : Rows l n 1 f) : HoldsV l n fun i => f i 0 :=
  ⟨by rw [h.1, Nat.mul_one], fun i hi => by simpa using h.2 i 0 hi (by decide)⟩

/-- **C135** for a matrix and a vector of one real element type: on CUDA for all extents above 0 and both transposition flags (where the CPU
version goes out of bounds, C38), on OpenCL for an untransposed or a square matrix. Missing: complex element types on CUDA and
transposed matrices that are not square on OpenCL, for which the property is false, and arrays without elements. -/
theorem C135_gemv_partial [Semiring α] [DecidableEq α] (asserts : Bool) (place : Place α) (p : MulOp α) (r n : Nat) (a x y : List α)
    (Am : Nat → Nat → α) (xv yv : Nat → α) (hp : place.Real) (hr : 0 < r) (hn : 0 < n) (hA : p.shapeA = [r, n])
    (hB : p.shapeB = [if p.transA then r else n]) (hAm : Holds a r n Am) (hxv : HoldsV x (if p.transA then r else n) xv)
    (hyv : HoldsV y (if p.transA then n else r) yv) (hsq : place = .opencl → p.transA = true → r = n) :
    GemvCorrect asserts place p r n a x y Am xv yv := by
  refine ⟨shape_gemv hA hB, ?_⟩
  rw [applyTo_gemv hA hB]
  rw [holds_iff] at hAm
  have hx := rows_of_vector hxv
  have hy := rows_of_vector hyv
  obtain ⟨tA, tB, sA, sB, al, be⟩ := p
  simp only at hA hB hx hy hsq ⊢
  have key := product_rows (tA := tA) (tB := false) (M := if tA then n else r) (N := 1) (K := if tA then r else n) (alpha := al) (beta := be)
    (a := a) (b := x) (c := y) (Am := Am) (Bm := fun i _ => xv i) (Cm := fun i _ => yv i) (by cases tA <;> exact hAm) (by simpa using hx) hy
  refine ⟨_, ?_, vector_of_rows key⟩
  have hM : 0 < if tA then n else r := by cases tA <;> simpa
  have hK : 0 < if tA then r else n := by cases tA <;> simpa
  cases place with
  | cuda fast zero eA eB eC eS =>
    obtain ⟨he, rfl, rfl, rfl⟩ := hp
    have := gemmCuda_ok asserts fast zero he (tA := tA) (tB := false) hM Nat.one_pos hK (alpha := al) (beta := be) (a := a) (b := x) (c := y)
      (by cases tA <;> exact hAm.1) (by simpa using hx.1) hy.1
    rw [← this]
    cases tA <;> rfl
  | opencl =>
    have hne : ¬ ((if tA then n else r) = 0 ∨ (if tA then r else n) = 0) := by omega
    have e1 : (if tA then n else r) = r ∨ tA = true := by cases tA <;> simp
    have h1 : (⟨if tA then n else r, if tA then r else n, n, .row⟩ : Layout) = ⟨r, n, n, .row⟩ := by
      cases tA
      · rfl
      · simp [hsq rfl rfl]
    have h2 : (⟨if tA then r else n, 1, 1, .row⟩ : Layout).span ≤ x.length := by rw [span_row hK, hx.1]
    have h3 : (⟨if tA then n else r, 1, 1, .row⟩ : Layout).span ≤ y.length := by rw [span_row hM, hy.1]
    simp only [gemvOn, clGemv]
    rw [if_neg hne, h1]
    have hv : Layout.valid ⟨r, n, n, .row⟩ = true := by simp [Layout.valid]
    rw [hv]
    simp only [Bool.not_true, Bool.false_eq_true, if_false]
    rw [if_neg (not_not.2 (by rw [span_row hr, hAm.1])), if_neg (by simp)]
    have h4 : (if tA then if tA then n else r else if tA then r else n) = if tA then r else n := by
      cases tA
      · rfl
      · simp [hsq rfl rfl]
    have h5 : (if tA then if tA then r else n else if tA then n else r) = if tA then n else r := by
      cases tA
      · rfl
      · simp [hsq rfl rfl]
    rw [h4, h5, if_neg (not_not.2 ⟨h2, h3⟩)]
    simp only [checked]
    cases tA
    · rfl
    · have := hsq rfl rfl
      subst this
      rfl

/-- The hypotheses are met: a 3x2 matrix, transposed, times a vector of 3, in `float` on CUDA. -/
example : applyTo true (.cuda false (fun _ => .refused) .float .float .float .float) (⟨true, false, [3, 2], [3], 1, 0⟩ : MulOp Int) [2] [2]
    [1, 2, 3, 4, 5, 6] [1, 0, 1] [7, 7] = .ok [6, 8] := by decide

/-- On OpenCL the same product is refused by CLBlast, since `m` and `n` are the extents of the transposed matrix: with assertions it
throws, without them the result is what the array held before. -/
example : applyTo true .opencl (⟨true, false, [3, 2], [3], 1, 0⟩ : MulOp Int) [2] [2] [1, 2, 3, 4, 5, 6] [1, 0, 1] [7, 7] =
      .throw .assertion ∧
    applyTo false .opencl (⟨true, false, [3, 2], [3], 1, 0⟩ : MulOp Int) [2] [2] [1, 2, 3, 4, 5, 6] [1, 0, 1] [7, 7] = .ok [7, 7] := by decide

/-- The hypotheses are met: the product of a 2x3 and a transposed 1x3 matrix, with scales. -/
example : applyTo false .opencl (⟨false, true, [2, 3], [1, 3], 2, 10⟩ : MulOp Int) [2, 1] [2, 1] [1, 2, 3, 4, 5, 6] [1, 0, 1] [7, 8] =
    .ok [78, 100] := by decide

/-- Every product of a transposed matrix that is not square with a vector is refused on OpenCL: with assertions it throws, and without
them the result is left as it was, whatever the contents. -/
theorem C135_opencl_transposed [Zero α] [Add α] [Mul α] [DecidableEq α] (asserts : Bool) (p : MulOp α) (r n : Nat) (a x y : List α)
    (hr : 0 < r) (hn : 0 < n) (hA : p.shapeA = [r, n]) (hB : p.shapeB = [r]) (ht : p.transA = true) (ha : a.length = r * n) (h : r ≠ n) :
    applyTo asserts .opencl p [n] [n] a x y = if asserts then .throw .assertion else .ok y := by
  have := applyTo_gemv (asserts := asserts) (place := .opencl) (p := p) (a := a) (x := x) (y := y) hA (by simpa [ht] using hB)
  simp only [ht, if_true] at this
  rw [this]
  simp only [gemvOn, clGemv]
  rw [if_neg (by omega)]
  have refuse : checked asserts y (.refused : Ret α) = if asserts then .throw .assertion else .ok y := rfl
  by_cases hl : r ≤ n
  · have hv : Layout.valid ⟨n, r, n, .row⟩ = true := by simpa [Layout.valid] using hl
    rw [hv]
    simp only [Bool.not_true, Bool.false_eq_true, if_false]
    rw [if_pos, refuse]
    rw [ha]
    obtain ⟨d, rfl⟩ : ∃ d, n = r + 1 + d := ⟨n - r - 1, by omega⟩
    simp only [Layout.span, Nat.not_le]
    have : r + 1 + d - 1 = r + d := by omega
    rw [this]
    nlinarith [Nat.zero_le d]
  · have hv : Layout.valid ⟨n, r, n, .row⟩ = false := by simpa [Layout.valid] using hl
    rw [hv]
    simp only [Bool.not_false, if_true, refuse]

/-- No product of complex matrices, nor of a complex matrix and a vector, is computed on CUDA: cuBLASLt is told real scales for complex
matrices and refuses, whatever the extents, contents and scales. (`Complex<float>` matrices are moreover announced as matrices of
pairs of `double`, complex.hpp 2075.) -/
theorem C135_complex [Zero α] [Add α] [Mul α] (asserts fast : Bool) (zero : List α → Ret α) (e : Elt) (he : e = .cfloat ∨ e = .cdouble)
    (tA tB : Bool) (m n k : Nat) (alpha : α) (a : List α) (lda : Nat) (b : List α) (ldb : Nat) (beta : α) (c : List α) (ldc : Nat) :
    gemmCuda asserts fast zero e e e e tA tB m n k alpha a lda b ldb beta c ldc = .throw .runtimeError ∧
      gemvCuda asserts fast zero e e e e tA m n alpha a lda b ldb beta c ldc = .throw .runtimeError := by
  rcases he with rfl | rfl <;> cases asserts <;> cases fast <;> exact ⟨rfl, rfl⟩

/-- The same element type, or two complex ones. -/
def Alike (a b : Elt) : Prop := a = b ∨ (a ∈ [.cfloat, .cdouble] ∧ b ∈ [.cfloat, .cdouble])

instance (a b : Elt) : Decidable (Alike a b) := inferInstanceAs (Decidable (_ ∨ _))

/-- With assertions, matrices of different element types are refused on CUDA, except that `Complex<float>` and `Complex<double>` are not told
apart. -/
theorem C135_mixed [Zero α] [Add α] [Mul α] (fast : Bool) (zero : List α → Ret α) (eA eB eC eS : Elt)
    (he : ¬ Alike eA eB ∨ ¬ Alike eA eC) (tA tB : Bool) (m n k : Nat) (alpha : α) (a : List α) (lda : Nat) (b : List α)
    (ldb : Nat) (beta : α) (c : List α) (ldc : Nat) :
    gemmCuda true fast zero eA eB eC eS tA tB m n k alpha a lda b ldb beta c ldc = .throw .assertion := by
  have : cublasGemmComputeType true fast eA.cudaType eB.cudaType eC.cudaType = .throw .assertion := by
    revert he
    cases eA <;> cases eB <;> cases eC <;> cases fast <;> decide
  unfold gemmCuda
  rw [this]
  rfl

/-- Two arrays of one type and a result of another: `Array<double> c = dot(a, b)` with `float` arrays on CUDA. -/
example : ¬ Alike .float .float ∨ ¬ Alike .float .double := by decide

/-- **C135** is false: the product of two 1x1 matrices of `Complex<double>` throws on CUDA. -/
theorem C135_false : ¬ C135Claim Int := by
  rintro ⟨h, -⟩
  have hh : ∀ v : Int, Holds [v] 1 1 fun _ _ => v := fun v => holds_iff.2 ⟨rfl, fun i j hi hj => by
    obtain rfl : i = 0 := by omega
    obtain rfl : j = 0 := by omega
    rfl⟩
  obtain ⟨-, res, h1, -⟩ := h false (.cuda false (fun c => .done c) .cdouble .cdouble .cdouble .cdouble) ⟨false, false, [1, 1], [1, 1], 1, 0⟩ 1 1 1
    [2] [3] [0] (fun _ _ => 2) (fun _ _ => 3) (fun _ _ => 0) ⟨rfl, rfl, rfl⟩ (by decide) (by decide) (by decide) rfl rfl (hh 2) (hh 3) (hh 0)
  cases h1

/-! ### Scaled sums -/

/-- What the argument of `geam` stands for: the matrix `f`, r by n. -/
def Arg.Means (x : Arg α) (r n : Nat) (f : Nat → Nat → α) : Prop :=
  x.dim0 = r ∧ x.dim1 = n ∧ Holds x.data x.rows x.cols fun i j => if x.trans then f j i else f i j

/-- The sum is evaluated. -/
def GeamCorrect [Semiring α] [DecidableEq α] (asserts : Bool) (a : Arg α) (alpha : α) (b : Arg α) (beta : α) (c : Arg α) (r n : Nat) (f g : Nat → Nat → α) :
    Prop :=
  ∃ res, geamCuda asserts a alpha b beta c = .ok res ∧ Holds res r n fun i j => alpha * f i j + beta * g i j

/-- C136, for the scalars `α`. -/
def C136Claim (α : Type) [Semiring α] [DecidableEq α] : Prop :=
  ∀ (asserts : Bool) (a : Arg α) (alpha : α) (b : Arg α) (beta : α) (c : Arg α) (r n : Nat) (f g h : Nat → Nat → α), 0 < r → 0 < n → r < 2 ^ 31 →
    n < 2 ^ 31 → a.Means r n f → b.Means r n g → c.trans = false → c.Means r n h → GeamCorrect asserts a alpha b beta c r n f g

theorem toInt_small {x : Nat} (h : x < 2 ^ 31) : toInt x = x := by rw [toInt, if_pos h]

theorem geam_checks [Zero α] [Add α] [Mul α] [DecidableEq α] {asserts : Bool} {a b c : Arg α} {alpha beta : α} {r n : Nat} (hr : r < 2 ^ 31) (hn : n < 2 ^ 31)
    (ha0 : a.dim0 = r) (ha1 : a.dim1 = n) (hb0 : b.dim0 = r) (hb1 : b.dim1 = n) (hc0 : c.dim0 = r) (hc1 : c.dim1 = n) :
    geamCuda asserts a alpha b beta c = safeCall (geamRoutine a.trans b.trans ((if a.trans then n else r : Nat) : Int)
      ((if a.trans then r else n : Nat) : Int) alpha a.data (r : Int) beta b.data (r : Int) c.data (r : Int)) := by
  unfold geamCuda
  rw [ha0, ha1, hb0, hb1, hc0, hc1]
  have h1 : toInt (if a.trans then n else r) = ((if a.trans then n else r : Nat) : Int) := toInt_small (by split <;> assumption)
  have h2 : toInt (if a.trans then r else n) = ((if a.trans then r else n : Nat) : Int) := toInt_small (by split <;> assumption)
  rw [h1, h2, toInt_small hr]
  simp [Out.assert, bind, Out.bind]

/-- The routine when all the extents are usable. -/
theorem geamRoutine_ok [Zero α] [Add α] [Mul α] [DecidableEq α] {tA tB : Bool} {m n ld : Nat} {alpha beta : α} {a b c : List α} (hm : 0 < m) (hn : 0 < n)
    (vA : (if tA then n else m) ≤ ld) (vB : (if tB then n else m) ≤ ld) (vC : m ≤ ld)
    (sA : alpha = 0 ∨ ((if tA then m else n) - 1) * ld + (if tA then n else m) ≤ a.length)
    (sB : beta = 0 ∨ ((if tB then m else n) - 1) * ld + (if tB then n else m) ≤ b.length) (sC : (n - 1) * ld + m ≤ c.length) :
    geamRoutine tA tB (m : Int) (n : Int) alpha a (ld : Int) beta b (ld : Int) c (ld : Int) =
      .done (Layout.store ⟨m, n, ld, .col⟩ (fun i j _ =>
        alpha * Layout.read ⟨if tA then n else m, if tA then m else n, ld, .col⟩ tA a i j +
        beta * Layout.read ⟨if tB then n else m, if tB then m else n, ld, .col⟩ tB b i j) c) := by
  unfold geamRoutine
  simp only [Int.toNat_natCast, Layout.valid, Layout.span]
  rw [if_neg (by omega)]
  simp only [vA, vB, vC, decide_true, Bool.and_self, Bool.not_true, Bool.false_eq_true, if_false]
  rw [if_neg (by omega), if_neg (not_not.2 ⟨sA, sB, sC⟩)]

/-- The routine when the leading dimension is too small for one of the matrices, or one of them would reach beyond its array. -/
theorem geamRoutine_bad [Zero α] [Add α] [Mul α] [DecidableEq α] {tA tB : Bool} {m n ld : Nat} {alpha beta : α} {a b c : List α} (hm : 0 < m) (hn : 0 < n)
    (h : ¬ ((if tA then n else m) ≤ ld ∧ (if tB then n else m) ≤ ld ∧ m ≤ ld) ∨
      ¬ ((alpha = 0 ∨ ((if tA then m else n) - 1) * ld + (if tA then n else m) ≤ a.length) ∧ (beta = 0 ∨ ((if tB then m else n) - 1) * ld + (if tB then n else m) ≤ b.length) ∧
        (n - 1) * ld + m ≤ c.length)) :
    geamRoutine tA tB (m : Int) (n : Int) alpha a (ld : Int) beta b (ld : Int) c (ld : Int) =
      if (if tA then n else m) ≤ ld ∧ (if tB then n else m) ≤ ld ∧ m ≤ ld then .stray else .refused := by
  unfold geamRoutine
  simp only [Int.toNat_natCast, Layout.valid, Layout.span]
  rw [if_neg (by omega)]
  by_cases hv : (if tA then n else m) ≤ ld ∧ (if tB then n else m) ≤ ld ∧ m ≤ ld
  · rw [if_pos hv]
    obtain ⟨vA, vB, vC⟩ := hv
    simp only [vA, vB, vC, decide_true, Bool.and_self, Bool.not_true, Bool.false_eq_true, if_false]
    rw [if_neg (by omega), if_pos (by tauto)]
  · rw [if_neg hv, if_pos]
    simp only [Bool.not_eq_true', Bool.and_eq_false_iff, decide_eq_false_iff_not]
    tauto

/-- **C136** for two untransposed matrices of any extents from 1 to 2^31 - 1, and for square matrices however they are transposed, all
contents and scales. Missing: a transposed matrix that is not square, for which the property is false. -/
theorem C136_partial [Semiring α] [DecidableEq α] (asserts : Bool) (a : Arg α) (alpha : α) (b : Arg α) (beta : α) (c : Arg α) (r n : Nat)
    (f g h : Nat → Nat → α) (hr : 0 < r) (hn : 0 < n) (hr' : r < 2 ^ 31) (hn' : n < 2 ^ 31) (ha : a.Means r n f) (hb : b.Means r n g)
    (hct : c.trans = false) (hc : c.Means r n h) (hsq : r = n ∨ (a.trans = false ∧ b.trans = false)) :
    GeamCorrect asserts a alpha b beta c r n f g := by
  obtain ⟨a0, a1, ah⟩ := ha
  obtain ⟨b0, b1, bh⟩ := hb
  obtain ⟨c0, c1, ch⟩ := hc
  unfold GeamCorrect
  rw [geam_checks hr' hn' a0 a1 b0 b1 c0 c1]
  obtain ⟨ta, ra, ca, da⟩ := a
  obtain ⟨tb, rb, cb, db⟩ := b
  obtain ⟨tc, rc, cc, dc⟩ := c
  simp only at hct
  subst hct
  simp only [Arg.dim0, Arg.dim1, Bool.false_eq_true, if_false] at c0 c1
  subst c0 c1
  rw [holds_iff] at ah bh ch
  simp only [Bool.false_eq_true, if_false] at ah bh ch
  rcases hsq with rfl | ⟨h1, h2⟩
  · -- square
    simp only [ite_self]
    have hra : ra = rc ∧ ca = rc := by
      cases ta <;> simp_all [Arg.dim0, Arg.dim1]
    have hrb : rb = rc ∧ cb = rc := by
      cases tb <;> simp_all [Arg.dim0, Arg.dim1]
    rw [hra.1, hra.2] at ah
    rw [hrb.1, hrb.2] at bh
    have hs : (rc - 1) * rc + rc = rc * rc := by
      obtain ⟨k, rfl⟩ : ∃ k, rc = k + 1 := ⟨rc - 1, by omega⟩
      simp [Nat.succ_mul]
    rw [geamRoutine_ok hr hr (by simp) (by simp) le_rfl (.inr (by simp only [ite_self]; rw [hs, ah.1])) (.inr (by simp only [ite_self]; rw [hs, bh.1]))
      (by rw [hs, ch.1])]
    refine ⟨_, rfl, holds_iff.2 ⟨by rw [store_length, ch.1], fun i j hi hj => ?_⟩⟩
    have := store_at (l := ⟨rc, rc, rc, .col⟩) (by simp [Layout.valid]) (fun i j (_ : α) =>
        alpha * Layout.read ⟨if ta then rc else rc, if ta then rc else rc, rc, .col⟩ ta da i j +
        beta * Layout.read ⟨if tb then rc else rc, if tb then rc else rc, rc, .col⟩ tb db i j) (i := j) (j := i) hj hi (ch.2 i j hi hj)
    refine this.trans ?_
    have readOf : ∀ (t : Bool) (d : List α) (q : Nat → Nat → α), Rows d rc rc (fun i j => if t then q j i else q i j) →
        Layout.read ⟨if t then rc else rc, if t then rc else rc, rc, .col⟩ t d j i = q i j := by
      intro t d q hd
      cases t with
      | true =>
        have := hd.2 j i hj hi
        simp only [if_true] at this
        simp [Layout.read, Layout.pos, List.getD, this]
      | false =>
        have := hd.2 i j hi hj
        simp only [Bool.false_eq_true, if_false] at this
        simp [Layout.read, Layout.pos, List.getD, this]
    rw [readOf ta da f ah, readOf tb db g bh]
  · -- untransposed
    simp only at h1 h2
    subst h1 h2
    simp only [Arg.dim0, Arg.dim1, Bool.false_eq_true, if_false] at a0 a1 b0 b1 ah bh ⊢
    rw [a0, a1] at ah
    rw [b0, b1] at bh
    have hs : (cc - 1) * rc + rc = rc * cc := by
      obtain ⟨k, rfl⟩ : ∃ k, cc = k + 1 := ⟨cc - 1, by omega⟩
      simp [Nat.mul_succ, Nat.mul_comm]
    rw [geamRoutine_ok hr hn (by simp) (by simp) le_rfl (.inr (by simp only [Bool.false_eq_true, if_false]; rw [hs, ah.1]))
      (.inr (by simp only [Bool.false_eq_true, if_false]; rw [hs, bh.1])) (by rw [hs, ch.1])]
    refine ⟨_, rfl, holds_iff.2 ⟨by rw [store_length, ch.1], fun i j hi hj => ?_⟩⟩
    -- the same position is read and written, whatever it means
    have hp : i * cc + j < rc * cc := by
      have : (i + 1) * cc ≤ rc * cc := Nat.mul_le_mul_right _ hi
      rw [Nat.succ_mul] at this
      omega
    have hdiv : (i * cc + j) / rc < cc := Nat.div_lt_of_lt_mul hp
    have hmod : (i * cc + j) % rc < rc := Nat.mod_lt _ hr
    have hpos : Layout.pos ⟨rc, cc, rc, .col⟩ ((i * cc + j) % rc) ((i * cc + j) / rc) = i * cc + j := by
      simp only [Layout.pos]
      rw [Nat.mul_comm, Nat.div_add_mod]
    have hv := ch.2 i j hi hj
    rw [← hpos] at hv ⊢
    refine (store_at (l := ⟨rc, cc, rc, .col⟩) (by simp [Layout.valid]) _ hmod hdiv hv).trans ?_
    simp only [Bool.false_eq_true, if_false, Layout.read, List.getD]
    rw [hpos, ah.2 i j hi hj, bh.2 i j hi hj]
    simp

/-- The hypotheses are met: a transposed 2x2 matrix times 10 plus a 2x2 matrix. -/
example : geamCuda true (⟨true, 2, 2, [1, 2, 3, 4]⟩ : Arg Int) 10 ⟨false, 2, 2, [5, 6, 7, 8]⟩ 1 ⟨false, 2, 2, [0, 0, 0, 0]⟩ =
    .ok [15, 36, 27, 48] := by decide

/-- A scaled sum on CUDA in which one of the matrices is transposed and not square is never evaluated: `geam` passes the number of rows
of the sum as leading dimension, where cuBLAS, which is column major, needs the number of columns. With fewer rows than columns
cuBLAS refuses and the call throws; with more rows than columns it reads or writes outside the arrays. For all extents, contents
and scales, unless the only transposed matrix is the second and is multiplied by 0. -/
theorem C136_transposed [Zero α] [Add α] [Mul α] [DecidableEq α] (asserts : Bool) (a : Arg α) (alpha : α) (b : Arg α) (beta : α) (c : Arg α) (r n : Nat)
    (hr : 0 < r) (hn : 0 < n) (hr' : r < 2 ^ 31) (hn' : n < 2 ^ 31) (a0 : a.dim0 = r) (a1 : a.dim1 = n) (b0 : b.dim0 = r) (b1 : b.dim1 = n)
    (c0 : c.dim0 = r) (c1 : c.dim1 = n) (la : a.data.length = r * n) (lb : b.data.length = r * n) (lc : c.data.length = r * n)
    (ht : a.trans = true ∨ (b.trans = true ∧ beta ≠ 0)) (h : r ≠ n) :
    geamCuda asserts a alpha b beta c = if r < n then .throw .runtimeError else .ub := by
  rw [geam_checks hr' hn' a0 a1 b0 b1 c0 c1]
  have big : n < r → r * n < (r - 1) * r + n := by
    intro h
    obtain ⟨d, rfl⟩ : ∃ d, r = n + 1 + d := ⟨r - n - 1, by omega⟩
    have : n + 1 + d - 1 = n + d := by omega
    rw [this]
    nlinarith [Nat.zero_le d]
  have fit : n < r → (n - 1) * r + r = r * n := by
    intro _
    obtain ⟨k, rfl⟩ : ∃ k, n = k + 1 := ⟨n - 1, by omega⟩
    simp [Nat.mul_succ, Nat.mul_comm]
  obtain ⟨ta, ra, ca, da⟩ := a
  obtain ⟨tb, rb, cb, db⟩ := b
  simp only at la lb ht ⊢
  by_cases hlt : r < n
  · rw [if_pos hlt, geamRoutine_bad (by cases ta <;> simpa) (by cases ta <;> simpa)]
    · rw [if_neg]
      · rfl
      · cases ta <;> cases tb <;> simp_all
    · left
      cases ta <;> cases tb <;> simp_all
  · have hgt : n < r := by omega
    have := big hgt
    have := fit hgt
    rw [if_neg hlt, geamRoutine_bad (by cases ta <;> simpa) (by cases ta <;> simpa)]
    · rw [if_pos]
      · rfl
      · cases ta <;> cases tb <;> simp_all <;> omega
    · right
      cases ta <;> cases tb <;> simp_all

/-- The hypotheses are met, both ways. -/
example : geamCuda true (⟨true, 2, 1, [1, 2]⟩ : Arg Int) 1 ⟨false, 1, 2, [3, 4]⟩ 1 ⟨false, 1, 2, [0, 0]⟩ = .throw .runtimeError ∧
    geamCuda true (⟨true, 1, 2, [1, 2]⟩ : Arg Int) 1 ⟨false, 2, 1, [3, 4]⟩ 1 ⟨false, 2, 1, [0, 0]⟩ = .ub := by decide

/-- **C136** is false: a transposed column plus a row throws. -/
theorem C136_false : ¬ C136Claim Int := by
  intro h
  have hh : ∀ u v : Int, Holds [u, v] 1 2 (fun _ j => if j = 0 then u else v) ∧ Holds [u, v] 2 1 (fun i _ => if i = 0 then u else v) :=
    fun u v => ⟨holds_iff.2 ⟨rfl, fun i j hi hj => by
      obtain rfl : i = 0 := by omega
      rcases j with _ | _ | j <;> first | rfl | omega⟩, holds_iff.2 ⟨rfl, fun i j hi hj => by
      obtain rfl : j = 0 := by omega
      rcases i with _ | _ | i <;> first | rfl | omega⟩⟩
  obtain ⟨res, h1, -⟩ := h true ⟨true, 2, 1, [1, 2]⟩ 1 ⟨false, 1, 2, [3, 4]⟩ 1 ⟨false, 1, 2, [0, 0]⟩ 1 2 (fun _ j => if j = 0 then 1 else 2)
    (fun _ j => if j = 0 then 3 else 4) (fun _ j => if j = 0 then 0 else 0) (by decide) (by decide) (by decide) (by decide)
    ⟨rfl, rfl, (hh 1 2).2⟩ ⟨rfl, rfl, (hh 3 4).1⟩ rfl ⟨rfl, rfl, (hh 0 0).1⟩
  have : geamCuda true (⟨true, 2, 1, [1, 2]⟩ : Arg Int) 1 ⟨false, 1, 2, [3, 4]⟩ 1 ⟨false, 1, 2, [0, 0]⟩ = .throw .runtimeError := by decide
  rw [this] at h1
  cases h1

end Verif.VendorM
