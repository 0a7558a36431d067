import Verif.Lemmas.Matmul
import Verif.Spec.Matmul
import Verif.Lemmas.Grid
import Mathlib.Algebra.BigOperators.Group.Finset.Basic
import Mathlib.Algebra.BigOperators.Ring.Finset
import Mathlib.Algebra.Ring.Int.Defs

/-!
# Matrix products (C36, C37, C38)

`Apply asserts t op shape outShape a b c mem o`: evaluating the product `op` of arrays `a` and `b` into array `c` can have outcome `o`,
over all numbers of threads, distributions of the columns and interleavings.
-/

namespace Verif.MulM

open ShapeM Conc TransM Grid

theorem holds_iff {α : Type} {l : List α} {rows cols : Nat} {f : Nat → Nat → α} : Holds l rows cols f ↔ Rows l rows cols f := by
  refine ⟨fun h => ⟨h.1, fun i j hi hj => ?_⟩, fun h => ⟨h.1, fun k i j hk => ?_⟩⟩
  · refine h.2 _ i j (coords_eq_iff.2 ⟨.cons hi (.cons hj .nil), ?_⟩)
    simp [ravel, count]
  · obtain ⟨hin, rfl⟩ := coords_eq_iff.1 hk
    cases hin with
    | cons hi hin2 => cases hin2 with
      | cons hj _ =>
        rw [show ravel [rows, cols] [i, j] = i * cols + j by simp [ravel, count]]
        exact h.2 i j hi hj

variable {α : Type}

theorem dotSum_eq [NonUnitalNonAssocSemiring α] (n : Nat) (f g : Nat → α) : dotSum n f g = ∑ l ∈ Finset.range n, f l * g l := by
  induction n with
  | zero => rfl
  | succ n ih =>
    rw [Finset.sum_range_succ, ← ih]
    simp [dotSum, List.range_succ]

variable [DecidableEq α]

theorem scal_eq [Semiring α] (b v : α) : scal b v = v * b := by
  unfold scal
  split
  · rename_i h
    rw [h, mul_zero]
  · rfl

/-- Some matrix held by an array of the right size. -/
theorem exists_rows {l : List α} [Zero α] {rows cols : Nat} (h : l.length = rows * cols) : ∃ f, Rows l rows cols f :=
  ⟨fun i j => (l[i * cols + j]?).getD 0, h, fun i j hi hj => by
    have : i * cols + j < l.length := by
      rw [h, Nat.mul_comm rows]
      exact pos_lt hj hi
    simp [List.getElem?_eq_getElem this]⟩

/-- The shape of the array whose `op` is `r` by `c`. -/
abbrev stored (t : Bool) (r c : Nat) : List Nat := if t then [c, r] else [r, c]

theorem class_gemm {asserts : Bool} {op : MulOp α} {M N K : Nat} (hA : op.shapeA = stored op.transA M K)
    (hB : op.shapeB = stored op.transB K N) : matmulClass asserts op = .ok .gemm := by
  obtain ⟨tA, tB, sA, sB, al, be⟩ := op
  simp only at hA hB
  subst hA hB
  cases asserts <;> cases tA <;> cases tB <;> simp [matmulClass, stored, at', ix, readAt, Out.assert, bind, Out.bind, pure]

theorem args_gemm {asserts : Bool} {op : MulOp α} {M N K : Nat} (hA : op.shapeA = stored op.transA M K)
    (hB : op.shapeB = stored op.transB K N) :
    gemmArgs asserts op [M, N] = .ok ((M, N, K), (if op.transA then M else K, if op.transB then K else N, N)) := by
  obtain ⟨tA, tB, sA, sB, al, be⟩ := op
  simp only at hA hB
  subst hA hB
  cases asserts <;> cases tA <;> cases tB <;> simp [gemmArgs, stored, at', ix, readAt, bind, Out.bind, pure]

theorem shape_gemm {asserts : Bool} {op : MulOp α} {M N K : Nat} (hA : op.shapeA = stored op.transA M K)
    (hB : op.shapeB = stored op.transB K N) : calculateShape asserts op = .ok [M, N] := by
  have := class_gemm (asserts := asserts) hA hB
  unfold calculateShape
  rw [this]
  obtain ⟨tA, tB, sA, sB, al, be⟩ := op
  simp only at hA hB
  subst hA hB
  cases asserts <;> cases tA <;> cases tB <;> simp [shapeFor, stored, at', ix, readAt, bind, Out.bind, pure]

theorem holds_stored {l : List α} {t : Bool} {r c : Nat} {f : Nat → Nat → α} (h : Holds l (if t then c else r) (if t then r else c) f)
    {i j : Nat} (hi : i < r) (hj : j < c) :
    l[if t then j * (if t then r else c) + i else i * (if t then r else c) + j]? = some (op t f i j) := by
  have h := holds_iff.1 h
  cases t with
  | true => exact h.2 j i hj hi
  | false => exact h.2 i j hi hj

/-- What `applyTo` does with two matrices, in the order of operations of the code and so for any scalar type, floating point
included: each element is scaled by beta, then the sum of products, formed from left to right starting at 0, is scaled by alpha and
added. -/
theorem C37_order [Zero α] [One α] [Add α] [Mul α] (asserts : Bool) (t : Threads) (op : MulOp α) (M N K a b c : Nat) (mem : Mem α)
    (Am Bm Cm : Nat → Nat → α) (hac : a ≠ c) (hbc : b ≠ c) (hA : op.shapeA = stored op.transA M K) (hB : op.shapeB = stored op.transB K N)
    (hAm : Holds (mem a) (if op.transA then K else M) (if op.transA then M else K) Am)
    (hBm : Holds (mem b) (if op.transB then N else K) (if op.transB then K else N) Bm) (hCm : Holds (mem c) M N Cm) :
    ∃ res, (∀ o, Apply asserts t op [M, N] [M, N] a b c mem o ↔ o = .ok res) ∧ (∀ id, id ≠ c → res id = mem id) ∧
      Holds (res c) M N fun i j => if op.alpha = 0 ∨ K = 0 then scal op.beta (Cm i j) else
        scal 1 (scal op.beta (Cm i j)) + op.alpha * (List.range K).foldl (fun acc l =>
          acc + (if op.transA then Am l i else Am i l) * (if op.transB then Bm j l else Bm l j)) 0 := by
  have hcl := class_gemm (asserts := asserts) hA hB
  have har := args_gemm (asserts := asserts) hA hB
  obtain ⟨res, h1, h2, h3⟩ := gemm_result (t := t) (transA := op.transA) (transB := op.transB) (M := M) (N := N) (K := K) (alpha := op.alpha)
    (beta := op.beta) (a := a) (b := b) (c := c) (ldA := if op.transA then M else K) (ldB := if op.transB then K else N) (mem := mem)
    (Am := Am) (Bm := Bm) (Cm := Cm) hac hbc (fun i l hi hl => holds_stored hAm hi hl) (fun l j hl hj => holds_stored hBm hl hj)
    (holds_iff.1 hCm)
  refine ⟨res, fun o => ?_, h2, holds_iff.2 ⟨h3.1, fun i j hi hj => ?_⟩⟩
  · rw [← h1]
    constructor
    · intro h
      cases h with
      | shapeMismatch _ h => exact absurd rfl h
      | classThrow _ h => rw [hcl] at h; cases h
      | classUb _ h => rw [hcl] at h; cases h
      | dot _ h => rw [hcl] at h; cases h
      | gemv _ h _ => rw [hcl] at h; cases h
      | gemvThrow _ h _ => rw [hcl] at h; cases h
      | gemvUb _ h _ => rw [hcl] at h; cases h
      | gemm _ _ h h' =>
        rw [har] at h
        cases h
        exact h'
      | gemmThrow _ _ h => rw [har] at h; cases h
      | gemmUb _ _ h => rw [har] at h; cases h
    · intro h
      exact .gemm (fun _ => rfl) hcl har h
  · rw [h3.2 i j hi hj]
    by_cases h0 : op.alpha = 0
    · simp [h0]
    · by_cases hK : K = 0
      · simp [hK]
      · simp only [h0, hK, if_false, or_self]
        rfl

/-- **C37**, value: for matrices with matching inner extents (any extents, zero included), both transposition flags, all contents
and scales, the product has shape rows(op A) x cols(op B), and evaluating it has exactly one outcome whatever the number of threads
and their interleaving: element (i, j) is `alpha * Σ_l op(A)(i, l) * op(B)(l, j)`, plus `beta` times the previous element (`dot`
passes 0). -/
theorem C37_value [Semiring α] (asserts : Bool) (t : Threads) (op : MulOp α) (M N K a b c : Nat) (mem : Mem α) (Am Bm Cm : Nat → Nat → α)
    (hac : a ≠ c) (hbc : b ≠ c) (hA : op.shapeA = stored op.transA M K) (hB : op.shapeB = stored op.transB K N)
    (hAm : Holds (mem a) (if op.transA then K else M) (if op.transA then M else K) Am)
    (hBm : Holds (mem b) (if op.transB then N else K) (if op.transB then K else N) Bm) (hCm : Holds (mem c) M N Cm) :
    calculateShape asserts op = .ok [M, N] ∧
    ∃ res, (∀ o, Apply asserts t op [M, N] [M, N] a b c mem o ↔ o = .ok res) ∧ (∀ id, id ≠ c → res id = mem id) ∧
      Holds (res c) M N fun i j => Cm i j * op.beta + op.alpha *
        ∑ l ∈ Finset.range K, (if op.transA then Am l i else Am i l) * (if op.transB then Bm j l else Bm l j) := by
  refine ⟨shape_gemm hA hB, ?_⟩
  obtain ⟨res, h1, h2, h3⟩ := C37_order asserts t op M N K a b c mem Am Bm Cm hac hbc hA hB hAm hBm hCm
  refine ⟨res, h1, h2, h3.1, fun k i j hk => ?_⟩
  rw [h3.2 k i j hk]
  congr 1
  dsimp only
  split
  · rename_i h
    rw [scal_eq]
    rcases h with h | h <;> simp [h]
  · simp only [scal_eq, mul_one]
    congr 2
    exact dotSum_eq K _ _

/-- **C37**, rejection: with assertions compiled in, matrices whose inner extents differ are rejected when the product is formed. -/
theorem C37_reject_partial (op : MulOp α) (M K K' N : Nat) (hA : op.shapeA = stored op.transA M K) (hB : op.shapeB = stored op.transB K' N)
    (h : K ≠ K') : calculateShape true op = .throw .assertion := by
  obtain ⟨tA, tB, sA, sB, al, be⟩ := op
  simp only at hA hB
  subst hA hB
  cases tA <;> cases tB <;>
    simp [calculateShape, matmulClass, stored, at', ix, readAt, Out.assert, bind, Out.bind, pure, h]

/-- What the claim asks of builds without assertions. -/
def C37Claim : Prop := ∀ (asserts : Bool) (op : MulOp Int) (M K K' N : Nat), op.shapeA = [M, K] → op.shapeB = [K', N] →
  op.transA = false → op.transB = false → K ≠ K' → ∃ e, calculateShape asserts op = .throw e

/-- Without assertions a 1x2 matrix times a 1x1 matrix is accepted, and reads past the end of the second. -/
theorem C37_reject_false : ¬ C37Claim ∧
    Apply false ⟨false, 8, 100⟩ (⟨false, false, [1, 2], [1, 1], 1, 0⟩ : MulOp Int) [1, 1] [1, 1] 0 1 2
      (fun id => if id = 0 then [1, 2] else if id = 1 then [1] else if id = 2 then [0] else []) .ub := by
  constructor
  · intro h
    obtain ⟨e, he⟩ := h false ⟨false, false, [1, 2], [1, 1], 1, 0⟩ 1 2 1 1 rfl rfl rfl rfl (by decide)
    simp [calculateShape, matmulClass, shapeFor, at', ix, readAt, Out.assert, bind, Out.bind, pure] at he
  · refine .gemm (m := 1) (n := 1) (k := 2) (lda := 2) (ldb := 1) (ldc := 1) (fun h => by cases h) (by decide) (by decide)
      (.loop (m1 := fun id => if id = 0 then [1, 2] else if id = 1 then [1] else if id = 2 then [0] else []) (u := ()) (by decide) ?_ (by decide)
        (.seqUb (by decide) rfl))
    have : run (gescalInit 1 1 (0 : Int) ⟨2, 0⟩ 1) (fun id => if id = 0 then [1, 2] else if id = 1 then [1] else if id = 2 then [0] else []) =
        .ok ((), Mem.set (fun id => if id = 0 then [1, 2] else if id = 1 then [1] else if id = 2 then [0] else []) (2, 0) 0) := rfl
    refine this.trans ?_
    congr 2
    funext id
    simp only [Mem.set]
    split
    · rename_i h
      subst h
      rfl
    · rfl

/-! ### C36 -/

theorem fold_operand [CommSemiring α] {mem : Mem α} {x : Operand α} {r c : Nat} {f : Nat → Nat → α} (h : Denotes mem x r c f) :
    ∃ base : Nat → Nat → α, (dotHelper x).2.2.2 = stored (dotHelper x).1 r c ∧ (dotHelper x).2.2.1 = x.leaf ∧
      Holds (mem x.leaf) (if (dotHelper x).1 then c else r) (if (dotHelper x).1 then r else c) base ∧
      ∀ i j, f i j = (dotHelper x).2.1 * (if (dotHelper x).1 then base j i else base i j) := by
  induction h with
  | @arr id rows cols f h => exact ⟨f, rfl, rfl, h, fun i j => (one_mul _).symm⟩
  | @tr x rows cols f s _ ih =>
    obtain ⟨base, h1, h2, h3, h4⟩ := ih
    refine ⟨base, ?_, h2, ?_, fun i j => ?_⟩
    · simp only [dotHelper, h1, stored]
      by_cases hx : (dotHelper x).1 = true <;> simp [hx]
    · simp only [dotHelper, Operand.leaf]
      by_cases hx : (dotHelper x).1 = true <;> simpa [hx] using h3
    · simp only [dotHelper, h4]
      by_cases hx : (dotHelper x).1 = true <;> simp [hx, mul_assoc]
  | @mulRight x rows cols f s _ ih =>
    obtain ⟨base, h1, h2, h3, h4⟩ := ih
    exact ⟨base, h1, h2, h3, fun i j => (congrArg (· * s) (h4 i j)).trans ((mul_comm _ s).trans (mul_assoc s _ _).symm)⟩
  | @mulLeft x rows cols f s _ ih =>
    obtain ⟨base, h1, h2, h3, h4⟩ := ih
    exact ⟨base, h1, h2, h3, fun i j => (congrArg (s * ·) (h4 i j)).trans (mul_assoc s _ _).symm⟩

/-- **C36**: for operands built from matrices by any nesting of transposes (with their own scales) and products with scalars on
either side, `dot(x, y)` evaluates to the product of the matrices that `x` and `y` denote. -/
theorem C36 [CommSemiring α] (asserts : Bool) (t : Threads) (mem : Mem α) (x y : Operand α) (M K N c : Nat) (f g : Nat → Nat → α)
    (hx : Denotes mem x M K f) (hy : Denotes mem y K N g) (hxc : x.leaf ≠ c) (hyc : y.leaf ≠ c) (hc : (mem c).length = M * N) :
    calculateShape asserts (dotOp x y).1 = .ok [M, N] ∧
    ∃ res, (∀ o, Apply asserts t (dotOp x y).1 [M, N] [M, N] (dotOp x y).2.1 (dotOp x y).2.2 c mem o ↔ o = .ok res) ∧
      (∀ id, id ≠ c → res id = mem id) ∧ Holds (res c) M N fun i j => ∑ l ∈ Finset.range K, f i l * g l j := by
  obtain ⟨A, a1, a2, a3, a4⟩ := fold_operand hx
  obtain ⟨B, b1, b2, b3, b4⟩ := fold_operand hy
  obtain ⟨Cm, hCm⟩ := exists_rows hc
  obtain ⟨hs, res, h1, h2, h3⟩ := C37_value asserts t (dotOp x y).1 M N K (dotOp x y).2.1 (dotOp x y).2.2 c mem A B Cm (by
    simp only [dotOp, a2]; exact hxc) (by simp only [dotOp, b2]; exact hyc) a1 b1 (by
    simp only [dotOp, a2]; exact a3) (by simp only [dotOp, b2]; exact b3) (holds_iff.2 hCm)
  refine ⟨hs, res, h1, h2, h3.1, fun k i j hk => ?_⟩
  rw [h3.2 k i j hk]
  congr 1
  simp only [dotOp, mul_zero, zero_add]
  rw [Finset.mul_sum]
  refine Finset.sum_congr rfl fun l _ => ?_
  rw [a4 i l, b4 l j]
  exact mul_mul_mul_comm _ _ _ _

/-- The hypotheses are met: `dot(2 * transpose(a) * 3, transpose(b))` for a 3x2 `a` and a 4x3 `b` is a 2x4 product. -/
example : ∃ (mem : Mem Int) (f g : Nat → Nat → Int),
    Denotes mem (.mulRight (.mulLeft 2 (.tr (.arr 0 [3, 2]) 1)) 3) 2 3 f ∧ Denotes mem (.tr (.arr 1 [4, 3]) 5) 3 4 g ∧
    (mem 2).length = 2 * 4 ∧ f 1 2 = 36 ∧ (∑ l ∈ Finset.range 3, f 1 l * g l 0) = 240 := by
  refine ⟨fun id => if id = 0 then [1, 2, 3, 4, 5, 6] else if id = 1 then [1, 0, 1, 0, 0, 0, 0, 0, 0, 0, 0, 0] else
    [0, 0, 0, 0, 0, 0, 0, 0],
    fun i j => (2 * (1 * (([1, 2, 3, 4, 5, 6] : List Int)[j * 2 + i]?).getD 0)) * 3,
    fun i j => 5 * (([1, 0, 1, 0, 0, 0, 0, 0, 0, 0, 0, 0] : List Int)[j * 3 + i]?).getD 0,
    .mulRight 3 (.mulLeft 2 (.tr 1 (.arr (f := fun i j => (([1, 2, 3, 4, 5, 6] : List Int)[i * 2 + j]?).getD 0) ?_))),
    .tr 5 (.arr (f := fun i j => (([1, 0, 1, 0, 0, 0, 0, 0, 0, 0, 0, 0] : List Int)[i * 3 + j]?).getD 0) ?_), rfl, by decide, by decide⟩
  · refine holds_iff.2 ⟨rfl, fun i j hi hj => ?_⟩
    rcases i with _ | _ | _ | i <;> rcases j with _ | _ | j <;> first | rfl | omega
  · refine holds_iff.2 ⟨rfl, fun i j hi hj => ?_⟩
    rcases i with _ | _ | _ | _ | i <;> rcases j with _ | _ | _ | j <;> first | rfl | omega

/-! ### C38 -/

theorem apply_gemv [Zero α] [One α] [Add α] [Mul α] {asserts : Bool} {t : Threads} {op : MulOp α} {r n M N a b c : Nat} {mem : Mem α}
    (hA : op.shapeA = [r, n]) (hB : op.shapeB = [if op.transA then r else n]) (hM : M = if op.transA then n else r)
    (hN : N = if op.transA then r else n) (o : Out (Mem α)) :
    Apply asserts t op [M] [M] a b c mem o ↔
      o = runMem (gemvCpu op.transA M N op.alpha ⟨a, 0⟩ n ⟨b, 0⟩ 1 op.beta ⟨c, 0⟩ 1) mem := by
  have hcl : matmulClass asserts op = .ok .gemv := by
    unfold matmulClass
    rw [hA, hB]
    cases htA : op.transA <;> cases asserts <;> simp [at', ix, readAt, Out.assert, bind, Out.bind, pure]
  have har : gemvArgs asserts op = .ok (M, N, n) := by
    unfold gemvArgs
    rw [hA, hM, hN]
    cases htA : op.transA <;> cases asserts <;> simp [at', ix, readAt, bind, Out.bind, pure]
  constructor
  · intro h
    cases h with
    | shapeMismatch _ h => exact absurd rfl h
    | classThrow _ h => rw [hcl] at h; cases h
    | classUb _ h => rw [hcl] at h; cases h
    | dot _ h => rw [hcl] at h; cases h
    | gemv _ _ h => rw [har] at h; cases h; rfl
    | gemvThrow _ _ h => rw [har] at h; cases h
    | gemvUb _ _ h => rw [har] at h; cases h
    | gemm _ h _ _ => rw [hcl] at h; cases h
    | gemmThrow _ h _ => rw [hcl] at h; cases h
    | gemmUb _ h _ => rw [hcl] at h; cases h
  · rintro rfl
    exact .gemv (fun _ => rfl) hcl har

/-- `op(A) x` as `dot` evaluates it is correct for these extents, flag and contents. -/
def GemvCorrect [Semiring α] (asserts : Bool) (t : Threads) (op : MulOp α) (r n a b c : Nat) (mem : Mem α) (Am : Nat → Nat → α)
    (xv : Nat → α) : Prop :=
  calculateShape asserts op = .ok [if op.transA then n else r] ∧
  ∃ res, (∀ o, Apply asserts t op [if op.transA then n else r] [if op.transA then n else r] a b c mem o ↔ o = .ok res) ∧
    (∀ id, id ≠ c → res id = mem id) ∧
    HoldsV (res c) (if op.transA then n else r) fun i => op.alpha * ∑ l ∈ Finset.range (if op.transA then r else n),
      (if op.transA then Am l i else Am i l) * xv l

/-- C38 for the scalars `α`. -/
def C38Claim (α : Type) [DecidableEq α] [Semiring α] : Prop :=
  ∀ (asserts : Bool) (t : Threads) (op : MulOp α) (r n a b c : Nat) (mem : Mem α) (Am : Nat → Nat → α) (xv : Nat → α),
    a ≠ c → b ≠ c → op.shapeA = [r, n] → op.shapeB = [if op.transA then r else n] → op.beta = 0 → Holds (mem a) r n Am →
    HoldsV (mem b) (if op.transA then r else n) xv → (mem c).length = (if op.transA then n else r) →
    GemvCorrect asserts t op r n a b c mem Am xv

/-- What `applyTo` does with a matrix and a vector, in the order of operations of the code and so for any scalar type, floating point
included. -/
theorem C38_order [Zero α] [One α] [Add α] [Mul α] (asserts : Bool) (t : Threads) (op : MulOp α) (r n a b c : Nat) (mem : Mem α)
    (Am : Nat → Nat → α) (xv cv : Nat → α) (hac : a ≠ c) (hbc : b ≠ c) (hA : op.shapeA = [r, n])
    (hB : op.shapeB = [if op.transA then r else n]) (hAm : Holds (mem a) r n Am) (hxv : HoldsV (mem b) (if op.transA then r else n) xv)
    (hc : HoldsV (mem c) (if op.transA then n else r) cv) (hsize : r * n < 2 ^ 31) (hn : 0 < n) (hsq : op.transA = true → r = n) :
    ∃ res, (∀ o, Apply asserts t op [if op.transA then n else r] [if op.transA then n else r] a b c mem o ↔ o = .ok res) ∧
      (∀ id, id ≠ c → res id = mem id) ∧
      HoldsV (res c) (if op.transA then n else r) fun i => scal op.beta (cv i) + op.alpha *
        (List.range (if op.transA then r else n)).foldl (fun acc l => acc + (if op.transA then Am l i else Am i l) * xv l) 0 := by
  have hAm := holds_iff.1 hAm
  by_cases hr : r = 0
  · -- no rows
    have htA : op.transA = false := by
      cases h : op.transA with
      | false => rfl
      | true => have := hsq h; omega
    refine ⟨mem, fun o => ?_, fun _ _ => rfl, hc.1, fun k hk => ?_⟩
    · rw [apply_gemv hA hB rfl rfl]
      have : runMem (gemvCpu op.transA (if op.transA = true then n else r) (if op.transA = true then r else n) op.alpha ⟨a, 0⟩ n ⟨b, 0⟩ 1
          op.beta ⟨c, 0⟩ 1) mem = .ok mem := by
        simp only [htA, gemvCpu, hr, Bool.false_eq_true, if_false, true_or, if_true]
        rfl
      rw [this]
    · simp [htA, hr] at hk
  · have hr' : r < 2 ^ 31 := Nat.lt_of_le_of_lt (Nat.le_mul_of_pos_right r hn) hsize
    have hn' : n < 2 ^ 31 := Nat.lt_of_le_of_lt (Nat.le_mul_of_pos_left n (by omega)) hsize
    have hrr : rounds r = r := if_pos hr'
    have hrn : rounds n = n := if_pos hn'
    have fin : ∀ mem', run (gemvGeneric op.transA (if op.transA then n else r) (if op.transA then r else n) op.alpha ⟨a, 0⟩ n ⟨b, 0⟩ 1
          op.beta ⟨c, 0⟩ 1) mem = .ok ((), mem') →
        ∀ o, Apply asserts t op [if op.transA then n else r] [if op.transA then n else r] a b c mem o ↔ o = .ok mem' := by
      intro mem' h o
      rw [apply_gemv hA hB rfl rfl]
      have : runMem (gemvCpu op.transA (if op.transA = true then n else r) (if op.transA = true then r else n) op.alpha ⟨a, 0⟩ n ⟨b, 0⟩ 1
          op.beta ⟨c, 0⟩ 1) mem = .ok mem' := by
        have hov : overflows op.transA (if op.transA = true then n else r) (if op.transA = true then r else n) n = false := by
          unfold overflows
          cases h : op.transA with
          | false =>
            have h1 : (r - 1) * n ≤ r * n := Nat.mul_le_mul_right n (Nat.sub_le r 1)
            simp only [Bool.false_eq_true, if_false, hrr, decide_eq_false_iff_not, Nat.not_le]
            omega
          | true =>
            have := hsq h
            subst this
            simp only [if_true, hrr, Bool.and_eq_false_iff, decide_eq_false_iff_not, Nat.not_le]
            exact .inr hsize
        unfold gemvCpu runMem
        rw [if_neg (by cases op.transA <;> simp <;> omega), hov, if_neg (by decide)]
        have e1 : rounds (if op.transA = true then n else r) = (if op.transA = true then n else r) := by
          cases op.transA <;> simp [hrr, hrn]
        have e2 : rounds (if op.transA = true then r else n) = (if op.transA = true then r else n) := by
          cases op.transA <;> simp [hrr, hrn]
        rw [e1, e2, h]
        rfl
      rw [this]
    cases htA : op.transA with
    | false =>
      simp only [htA, Bool.false_eq_true, if_false] at hxv hc fin ⊢
      obtain ⟨mem', h1, h2⟩ := run_gemvGeneric (trans := false) (m := r) (n := n) (alpha := op.alpha) (beta := op.beta) (A := ⟨a, 0⟩) (x := ⟨b, 0⟩)
        (y := ⟨c, 0⟩) (ldA := n) (incX := 1) (incY := 1) (mem := mem) (opA := Am) (xv := xv) hac hbc (.inl (by decide))
        (fun i hi => by simpa [hc.1] using hi) (fun i l hi hl => by
          simp only [Bool.false_eq_true, if_false, Ptr.addr, Nat.zero_add] at hi hl ⊢
          exact hAm.2 i l hi hl) (fun l hl => by
          simp only [Bool.false_eq_true, if_false, Ptr.addr, Nat.zero_add, Nat.mul_one] at hl ⊢
          exact hxv.2 l hl)
      simp only [Bool.false_eq_true, if_false, Nat.zero_add, Nat.mul_one] at h1 h2
      refine ⟨mem', fin mem' h1, h2.others, h2.len.trans hc.1, fun k hk => ?_⟩
      rw [h2.upd k (List.mem_range.2 hk) _ (hc.2 k hk)]
      rfl
    | true =>
      have := hsq htA
      subst this
      simp only [htA, if_true] at hxv hc fin ⊢
      obtain ⟨mem', h1, h2⟩ := run_gemvGeneric (trans := true) (m := r) (n := r) (alpha := op.alpha) (beta := op.beta) (A := ⟨a, 0⟩) (x := ⟨b, 0⟩)
        (y := ⟨c, 0⟩) (ldA := r) (incX := 1) (incY := 1) (mem := mem) (opA := fun i l => Am l i) (xv := xv) hac hbc (.inl (by decide))
        (fun i hi => by simpa [hc.1] using hi) (fun i l hi hl => by
          simp only [if_true, Ptr.addr, Nat.zero_add] at hi hl ⊢
          rw [Nat.add_comm]
          exact hAm.2 l i hl hi) (fun l hl => by
          simp only [if_true, Ptr.addr, Nat.zero_add, Nat.mul_one] at hl ⊢
          exact hxv.2 l hl)
      simp only [if_true, Nat.zero_add, Nat.mul_one] at h1 h2
      refine ⟨mem', fin mem' h1, h2.others, h2.len.trans hc.1, fun k hk => ?_⟩
      rw [h2.upd k (List.mem_range.2 hk) _ (hc.2 k hk)]
      rfl

/-- **C38** holds for an untransposed matrix with at least one column and fewer than 2^31 elements, and for a transposed matrix when
it is square with at most that. Missing: transposed matrices that are not square, matrices without columns and larger ones, for all
of which the property is false. -/
theorem C38_partial [Semiring α] (asserts : Bool) (t : Threads) (op : MulOp α) (r n a b c : Nat) (mem : Mem α) (Am : Nat → Nat → α)
    (xv : Nat → α) (hac : a ≠ c) (hbc : b ≠ c) (hA : op.shapeA = [r, n]) (hB : op.shapeB = [if op.transA then r else n])
    (hbeta : op.beta = 0) (hAm : Holds (mem a) r n Am) (hxv : HoldsV (mem b) (if op.transA then r else n) xv)
    (hc : (mem c).length = (if op.transA then n else r)) (hsize : r * n < 2 ^ 31) (hn : 0 < n) (hsq : op.transA = true → r = n) :
    GemvCorrect asserts t op r n a b c mem Am xv := by
  refine ⟨?_, ?_⟩
  · unfold calculateShape matmulClass shapeFor
    rw [hA, hB]
    cases htA : op.transA <;> cases asserts <;> simp [at', ix, readAt, Out.assert, bind, Out.bind, pure]
  obtain ⟨res, h1, h2, h3⟩ := C38_order asserts t op r n a b c mem Am xv (fun k => ((mem c)[k]?).getD 0) hac hbc hA hB hAm hxv
    ⟨hc, fun k hk => by
      have : k < (mem c).length := by omega
      simp [List.getElem?_eq_getElem this]⟩ hsize hn hsq
  refine ⟨res, h1, h2, h3.1, fun k hk => ?_⟩
  rw [h3.2 k hk]
  dsimp only
  rw [scal_eq, hbeta, mul_zero, zero_add]
  congr 2
  exact dotSum_eq _ _ _

/-- The hypotheses are met: a 2x3 matrix times a vector of 3. -/
example : ∃ res : Mem Int, Apply true ⟨true, 8, 100⟩ ⟨false, false, [2, 3], [3], 1, 0⟩ [2] [2] 0 1 2
    (fun id => if id = 0 then [1, 2, 3, 4, 5, 6] else if id = 1 then [1, 0, 1] else [0, 0]) (.ok res) ∧ HoldsV (res 2) 2 fun i => 4 + 6 * i := by
  obtain ⟨-, res, h1, -, h3⟩ := C38_partial (α := Int) true ⟨true, 8, 100⟩ ⟨false, false, [2, 3], [3], 1, 0⟩ 2 3 0 1 2
    (fun id => if id = 0 then [1, 2, 3, 4, 5, 6] else if id = 1 then [1, 0, 1] else [0, 0]) (fun i j => 3 * i + j + 1)
    (fun j => if j = 1 then 0 else 1) (by decide) (by decide) rfl rfl rfl (holds_iff.2 ⟨rfl, fun i j hi hj => by
      rcases i with _ | _ | i <;> rcases j with _ | _ | _ | j <;> first | rfl | omega⟩) ⟨rfl, fun k hk => by
      simp only [Bool.false_eq_true, if_false] at hk
      rcases k with _ | _ | _ | k <;> first | rfl | omega⟩ rfl (by decide) (by decide) (by simp)
  refine ⟨res, (h1 _).2 rfl, h3.1, fun k hk => ?_⟩
  rw [h3.2 k hk]
  rcases k with _ | _ | k <;> first | rfl | omega

/-- The transposed product of a 1x2 matrix and a vector of 1 reads past the end of both: `applyTo` passes the extents of `op(A)` where
those of `A` are expected. -/
theorem C38_false : ¬ C38Claim Int := by
  intro h
  obtain ⟨-, res, h1, -⟩ := h false ⟨false, 8, 100⟩ ⟨true, false, [1, 2], [1], 1, 0⟩ 1 2 0 1 2
    (fun id => if id = 0 then [1, 2] else if id = 1 then [1] else [0, 0]) (fun _ j => j + 1) (fun _ => 1) (by decide) (by decide) rfl rfl rfl
    (holds_iff.2 ⟨rfl, fun i j hi hj => by
      obtain rfl : i = 0 := by omega
      rcases j with _ | _ | j <;> first | rfl | omega⟩) ⟨rfl, fun k hk => by
      obtain rfl : k = 0 := by simpa using hk
      rfl⟩ rfl
  have h2 : Apply false ⟨false, 8, 100⟩ (⟨true, false, [1, 2], [1], 1, 0⟩ : MulOp Int) [2] [2] 0 1 2
      (fun id => if id = 0 then [1, 2] else if id = 1 then [1] else [0, 0]) .ub := by
    exact (apply_gemv (r := 1) (n := 2) (M := 2) (N := 1) rfl rfl rfl rfl _).2 rfl
  have := (h1 _).1 h2
  cases this

/-- Every transposed product of a matrix that is not square goes out of bounds: with more rows than columns it writes past the end of
the result, with fewer it reads past the end of the vector. -/
theorem C38_transposed_false [Semiring α] (asserts : Bool) (t : Threads) (op : MulOp α) (r n a b c : Nat) (mem : Mem α)
    (hA : op.shapeA = [r, n]) (hB : op.shapeB = [r]) (htA : op.transA = true) (hb : (mem b).length = r) (hc : (mem c).length = n)
    (hr : r < 2 ^ 31) (hn : n < 2 ^ 31) (hr0 : 0 < r) (hn0 : 0 < n) (hne : r ≠ n) (o : Out (Mem α)) :
    Apply asserts t op [n] [n] a b c mem o ↔ o = .ub := by
  rw [apply_gemv (N := r) hA (by simpa [htA] using hB) (by simp [htA]) (by simp [htA])]
  have h0 : ¬ (n = 0 ∨ r = 0) := by omega
  have : runMem (gemvCpu op.transA n r op.alpha ⟨a, 0⟩ n ⟨b, 0⟩ 1 op.beta ⟨c, 0⟩ 1) mem = .ub := by
    unfold gemvCpu runMem
    rw [if_neg h0]
    split
    · rfl
    · rw [show rounds r = r from if_pos hr, show rounds n = n from if_pos hn, htA]
      unfold gemvGeneric
      rw [if_pos rfl]
      by_cases hlt : n < r
      · rw [bind_ub (scalInit_ub (i := n) hlt (by simp [Ptr.addr, hc]))]
        rfl
      · rw [bind_ub']
        · rfl
        · intro m' _ hm'
          refine seqAll_ub (i := 0) (List.mem_range.2 hr0) fun m'' hm'' => bind_ub (dotu_ub (j := r) (.inr ?_) (by omega))
          simp only [Ptr.addr, Mem.get?, Nat.zero_add, Nat.mul_one]
          exact List.getElem?_eq_none (by rw [hm'', hm', hb])
  rw [this]

/-- A matrix without columns: the result should be zeros, but nothing is written. -/
theorem C38_empty_false [Semiring α] (asserts : Bool) (t : Threads) (op : MulOp α) (r a b c : Nat) (mem : Mem α) (hA : op.shapeA = [r, 0])
    (hB : op.shapeB = [0]) (htA : op.transA = false) (o : Out (Mem α)) : Apply asserts t op [r] [r] a b c mem o ↔ o = .ok mem := by
  rw [apply_gemv (N := 0) hA (by simpa [htA] using hB) (by simp [htA]) (by simp [htA])]
  simp only [gemvCpu, or_true, if_true]
  rfl

/-- The rows of an untransposed matrix are reached by a 32 bit product: from 2^31 on it overflows. -/
theorem C38_large_false [Semiring α] (asserts : Bool) (t : Threads) (op : MulOp α) (r n a b c : Nat) (mem : Mem α)
    (hA : op.shapeA = [r, n]) (hB : op.shapeB = [n]) (htA : op.transA = false) (hr : r < 2 ^ 31) (h : 2 ^ 31 ≤ (r - 1) * n) (o : Out (Mem α)) :
    Apply asserts t op [r] [r] a b c mem o ↔ o = .ub := by
  rw [apply_gemv (N := n) hA (by simpa [htA] using hB) (by simp [htA]) (by simp [htA])]
  have h0 : ¬ (r = 0 ∨ n = 0) := by
    rintro (rfl | rfl) <;> simp at h
  simp only [gemvCpu, htA, if_neg h0, overflows, Bool.false_eq_true, if_false, rounds, if_pos hr, decide_eq_true h, if_true]
  rfl

/-- A vector times a matrix: with assertions, the shape of the object is that of the vector and evaluating it throws. -/
theorem C38_row_rejected [Zero α] [One α] [Add α] [Mul α] (t : Threads) (op : MulOp α) (n k a b c : Nat) (mem : Mem α)
    (hA : op.shapeA = [n]) (hB : op.shapeB = [k, n]) (htA : op.transA = false) (htB : op.transB = false) :
    calculateShape true op = .ok [n] ∧ ∀ o, Apply true t op [n] [n] a b c mem o ↔ o = .throw .outOfRange := by
  have hcl : matmulClass true op = .ok .gemv := by
    unfold matmulClass
    rw [hA, hB]
    simp [htB, at', ix, readAt, Out.assert, bind, Out.bind, pure]
  have har : gemvArgs true op = .throw .outOfRange := by
    unfold gemvArgs
    rw [hA]
    simp [htA, at', ix, readAt, bind, Out.bind]
  refine ⟨?_, fun o => ⟨fun h => ?_, ?_⟩⟩
  · unfold calculateShape shapeFor
    rw [hcl, hA]
    simp [htA, at', ix, readAt, bind, Out.bind, pure]
  · cases h with
    | shapeMismatch _ h => exact absurd rfl h
    | classThrow _ h => rw [hcl] at h; cases h
    | classUb _ h => rw [hcl] at h; cases h
    | dot _ h => rw [hcl] at h; cases h
    | gemv _ _ h => rw [har] at h; cases h
    | gemvThrow _ _ h => rw [har] at h; cases h; rfl
    | gemvUb _ _ h => rw [har] at h; cases h
    | gemm _ h _ _ => rw [hcl] at h; cases h
    | gemmThrow _ h _ => rw [hcl] at h; cases h
    | gemmUb _ h _ => rw [hcl] at h; cases h
  · rintro rfl
    exact .gemvThrow (fun _ => rfl) hcl har

/-- A product of two vectors is accepted but cannot be evaluated. -/
theorem C38_dot_rejected [Zero α] [One α] [Add α] [Mul α] (asserts : Bool) (t : Threads) (op : MulOp α) (n a b c : Nat) (mem : Mem α)
    (hA : op.shapeA = [n]) (hB : op.shapeB = [n]) : calculateShape asserts op = .ok [1] ∧
      ∀ o, Apply asserts t op [1] [1] a b c mem o ↔ o = .throw (if asserts then .assertion else .runtimeError) := by
  have hcl : matmulClass asserts op = .ok .dot := by
    unfold matmulClass
    rw [hA, hB]
    cases asserts <;> simp [Out.assert, bind, Out.bind, pure]
  refine ⟨?_, fun o => ⟨fun h => ?_, ?_⟩⟩
  · unfold calculateShape
    rw [hcl]
    rfl
  · cases h with
    | shapeMismatch _ h => exact absurd rfl h
    | classThrow _ h => rw [hcl] at h; cases h
    | classUb _ h => rw [hcl] at h; cases h
    | dot _ _ => rfl
    | gemv _ h _ => rw [hcl] at h; cases h
    | gemvThrow _ h _ => rw [hcl] at h; cases h
    | gemvUb _ h _ => rw [hcl] at h; cases h
    | gemm _ h _ _ => rw [hcl] at h; cases h
    | gemmThrow _ h _ => rw [hcl] at h; cases h
    | gemmUb _ h _ => rw [hcl] at h; cases h
  · rintro rfl
    exact .dot (fun _ => rfl) hcl

end Verif.MulM
