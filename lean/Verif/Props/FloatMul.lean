import Verif.Props.Matmul
import Verif.Lemmas.FloatSum

/-!
# C107: matrix products in floating-point arithmetic

The code of C36-C38 run on floating-point numbers. `unitRoundoff binary64` is `2 ^ -53`, `halfTiny binary64` is `2 ^ -1075`. The exponents
have no upper limit here: the theorems are about products in which nothing overflows, and `C107_partial_sums` says what is enough for that.
-/

namespace Verif.MulM

open ShapeM Conc TransM Grid Ieee

variable {f : Fmt}

/-- The pairs whose products are summed for element `(i, j)`. -/
def terms (K : Nat) (a b : Nat → Fl f) : List (ℚ × ℚ) := (List.range K).map fun l => ((a l).val, (b l).val)

theorem length_terms (K : Nat) (a b : Nat → Fl f) : (terms K a b).length = K := by simp [terms]

theorem exactSum_terms (K : Nat) (a b : Nat → Fl f) : exactSum (terms K a b) = ∑ l ∈ Finset.range K, (a l).val * (b l).val := by
  induction K with
  | zero => simp [terms, exactSum]
  | succ n ih =>
    rw [Finset.sum_range_succ, ← ih]
    simp [terms, exactSum, List.range_succ]

theorem magnitudeSum_terms (K : Nat) (a b : Nat → Fl f) :
    magnitudeSum (terms K a b) = ∑ l ∈ Finset.range K, |(a l).val * (b l).val| := by
  induction K with
  | zero => simp [terms, magnitudeSum]
  | succ n ih =>
    rw [Finset.sum_range_succ, ← ih]
    simp [terms, magnitudeSum, List.range_succ]

theorem loop_error (K : Nat) (a b : Nat → Fl f) :
    |((List.range K).foldl (fun acc l => acc + a l * b l) 0).val - ∑ l ∈ Finset.range K, (a l).val * (b l).val| ≤
      sumBound f K (∑ l ∈ Finset.range K, |(a l).val * (b l).val|) := by
  have h := (SumOf.loop f K a b).error
  have e1 := exactSum_terms K a b
  have e2 := magnitudeSum_terms K a b
  have e3 := length_terms K a b
  unfold terms at e1 e2 e3
  rwa [e1, e2, e3] at h

theorem repr_one (he : f.emin ≤ 0) : Repr f 1 := by
  have := repr_int (f := f) (n := 1) he (by norm_num; exact_mod_cast Nat.one_le_two_pow)
  simpa using this

theorem one_val (he : f.emin ≤ 0) : (1 : Fl f).val = 1 := rnd_of_repr (repr_one he)

theorem Fl.ext' {a b : Fl f} (h : a.val = b.val) : a = b := by
  cases a
  cases b
  simp only at h
  subst h
  rfl

theorem fl_one_mul (he : f.emin ≤ 0) (a : Fl f) : 1 * a = a := by
  refine Fl.ext' ?_
  show rnd f ((1 : Fl f).val * a.val) = a.val
  rw [one_val he, one_mul, rnd_of_repr a.repr]

theorem fl_mul_one (he : f.emin ≤ 0) (a : Fl f) : a * 1 = a := by
  refine Fl.ext' ?_
  show rnd f (a.val * (1 : Fl f).val) = a.val
  rw [one_val he, mul_one, rnd_of_repr a.repr]

theorem fl_zero_add (a : Fl f) : 0 + a = a := by
  refine Fl.ext' ?_
  show rnd f (0 + a.val) = a.val
  rw [zero_add, rnd_of_repr a.repr]

theorem scal_zero (v : Fl f) : scal 0 v = 0 := if_pos rfl

theorem scal_one (he : f.emin ≤ 0) (v : Fl f) : scal 1 v = v := by
  unfold scal
  split
  · rename_i h
    have := congrArg Fl.val h
    rw [one_val he] at this
    exact absurd this (by norm_num [show (0 : Fl f).val = 0 from rfl])
  · exact fl_mul_one he v

/-- A scaled element is within a rounding of the product. -/
theorem scal_err (b v : Fl f) : |(scal b v).val - b.val * v.val| ≤ unitRoundoff f * |b.val * v.val| + halfTiny f := by
  unfold scal
  split
  · rename_i h
    rw [h]
    show |(0 : ℚ) - 0 * v.val| ≤ unitRoundoff f * |0 * v.val| + halfTiny f
    rw [zero_mul, sub_zero, abs_zero, mul_zero, zero_add]
    exact (tiny_pos f).le
  · rw [mul_comm b.val]
    exact rnd_err f (v.val * b.val)

/-- The element `scal beta c + alpha * sum`. -/
theorem combine_err {b v al s : Fl f} {K : Nat} {S T : ℚ} (hS : |S| ≤ T) (h : |s.val - S| ≤ sumBound f K T) :
    |(scal b v + al * s).val - (b.val * v.val + al.val * S)| ≤
      ((1 + unitRoundoff f) ^ (K + 2) - 1) * (|b.val * v.val| + |al.val| * T) +
        (2 + K * |al.val|) * (1 + unitRoundoff f) ^ (K + 2) * halfTiny f := by
  have hu := unit_pos f
  have ht := tiny_pos f
  have hT : 0 ≤ T := le_trans (abs_nonneg _) hS
  have hA : 0 ≤ |al.val| := abs_nonneg _
  have hB : 0 ≤ |b.val * v.val| := abs_nonneg _
  have p1 := one_le_pow_unit f K
  -- the product with alpha
  have m0 : |al.val * s.val - al.val * S| ≤ ((1 + unitRoundoff f) ^ K - 1) * (|al.val| * T) +
      |al.val| * (K * (1 + unitRoundoff f) ^ K * halfTiny f) := by
    rw [← mul_sub, abs_mul]
    refine le_trans (mul_le_mul_of_nonneg_left h hA) (le_of_eq ?_)
    unfold sumBound
    ring
  have m1 := err_step hu.le (rnd_err f (al.val * s.val)) m0 (by rw [abs_mul]; exact mul_le_mul_of_nonneg_left hS hA)
  have m1 : |(al * s).val - al.val * S| ≤ ((1 + unitRoundoff f) ^ (K + 1) - 1) * (|al.val| * T) +
      ((1 + unitRoundoff f) ^ (K + 1) * (K * |al.val|) * halfTiny f + halfTiny f) := by
    refine le_trans m1 (le_of_eq ?_)
    rw [pow_succ]
    ring
  have m2 := scal_err b v
  -- the sum of both
  have s0 : |(scal b v).val + (al * s).val - (b.val * v.val + al.val * S)| ≤
      ((1 + unitRoundoff f) ^ (K + 1) - 1) * (|b.val * v.val| + |al.val| * T) +
        ((1 + unitRoundoff f) ^ (K + 1) * (K * |al.val|) * halfTiny f + 2 * halfTiny f) := by
    rw [show (scal b v).val + (al * s).val - (b.val * v.val + al.val * S) =
      ((scal b v).val - b.val * v.val) + ((al * s).val - al.val * S) by ring]
    refine le_trans (abs_add_le _ _) ?_
    have q : unitRoundoff f * |b.val * v.val| ≤ ((1 + unitRoundoff f) ^ (K + 1) - 1) * |b.val * v.val| := by
      refine mul_le_mul_of_nonneg_right ?_ hB
      have := pow_unit_mono f (n := 1) (m := K + 1) (by omega)
      rw [pow_one] at this
      linarith
    linarith
  have s1 := err_step hu.le (h := 0) (r := (scal b v + al * s).val) (by
    rw [add_zero]
    exact rnd_add_err (scal b v).repr (al * s).repr) s0 (by
    refine le_trans (abs_add_le _ _) (add_le_add le_rfl ?_)
    rw [abs_mul]
    exact mul_le_mul_of_nonneg_left hS hA)
  refine le_trans s1 ?_
  have p2 := pow_unit_mono f (n := 1) (m := K + 2) (by omega)
  rw [pow_one] at p2
  have p3 : 2 * ((1 + unitRoundoff f) * halfTiny f) ≤ 2 * ((1 + unitRoundoff f) ^ (K + 2) * halfTiny f) :=
    mul_le_mul_of_nonneg_left (mul_le_mul_of_nonneg_right p2 ht.le) (by norm_num)
  have e1 : (1 + unitRoundoff f) ^ (K + 2) = (1 + unitRoundoff f) * (1 + unitRoundoff f) ^ (K + 1) := by ring
  rw [e1] at p3 ⊢
  linarith

theorem abs_sum_le (K : Nat) (g : Nat → ℚ) : |∑ l ∈ Finset.range K, g l| ≤ ∑ l ∈ Finset.range K, |g l| := Finset.abs_sum_le_sum_abs _ _

/-- **C107**: every element of `C = alpha op(A) op(B) + beta C` is within the classical error bound of the exact value, for every
format, all extents and contents, any number of threads and interleaving: each of the `K` products and the old value take part in at
most `K + 2` roundings. -/
theorem C107_gemm (he : f.emin ≤ 0) (asserts : Bool) (t : Threads) (op : MulOp (Fl f)) (M N K a b c : Nat) (mem : Mem (Fl f))
    (Am Bm Cm : Nat → Nat → Fl f) (hac : a ≠ c) (hbc : b ≠ c) (hA : op.shapeA = stored op.transA M K) (hB : op.shapeB = stored op.transB K N)
    (hAm : Holds (mem a) (if op.transA then K else M) (if op.transA then M else K) Am)
    (hBm : Holds (mem b) (if op.transB then N else K) (if op.transB then K else N) Bm) (hCm : Holds (mem c) M N Cm) :
    ∃ (res : Mem (Fl f)) (R : Nat → Nat → Fl f),
      (∀ o, Apply asserts t op [M, N] [M, N] a b c mem o ↔ o = .ok res) ∧ (∀ id, id ≠ c → res id = mem id) ∧ Holds (res c) M N R ∧
      ∀ i j, |(R i j).val - (op.beta.val * (Cm i j).val + op.alpha.val * ∑ l ∈ Finset.range K,
          (if op.transA then Am l i else Am i l).val * (if op.transB then Bm j l else Bm l j).val)| ≤
        ((1 + unitRoundoff f) ^ (K + 2) - 1) * (|op.beta.val * (Cm i j).val| + |op.alpha.val| * ∑ l ∈ Finset.range K,
          |(if op.transA then Am l i else Am i l).val * (if op.transB then Bm j l else Bm l j).val|) +
        (2 + K * |op.alpha.val|) * (1 + unitRoundoff f) ^ (K + 2) * halfTiny f := by
  obtain ⟨res, h1, h2, h3⟩ := C37_order asserts t op M N K a b c mem Am Bm Cm hac hbc hA hB hAm hBm hCm
  refine ⟨res, _, h1, h2, h3, fun i j => ?_⟩
  have hl := loop_error K (fun l => if op.transA then Am l i else Am i l) (fun l => if op.transB then Bm j l else Bm l j)
  have hs := abs_sum_le K fun l => (if op.transA then Am l i else Am i l).val * (if op.transB then Bm j l else Bm l j).val
  split
  · rename_i h0
    have z : op.alpha.val * (∑ l ∈ Finset.range K,
        (if op.transA then Am l i else Am i l).val * (if op.transB then Bm j l else Bm l j).val) = 0 := by
      rcases h0 with h0 | h0
      · rw [h0]
        exact zero_mul _
      · rw [h0]
        simp
    rw [z, add_zero]
    refine le_trans (scal_err op.beta (Cm i j)) ?_
    have hu := unit_pos f
    have ht := tiny_pos f
    have p := pow_unit_mono f (n := 1) (m := K + 2) (by omega)
    have p' := one_le_pow_unit f (K + 2)
    rw [pow_one] at p
    have hT := le_trans (abs_nonneg _) hs
    have hA := abs_nonneg op.alpha.val
    have hB := abs_nonneg (op.beta.val * (Cm i j).val)
    have hAT := mul_nonneg hA hT
    have q1 : unitRoundoff f * |op.beta.val * (Cm i j).val| ≤ ((1 + unitRoundoff f) ^ (K + 2) - 1) * |op.beta.val * (Cm i j).val| :=
      mul_le_mul_of_nonneg_right (by linarith) hB
    have q2 := mul_nonneg (show (0 : ℚ) ≤ (1 + unitRoundoff f) ^ (K + 2) - 1 by linarith) hAT
    have q3 : halfTiny f ≤ (1 + unitRoundoff f) ^ (K + 2) * halfTiny f := le_mul_of_one_le_left ht.le p'
    have q4 : 0 ≤ (K * |op.alpha.val|) * ((1 + unitRoundoff f) ^ (K + 2) * halfTiny f) :=
      mul_nonneg (mul_nonneg (Nat.cast_nonneg K) hA) (by linarith)
    linarith
  · rw [scal_one he]
    exact combine_err hs hl

/-- **C107** for the product of two plain matrices, `alpha = 1` and `beta = 0`: nothing but the sum is rounded. -/
theorem C107_product (he : f.emin ≤ 0) (asserts : Bool) (t : Threads) (op : MulOp (Fl f)) (M N K a b c : Nat) (mem : Mem (Fl f))
    (Am Bm : Nat → Nat → Fl f) (hac : a ≠ c) (hbc : b ≠ c) (hA : op.shapeA = stored op.transA M K) (hB : op.shapeB = stored op.transB K N)
    (hAm : Holds (mem a) (if op.transA then K else M) (if op.transA then M else K) Am)
    (hBm : Holds (mem b) (if op.transB then N else K) (if op.transB then K else N) Bm) (hc : (mem c).length = M * N)
    (halpha : op.alpha = 1) (hbeta : op.beta = 0) :
    ∃ (res : Mem (Fl f)) (R : Nat → Nat → Fl f),
      (∀ o, Apply asserts t op [M, N] [M, N] a b c mem o ↔ o = .ok res) ∧ (∀ id, id ≠ c → res id = mem id) ∧ Holds (res c) M N R ∧
      ∀ i j, SumOf f ((List.range K).map fun l =>
          ((if op.transA then Am l i else Am i l).val, (if op.transB then Bm j l else Bm l j).val)) (R i j).val ∧
        |(R i j).val - ∑ l ∈ Finset.range K, (if op.transA then Am l i else Am i l).val * (if op.transB then Bm j l else Bm l j).val| ≤
          ((1 + unitRoundoff f) ^ K - 1) * (∑ l ∈ Finset.range K,
            |(if op.transA then Am l i else Am i l).val * (if op.transB then Bm j l else Bm l j).val|) +
          K * (1 + unitRoundoff f) ^ K * halfTiny f := by
  obtain ⟨Cm, hCm⟩ := exists_rows hc
  obtain ⟨res, h1, h2, h3⟩ := C37_order asserts t op M N K a b c mem Am Bm Cm hac hbc hA hB hAm hBm (holds_iff.2 hCm)
  have e : (fun i j => if op.alpha = 0 ∨ K = 0 then scal op.beta (Cm i j) else
      scal 1 (scal op.beta (Cm i j)) + op.alpha * (List.range K).foldl (fun acc l =>
        acc + (if op.transA then Am l i else Am i l) * (if op.transB then Bm j l else Bm l j)) 0) =
      fun i j => (List.range K).foldl (fun acc l =>
        acc + (if op.transA then Am l i else Am i l) * (if op.transB then Bm j l else Bm l j)) 0 := by
    funext i j
    split
    · rename_i h0
      rcases h0 with h0 | h0
      · rw [halpha] at h0
        have := congrArg Fl.val h0
        rw [one_val he] at this
        exact absurd this (by norm_num [show (0 : Fl f).val = 0 from rfl])
      · rw [hbeta, h0, scal_zero]
        rfl
    · rw [hbeta, scal_zero, scal_one he, halpha, fl_one_mul he, fl_zero_add]
  rw [e] at h3
  refine ⟨res, _, h1, h2, h3, fun i j => ⟨?_, ?_⟩⟩
  · exact SumOf.loop f K (fun l => if op.transA then Am l i else Am i l) (fun l => if op.transB then Bm j l else Bm l j)
  · exact loop_error K (fun l => if op.transA then Am l i else Am i l) (fun l => if op.transB then Bm j l else Bm l j)

/-- **C107** for a matrix times a vector. -/
theorem C107_gemv (asserts : Bool) (t : Threads) (op : MulOp (Fl f)) (r n a b c : Nat) (mem : Mem (Fl f)) (Am : Nat → Nat → Fl f)
    (xv cv : Nat → Fl f) (hac : a ≠ c) (hbc : b ≠ c) (hA : op.shapeA = [r, n]) (hB : op.shapeB = [if op.transA then r else n])
    (hAm : Holds (mem a) r n Am) (hxv : HoldsV (mem b) (if op.transA then r else n) xv)
    (hc : HoldsV (mem c) (if op.transA then n else r) cv) (hsize : r * n < 2 ^ 31) (hn : 0 < n) (hsq : op.transA = true → r = n) :
    ∃ (res : Mem (Fl f)) (R : Nat → Fl f),
      (∀ o, Apply asserts t op [if op.transA then n else r] [if op.transA then n else r] a b c mem o ↔ o = .ok res) ∧
      (∀ id, id ≠ c → res id = mem id) ∧ HoldsV (res c) (if op.transA then n else r) R ∧
      ∀ i, |(R i).val - (op.beta.val * (cv i).val + op.alpha.val * ∑ l ∈ Finset.range (if op.transA then r else n),
          (if op.transA then Am l i else Am i l).val * (xv l).val)| ≤
        ((1 + unitRoundoff f) ^ ((if op.transA then r else n) + 2) - 1) * (|op.beta.val * (cv i).val| + |op.alpha.val| *
          ∑ l ∈ Finset.range (if op.transA then r else n), |(if op.transA then Am l i else Am i l).val * (xv l).val|) +
        (2 + (if op.transA then r else n : Nat) * |op.alpha.val|) * (1 + unitRoundoff f) ^ ((if op.transA then r else n) + 2) * halfTiny f := by
  obtain ⟨res, h1, h2, h3⟩ := C38_order asserts t op r n a b c mem Am xv cv hac hbc hA hB hAm hxv hc hsize hn hsq
  refine ⟨res, _, h1, h2, h3, fun i => ?_⟩
  exact combine_err (abs_sum_le _ fun l => (if op.transA then Am l i else Am i l).val * (xv l).val)
    (loop_error _ (fun l => if op.transA then Am l i else Am i l) xv)

/-- The bound does not depend on the order: whatever order, grouping and fused operations a compiler chooses for a sum of products
(`-ffast-math`, vectorised reductions), it is within the bound of `C107_product`. -/
theorem C107_any_order {l : List (ℚ × ℚ)} {v : ℚ} (h : SumOf f l v) :
    |v - exactSum l| ≤ ((1 + unitRoundoff f) ^ l.length - 1) * magnitudeSum l + l.length * (1 + unitRoundoff f) ^ l.length * halfTiny f :=
  h.error

/-- The constant in its usual form. -/
theorem C107_constant (K : Nat) (h : K * unitRoundoff f < 1) :
    (1 + unitRoundoff f) ^ K - 1 ≤ K * unitRoundoff f / (1 - K * unitRoundoff f) :=
  pow_unit_le (unit_pos f).le h

/-- Two evaluations of the same sum, in whatever orders, differ by at most twice the bound: runs with other compilers, flags or packet
widths agree that far. -/
theorem C107_reproducible {l l' : List (ℚ × ℚ)} {v v' : ℚ} (h : SumOf f l v) (h' : SumOf f l' v') (hp : l.Perm l') :
    |v - v'| ≤ 2 * (((1 + unitRoundoff f) ^ l.length - 1) * magnitudeSum l + l.length * (1 + unitRoundoff f) ^ l.length * halfTiny f) := by
  have e := h.error
  have e' := h'.error
  rw [← exactSum_perm hp, ← magnitudeSum_perm hp, ← hp.length_eq] at e'
  have := abs_add_le (v - exactSum l) (exactSum l - v')
  rw [sub_add_sub_cancel, abs_sub_comm (exactSum l) v'] at this
  unfold sumBound at e e'
  linarith

/-- Products of integer-valued numbers are exact, in whatever order they are formed, as long as the magnitudes add up to at most
`2 ^ p`. -/
theorem C107_integers {l : List (ℚ × ℚ)} {v : ℚ} (h : SumOf f l v) (he : f.emin ≤ 0) (hi : ∀ p ∈ l, ∃ n : Int, p.1 * p.2 = n)
    (hm : magnitudeSum l ≤ 2 ^ f.p) : v = exactSum l :=
  h.exact he hi hm

/-- No sum formed on the way is larger than this, so nothing overflows if it is at most the largest number of the format. -/
theorem C107_partial_sums (K : Nat) (a b : Nat → Fl f) (l : Nat) (hl : l ≤ K) :
    |((List.range l).foldl (fun acc l => acc + a l * b l) 0).val| ≤
      (1 + unitRoundoff f) ^ K * (∑ l ∈ Finset.range K, |(a l).val * (b l).val|) + K * (1 + unitRoundoff f) ^ K * halfTiny f := by
  have h := loop_error l a b
  have hs := abs_sum_le l fun l => (a l).val * (b l).val
  have hT : ∑ l ∈ Finset.range l, |(a l).val * (b l).val| ≤ ∑ l ∈ Finset.range K, |(a l).val * (b l).val| :=
    Finset.sum_le_sum_of_subset_of_nonneg (Finset.range_mono hl) fun _ _ _ => abs_nonneg _
  have hT0 := le_trans (abs_nonneg _) hs
  have ht := tiny_pos f
  have p := pow_unit_mono f hl
  have p1 := one_le_pow_unit f l
  have h2 := abs_add_le (((List.range l).foldl (fun acc l => acc + a l * b l) 0).val - ∑ l ∈ Finset.range l, (a l).val * (b l).val)
    (∑ l ∈ Finset.range l, (a l).val * (b l).val)
  rw [sub_add_cancel] at h2
  have a1 : (1 + unitRoundoff f) ^ l * (∑ l ∈ Finset.range l, |(a l).val * (b l).val|) ≤
      (1 + unitRoundoff f) ^ K * (∑ l ∈ Finset.range K, |(a l).val * (b l).val|) :=
    mul_le_mul p hT hT0 (by linarith)
  have a2 : (l : ℚ) * (1 + unitRoundoff f) ^ l * halfTiny f ≤ K * (1 + unitRoundoff f) ^ K * halfTiny f := by
    have : (l : ℚ) ≤ K := by exact_mod_cast hl
    gcongr
  unfold sumBound at h
  linarith

/-- Orders differ: 1 + 2^-53 + 2^-53 is 1 from left to right and 1 + 2^-52 if the small terms are added first. -/
example : SumOf binary64 [(1, 1), (1 / 2 ^ 53, 1), (1 / 2 ^ 53, 1)] 1 ∧
    SumOf binary64 [(1, 1), (1 / 2 ^ 53, 1), (1 / 2 ^ 53, 1)] (1 + 1 / 2 ^ 52) := by
  constructor
  · have h := SumOf.add (SumOf.add (SumOf.product (f := binary64) 1 1) (SumOf.product (1 / 2 ^ 53) 1)) (SumOf.product (1 / 2 ^ 53) 1)
    have e : rnd binary64 (rnd binary64 (rnd binary64 (1 * 1) + rnd binary64 (1 / 2 ^ 53 * 1)) + rnd binary64 (1 / 2 ^ 53 * 1)) = 1 := by
      decide +kernel
    rw [e] at h
    exact h
  · have h := SumOf.add (SumOf.product (f := binary64) 1 1) (SumOf.add (SumOf.product (1 / 2 ^ 53) 1) (SumOf.product (1 / 2 ^ 53) 1))
    have e : rnd binary64 (rnd binary64 (1 * 1) + rnd binary64 (rnd binary64 (1 / 2 ^ 53 * 1) + rnd binary64 (1 / 2 ^ 53 * 1))) =
        1 + 1 / 2 ^ 52 := by
      decide +kernel
    rw [e] at h
    exact h

/-- The hypotheses of `C107_product` are met: a row of three times a column of three, in doubles. -/
example : ∃ (res : Mem (Fl binary64)) (R : Nat → Nat → Fl binary64),
    Apply true ⟨true, 8, 100⟩ ⟨false, true, [1, 3], [1, 3], 1, 0⟩ [1, 1] [1, 1] 0 1 2
      (fun id => if id = 0 then [.round _ 1, .round _ (1 / 10), .round _ 3] else if id = 1 then [.round _ 7, .round _ (1 / 3), .round _ 2]
        else [0]) (.ok res) ∧
    Holds (res 2) 1 1 R ∧ SumOf binary64 [(rnd binary64 1, rnd binary64 7), (rnd binary64 (1 / 10), rnd binary64 (1 / 3)),
      (rnd binary64 3, rnd binary64 2)] (R 0 0).val := by
  obtain ⟨res, R, h1, -, h3, h4⟩ := C107_product (f := binary64) (by decide) true ⟨true, 8, 100⟩ ⟨false, true, [1, 3], [1, 3], 1, 0⟩ 1 1 3 0 1 2
    (fun id => if id = 0 then [.round _ 1, .round _ (1 / 10), .round _ 3] else if id = 1 then [.round _ 7, .round _ (1 / 3), .round _ 2]
      else [0])
    (fun _ j => (([.round _ 1, .round _ (1 / 10), .round _ 3] : List (Fl binary64))[j]?).getD 0)
    (fun _ j => (([.round _ 7, .round _ (1 / 3), .round _ 2] : List (Fl binary64))[j]?).getD 0)
    (by decide) (by decide) rfl rfl
    (holds_iff.2 ⟨rfl, fun i j hi hj => by
      obtain rfl : i = 0 := by simpa using hi
      rcases j with _ | _ | _ | j <;> first | rfl | (simp at hj; omega)⟩)
    (holds_iff.2 ⟨rfl, fun i j hi hj => by
      obtain rfl : i = 0 := by simpa using hi
      rcases j with _ | _ | _ | j <;> first | rfl | (simp at hj; omega)⟩) rfl rfl rfl
  exact ⟨res, R, (h1 _).2 rfl, h3, (h4 0 0).1⟩

end Verif.MulM
