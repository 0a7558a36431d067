import Verif.Props.BlasSymFl

/-!
# C170: products with symmetric matrices and rank-k updates of BLAS in floating point

`syrk` and `syr2k` add each product to the matrix by itself; `symm` adds two inner products to each element.
-/

namespace Verif.Blas

open Finset Verif.Ieee

variable {f : Fmt} {o : Order} {s : Side} {u : UpLo} {t : Trans} {r c n k : Nat} {alpha beta : Fl f} {A ldA B ldB C ldC : Int} {m : Mem (Fl f)}
  {QA QB QC : Nat → Nat → Fl f}

/-- The products `alpha a b` are added one by one. -/
def rankSum (alpha w : Fl f) (a b : Nat → Fl f) : Nat → Fl f
  | 0 => w
  | k + 1 => rankSum alpha w a b k + alpha * a k * b k

theorem term_err (a b c : Fl f) : |(a * b * c).val - a.val * (b.val * c.val)| ≤
    ((1 + unitRoundoff f) ^ 2 - 1) * |a.val * (b.val * c.val)| + (1 + unitRoundoff f) * (|c.val| + 1) * halfTiny f := by
  have hu := unit_pos f
  have ht := tiny_pos f
  have h1 := mul_err (a * b) c
  have h2 := mul_err a b
  have e1 : |(a * b).val * c.val - a.val * (b.val * c.val)| ≤ (unitRoundoff f * |a.val * b.val| + halfTiny f) * |c.val| := by
    rw [show (a * b).val * c.val - a.val * (b.val * c.val) = ((a * b).val - a.val * b.val) * c.val by ring, abs_mul]
    exact mul_le_mul_of_nonneg_right h2 (abs_nonneg _)
  have e2 : |(a * b).val * c.val| ≤ |a.val * (b.val * c.val)| + |(a * b).val * c.val - a.val * (b.val * c.val)| := by
    have := abs_add_le (a.val * (b.val * c.val)) ((a * b).val * c.val - a.val * (b.val * c.val))
    rwa [add_sub_cancel] at this
  have e3 : |a.val * b.val| * |c.val| = |a.val * (b.val * c.val)| := by rw [← abs_mul, mul_assoc]
  have e4 : |(a * b * c).val - a.val * (b.val * c.val)| ≤
      |(a * b * c).val - (a * b).val * c.val| + |(a * b).val * c.val - a.val * (b.val * c.val)| := abs_sub_le _ _ _
  generalize hU : unitRoundoff f = U at *
  generalize hT : halfTiny f = T at *
  generalize hP : |a.val * (b.val * c.val)| = P at *
  generalize hC : |c.val| = C at *
  have hC0 : 0 ≤ C := by rw [← hC]; exact abs_nonneg _
  have e5 : |(a * b).val * c.val - a.val * (b.val * c.val)| ≤ U * P + T * C := by
    refine e1.trans (le_of_eq ?_)
    rw [add_mul, mul_assoc, e3]
  have e6 : U * |(a * b).val * c.val| ≤ U * (P + (U * P + T * C)) := mul_le_mul_of_nonneg_left (by linarith) hu.le
  have h10 : 0 ≤ U * T := by positivity
  linarith [show ((1 + U) ^ 2 - 1) * P + (1 + U) * (C + 1) * T - (U * (P + (U * P + T * C)) + T + (U * P + T * C)) = U * T by ring]

theorem rankSum_err (v : Fl f) (a b : Nat → Fl f) (k : Nat) :
    |(rankSum alpha (v * beta) a b k).val - (beta.val * v.val + alpha.val * ∑ l ∈ range k, (a l).val * (b l).val)| ≤
      ((1 + unitRoundoff f) ^ (k + 2) - 1) * (|beta.val * v.val| + |alpha.val| * ∑ l ∈ range k, |(a l).val * (b l).val|) +
        (1 + unitRoundoff f) ^ (k + 2) * (1 + ∑ l ∈ range k, (|(b l).val| + 1)) * halfTiny f := by
  have hu := unit_pos f
  have ht := tiny_pos f
  induction k with
  | zero =>
    have h := mul_err v beta
    rw [mul_comm v.val] at h
    simp only [rankSum, range_zero, sum_empty, mul_zero, add_zero, mul_one, zero_add]
    have hB := abs_nonneg (beta.val * v.val)
    generalize |beta.val * v.val| = X at *
    generalize unitRoundoff f = U at *
    generalize halfTiny f = T at *
    have h1 : 0 ≤ (U + U ^ 2) * X := by positivity
    have h2 : 0 ≤ (2 * U + U ^ 2) * T := by positivity
    linarith [show ((1 + U) ^ 2 - 1) * X + (1 + U) ^ 2 * T - (U * X + T) = (U + U ^ 2) * X + (2 * U + U ^ 2) * T by ring]
  | succ k ih =>
    have hs := term_err alpha (a k) (b k)
    have h := add_err' (rankSum alpha (v * beta) a b k) (alpha * a k * b k)
      (beta.val * v.val + alpha.val * ∑ l ∈ range k, (a l).val * (b l).val) (alpha.val * ((a k).val * (b k).val))
    have hM : |beta.val * v.val + alpha.val * ∑ l ∈ range k, (a l).val * (b l).val| ≤
        |beta.val * v.val| + |alpha.val| * ∑ l ∈ range k, |(a l).val * (b l).val| := by
      refine (abs_add_le _ _).trans ?_
      rw [abs_mul alpha.val]
      have := mul_le_mul_of_nonneg_left (abs_sum_le_sum_abs (fun l => (a l).val * (b l).val) (range k)) (abs_nonneg alpha.val)
      linarith
    have hM0 : 0 ≤ |beta.val * v.val| + |alpha.val| * ∑ l ∈ range k, |(a l).val * (b l).val| := (abs_nonneg _).trans hM
    have hc0 : (0 : ℚ) ≤ 1 + ∑ l ∈ range k, (|(b l).val| + 1) := by
      have : 0 ≤ ∑ l ∈ range k, (|(b l).val| + 1) := sum_nonneg fun l _ => by positivity
      linarith
    have hT0 := abs_nonneg (alpha.val * ((a k).val * (b k).val))
    have hb0 := abs_nonneg (b k).val
    have p1 : 1 ≤ (1 + unitRoundoff f) ^ k := one_le_pow_unit f k
    rw [sum_range_succ, sum_range_succ, sum_range_succ, mul_add, ← add_assoc, mul_add |alpha.val|, ← add_assoc |beta.val * v.val|,
      ← abs_mul alpha.val ((a k).val * (b k).val), ← add_assoc (1 : ℚ)]
    rw [show (1 + unitRoundoff f) ^ (k + 1 + 2) = (1 + unitRoundoff f) ^ k * (1 + unitRoundoff f) ^ 3 by rw [← pow_add]]
    rw [show (1 + unitRoundoff f) ^ (k + 2) = (1 + unitRoundoff f) ^ k * (1 + unitRoundoff f) ^ 2 by rw [← pow_add]] at ih
    show |(rankSum alpha (v * beta) a b k + alpha * a k * b k).val - _| ≤ _
    generalize beta.val * v.val + alpha.val * ∑ l ∈ range k, (a l).val * (b l).val = W at *
    generalize |beta.val * v.val| + |alpha.val| * ∑ l ∈ range k, |(a l).val * (b l).val| = M at *
    generalize 1 + ∑ l ∈ range k, (|(b l).val| + 1) = c at *
    generalize |(rankSum alpha (v * beta) a b k).val - W| = E at *
    generalize |(alpha * a k * b k).val - alpha.val * ((a k).val * (b k).val)| = D at *
    generalize |(rankSum alpha (v * beta) a b k + alpha * a k * b k).val - (W + alpha.val * ((a k).val * (b k).val))| = R at *
    generalize |alpha.val * ((a k).val * (b k).val)| = S at *
    generalize |(b k).val| = bk at *
    generalize (1 + unitRoundoff f) ^ k = p at *
    generalize unitRoundoff f = U at *
    generalize halfTiny f = T at *
    have g1 : U * (|W| + S) ≤ U * (M + S) := mul_le_mul_of_nonneg_left (by linarith) hu.le
    have g2 : (1 + U) * (E + D) ≤ (1 + U) * ((p * (1 + U) ^ 2 - 1) * M + p * (1 + U) ^ 2 * c * T + (((1 + U) ^ 2 - 1) * S + (1 + U) * (bk + 1) * T)) :=
      mul_le_mul_of_nonneg_left (by linarith) (by linarith)
    have g3 : 0 ≤ (p - 1) * ((1 + U) ^ 3 * S) := mul_nonneg (by linarith) (by positivity)
    have g4 : 0 ≤ (p - 1) * ((1 + U) ^ 3 * (bk + 1) * T) := mul_nonneg (by linarith) (by positivity)
    have g5 : 0 ≤ (1 + U) ^ 2 * U * (bk + 1) * T := by positivity
    linarith [show (p * (1 + U) ^ 3 - 1) * (M + S) + p * (1 + U) ^ 3 * (c + (bk + 1)) * T - (U * (M + S) +
      (1 + U) * ((p * (1 + U) ^ 2 - 1) * M + p * (1 + U) ^ 2 * c * T + (((1 + U) ^ 2 - 1) * S + (1 + U) * (bk + 1) * T))) =
      (p - 1) * ((1 + U) ^ 3 * S) + (p - 1) * ((1 + U) ^ 3 * (bk + 1) * T) + (1 + U) ^ 2 * U * (bk + 1) * T by ring]

theorem syscalInit_fl (he : f.emin ≤ 0) (hC : MatMem m C .rowMajor ldC (tri u n))
    (hb : beta ≠ 0 → MatAt m C .rowMajor ldC (tri u n) QC) (hld : (n : Int) ≤ ldC) :
    YieldsMat (syscalInit .rowMajor u n beta C ldC) m C .rowMajor ldC (tri u n) fun i j => QC i j * beta := by
  unfold syscalInit
  by_cases h : beta = 1
  · rw [if_pos h]
    have := hb (by
      rw [h]
      intro h0
      have h0 := congrArg Fl.val h0
      rw [val_one he, val_zero] at h0
      norm_num at h0)
    refine ⟨m, rfl, fun i j hp => ?_, fun _ _ => rfl⟩
    rw [this i j hp, h]
    exact congrArg Cell.val (MulM.fl_mul_one he _).symm
  · rw [if_neg h, show effUpLo .rowMajor u = u from rfl]
    have e : triScal (fun n => scalInit n beta) u n C ldC = loop n fun i => scalInit (triLen u n i) beta (C + i * ldC + triS u i) 1 := by
      cases u
      · simp only [triScal, triLen, triS, show ∀ i : Nat, C + (i : Int) * (ldC + 1) = C + i * ldC + i from fun i => by ring]
      · simp only [triScal, triLen, triS, Nat.cast_zero, add_zero]
    rw [e]
    refine tri_run hld _ fun l hl m' ho => ?_
    exact yields_of_over (by decide) (scalInit_initF ⟨vecMem_tri' hC hld hl ho, fun h => vecAt_tri' (hb h) hld hl ho⟩ (by decide))

/-- Row or column `l` of the operand: column `l` of `op(A)`. -/
theorem op_vecF (t : Trans) (n k : Nat) (hA : MatAt m A .rowMajor ldA (full (opRows t n k) (opCols t n k)) QA)
    (hl : LdOk .rowMajor ldA (opRows t n k) (opCols t n k))
    {ad : Nat → Nat → Int} {P : Nat → Nat → Prop}
    (hd : StDisj (matAd A .rowMajor ldA) (full (opRows t n k) (opCols t n k)) ad P) {l : Nat} (hlk : l < k) :
    (t.trans = false → VecAt m (A + l) ldA n (fun i => opM t QA i l) ∧ StVecDisj ad P (A + l) ldA n) ∧
    (t.trans = true → VecAt m (A + l * ldA) 1 n (fun i => opM t QA i l) ∧ StVecDisj ad P (A + l * ldA) 1 n) := by
  constructor
  · intro h
    have e1 : opRows t n k = n := by simp [opRows, h]
    have e2 : opCols t n k = k := by simp [opCols, h]
    rw [e1, e2] at hA hl hd
    have h0 : 0 ≤ ldA := by have : (k : Int) ≤ ldA := hl; omega
    refine ⟨?_, fun i j q hp hq e => ?_⟩
    · have e3 : (fun i => opM t QA i l) = fun i => QA i l := funext fun i => by rw [opM_fl, h]; rfl
      rw [e3]; exact vecAt_col hA h0 hlk
    · rw [elem_col h0] at e
      exact hd q l i j ⟨hq, hlk⟩ hp e.symm
  · intro h
    have e1 : opRows t n k = k := by simp [opRows, h]
    have e2 : opCols t n k = n := by simp [opCols, h]
    rw [e1, e2] at hA hl hd
    refine ⟨?_, fun i j q hp hq e => ?_⟩
    · have e3 : (fun i => opM t QA i l) = fun i => QA l i := funext fun i => by rw [opM_fl, h]; rfl
      rw [e3]; exact vecAt_row hA hlk
    · rw [elem_row] at e
      exact hd l q i j ⟨hlk, hq⟩ hp e.symm

theorem syrkRow_fl (he : f.emin ≤ 0) (hA : MatAt m A .rowMajor ldA (full (opRows t n k) (opCols t n k)) QA)
    (hC : MatMem m C .rowMajor ldC (tri u n)) (hb : beta ≠ 0 → MatAt m C .rowMajor ldC (tri u n) QC)
    (hlA : LdOk .rowMajor ldA (opRows t n k) (opCols t n k)) (hlC : (n : Int) ≤ ldC)
    (hdA : StDisj (matAd A .rowMajor ldA) (full (opRows t n k) (opCols t n k)) (matAd C .rowMajor ldC) (tri u n)) :
    YieldsMat (syrkRow u t n k alpha A ldA beta C ldC) m C .rowMajor ldC (tri u n) fun i j =>
      rankSum alpha (QC i j * beta) (opM t QA i) (opM t QA j) k := by
  refine (syscalInit_fl he hC hb hlC).bind fun m' hV ho => ?_
  have hA' : StAt m' (matAd A .rowMajor ldA) _ QA := StAt.only hA ho hdA
  have step : ∀ (g : Nat → M (Fl f) Unit), (∀ l, l < k → ∀ m'' W, StAt m'' (matAd A .rowMajor ldA)
        (full (opRows t n k) (opCols t n k)) QA → MatAt m'' C .rowMajor ldC (tri u n) W →
        YieldsMat (g l) m'' C .rowMajor ldC (tri u n) fun i j => W i j + alpha * opM t QA i l * opM t QA j l) →
      YieldsMat (loop k g) m' C .rowMajor ldC (tri u n) fun i j => rankSum alpha (QC i j * beta) (opM t QA i) (opM t QA j) k := by
    intro g hg
    exact YieldsMat.loop (fun q i j => rankSum alpha (QC i j * beta) (opM t QA i) (opM t QA j) q) hV k
      fun l hl m'' hW ho' => hg l hl m'' _ (hA'.only ho' hdA) hW
  cases ht : t.trans
  · refine step _ fun l hl m'' W h1 hW => ?_
    obtain ⟨h2, h3⟩ := (op_vecF t n k h1 hlA hdA hl).1 ht
    exact syrRow_fl hW h2 hlC h3
  · refine step _ fun l hl m'' W h1 hW => ?_
    obtain ⟨h2, h3⟩ := (op_vecF t n k h1 hlA hdA hl).2 ht
    exact syrRow_fl hW h2 hlC h3

theorem halfTiny_mono {p C D : ℚ} (hp : 0 ≤ p) (h : C ≤ D) : p * C * halfTiny f ≤ p * D * halfTiny f :=
  mul_le_mul_of_nonneg_right (mul_le_mul_of_nonneg_left h hp) (tiny_pos f).le

/-- **C170** `syrk` in floating point, for all orders, triangles and transpositions: each element of the triangle of `beta C + alpha op(A) op(A)ᵀ`
is right up to `k + 2` roundings of the sum of the magnitudes of its terms. The other triangle is not touched, and with `beta = 0` the old `C` may
be uninitialised. -/
theorem C170_syrk (he : f.emin ≤ 0) (hA : MatAt m A o ldA (full (opRows t n k) (opCols t n k)) QA)
    (hC : MatMem m C o ldC (tri u n)) (hb : beta ≠ 0 → MatAt m C o ldC (tri u n) QC)
    (hlA : LdOk o ldA (opRows t n k) (opCols t n k)) (hlC : (n : Int) ≤ ldC)
    (hdA : StDisj (matAd A o ldA) (full (opRows t n k) (opCols t n k)) (matAd C o ldC) (tri u n)) :
    ∃ W, YieldsMat (syrk o u t n k alpha A ldA beta C ldC) m C o ldC (tri u n) W ∧ ∀ i j, tri u n i j →
      |(W i j).val - (beta.val * (QC i j).val + alpha.val * ∑ l ∈ range k, (opM t QA i l).val * (opM t QA j l).val)| ≤
        ((1 + unitRoundoff f) ^ (k + 2) - 1) *
          (|beta.val * (QC i j).val| + |alpha.val| * ∑ l ∈ range k, |(opM t QA i l).val * (opM t QA j l).val|) +
        (1 + unitRoundoff f) ^ (k + 2) * (1 + ∑ l ∈ range k, (max |(opM t QA i l).val| |(opM t QA j l).val| + 1)) * halfTiny f := by
  have hp : 0 ≤ (1 + unitRoundoff f) ^ (k + 2) := by have := (unit_pos f).le; positivity
  cases o
  · refine ⟨_, syrkRow_fl he hA hC hb hlA hlC hdA, fun i j _ => (rankSum_err _ _ _ _).trans (add_le_add_right (halfTiny_mono hp ?_) _)⟩
    exact add_le_add_right (sum_le_sum fun l _ => add_le_add_left (le_max_right _ _) _) _
  · have hC' := matMem_col.1 hC
    have hdA' := stDisj_col hdA
    rw [matAt_col, sw_full, ← opCols_flip, ← opRows_flip t] at hA
    rw [sw_tri] at hC'
    rw [sw_tri, sw_full, ← opCols_flip, ← opRows_flip t] at hdA'
    have hlA' : LdOk .rowMajor ldA (opRows t.flip n k) (opCols t.flip n k) := by
      rw [opCols_flip]; exact hlA
    have := syrkRow_fl (t := t.flip) (alpha := alpha) he hA hC' (fun h => by have := matAt_col.1 (hb h); rwa [sw_tri] at this) hlA' hlC hdA'
    rw [opM_flip] at this
    refine ⟨fun i j => rankSum alpha (QC i j * beta) (opM t QA j) (opM t QA i) k, yieldsMat_col (by rw [sw_tri]; exact this), fun i j _ => ?_⟩
    have h := rankSum_err (alpha := alpha) (beta := beta) (QC i j) (opM t QA j) (opM t QA i) k
    simp only [mul_comm (opM t QA j _).val] at h
    refine h.trans (add_le_add_right (halfTiny_mono hp ?_) _)
    exact add_le_add_right (sum_le_sum fun l _ => add_le_add_left (le_max_left _ _) _) _

/-- The terms of `syr2k` in the order in which they are added. -/
def inter (a b : Nat → Fl f) (n : Nat) : Fl f := if n % 2 = 0 then a (n / 2) else b (n / 2)

theorem inter_even (a b : Nat → Fl f) (l : Nat) : inter a b (2 * l) = a l := by
  unfold inter
  rw [if_pos (by omega), show 2 * l / 2 = l by omega]

theorem inter_odd (a b : Nat → Fl f) (l : Nat) : inter a b (2 * l + 1) = b l := by
  unfold inter
  rw [if_neg (by omega), show (2 * l + 1) / 2 = l by omega]

theorem sum_two (g : Nat → ℚ) (k : Nat) : ∑ l ∈ range (2 * k), g l = ∑ l ∈ range k, (g (2 * l) + g (2 * l + 1)) := by
  induction k with
  | zero => simp
  | succ k ih =>
    rw [show 2 * (k + 1) = 2 * k + 1 + 1 by ring, sum_range_succ, sum_range_succ, sum_range_succ, ih]
    ring

theorem rankSum_two (w : Fl f) (a b c d : Nat → Fl f) (l : Nat) :
    rankSum alpha w (inter a c) (inter b d) (2 * (l + 1)) =
      rankSum alpha w (inter a c) (inter b d) (2 * l) + alpha * a l * b l + alpha * c l * d l := by
  show rankSum alpha w (inter a c) (inter b d) (2 * l) + alpha * inter a c (2 * l) * inter b d (2 * l) +
    alpha * inter a c (2 * l + 1) * inter b d (2 * l + 1) = _
  simp only [inter_even, inter_odd]

theorem syr2kRow_fl (he : f.emin ≤ 0) (hA : MatAt m A .rowMajor ldA (full (opRows t n k) (opCols t n k)) QA)
    (hB : MatAt m B .rowMajor ldB (full (opRows t n k) (opCols t n k)) QB)
    (hC : MatMem m C .rowMajor ldC (tri u n)) (hb : beta ≠ 0 → MatAt m C .rowMajor ldC (tri u n) QC)
    (hlA : LdOk .rowMajor ldA (opRows t n k) (opCols t n k)) (hlB : LdOk .rowMajor ldB (opRows t n k) (opCols t n k))
    (hlC : (n : Int) ≤ ldC)
    (hdA : StDisj (matAd A .rowMajor ldA) (full (opRows t n k) (opCols t n k)) (matAd C .rowMajor ldC) (tri u n))
    (hdB : StDisj (matAd B .rowMajor ldB) (full (opRows t n k) (opCols t n k)) (matAd C .rowMajor ldC) (tri u n)) :
    YieldsMat (syr2kRow u t n k alpha A ldA B ldB beta C ldC) m C .rowMajor ldC (tri u n) fun i j =>
      rankSum alpha (QC i j * beta) (inter (opM t QA i) (opM t QB i)) (inter (opM t QB j) (opM t QA j)) (2 * k) := by
  refine (syscalInit_fl he hC hb hlC).bind fun m' hV ho => ?_
  have hA' : StAt m' (matAd A .rowMajor ldA) _ QA := StAt.only hA ho hdA
  have hB' : StAt m' (matAd B .rowMajor ldB) _ QB := StAt.only hB ho hdB
  have step : ∀ (g : Nat → M (Fl f) Unit), (∀ l, l < k → ∀ m'' W, StAt m'' (matAd A .rowMajor ldA)
        (full (opRows t n k) (opCols t n k)) QA → StAt m'' (matAd B .rowMajor ldB)
        (full (opRows t n k) (opCols t n k)) QB → MatAt m'' C .rowMajor ldC (tri u n) W →
        YieldsMat (g l) m'' C .rowMajor ldC (tri u n) fun i j =>
          W i j + alpha * opM t QA i l * opM t QB j l + alpha * opM t QB i l * opM t QA j l) →
      YieldsMat (loop k g) m' C .rowMajor ldC (tri u n) fun i j =>
        rankSum alpha (QC i j * beta) (inter (opM t QA i) (opM t QB i)) (inter (opM t QB j) (opM t QA j)) (2 * k) := by
    intro g hg
    refine YieldsMat.loop (fun q i j =>
      rankSum alpha (QC i j * beta) (inter (opM t QA i) (opM t QB i)) (inter (opM t QB j) (opM t QA j)) (2 * q)) hV k
      fun l hl m'' hW ho' => ?_
    refine (hg l hl m'' _ (hA'.only ho' hdA) (hB'.only ho' hdB) hW).congr fun i j _ => ?_
    exact (rankSum_two _ _ _ _ _ _).symm
  cases ht : t.trans
  · refine step _ fun l hl m'' W h1 h2 hW => ?_
    obtain ⟨h3, h4⟩ := (op_vecF t n k h1 hlA hdA hl).1 ht
    obtain ⟨h5, h6⟩ := (op_vecF t n k h2 hlB hdB hl).1 ht
    exact syr2Row_fl hW h3 h5 hlC h4 h6
  · refine step _ fun l hl m'' W h1 h2 hW => ?_
    obtain ⟨h3, h4⟩ := (op_vecF t n k h1 hlA hdA hl).2 ht
    obtain ⟨h5, h6⟩ := (op_vecF t n k h2 hlB hdB hl).2 ht
    exact syr2Row_fl hW h3 h5 hlC h4 h6

/-- **C170** `syr2k` in floating point: each element of the triangle of `beta C + alpha (op(A) op(B)ᵀ + op(B) op(A)ᵀ)` is right up to `2 k + 2`
roundings of the sum of the magnitudes of its terms. -/
theorem C170_syr2k (he : f.emin ≤ 0) (hA : MatAt m A o ldA (full (opRows t n k) (opCols t n k)) QA)
    (hB : MatAt m B o ldB (full (opRows t n k) (opCols t n k)) QB)
    (hC : MatMem m C o ldC (tri u n)) (hb : beta ≠ 0 → MatAt m C o ldC (tri u n) QC)
    (hlA : LdOk o ldA (opRows t n k) (opCols t n k)) (hlB : LdOk o ldB (opRows t n k) (opCols t n k)) (hlC : (n : Int) ≤ ldC)
    (hdA : StDisj (matAd A o ldA) (full (opRows t n k) (opCols t n k)) (matAd C o ldC) (tri u n))
    (hdB : StDisj (matAd B o ldB) (full (opRows t n k) (opCols t n k)) (matAd C o ldC) (tri u n)) :
    ∃ W, YieldsMat (syr2k o u t n k alpha A ldA B ldB beta C ldC) m C o ldC (tri u n) W ∧ ∀ i j, tri u n i j →
      |(W i j).val - (beta.val * (QC i j).val + alpha.val * ∑ l ∈ range k,
          ((opM t QA i l).val * (opM t QB j l).val + (opM t QB i l).val * (opM t QA j l).val))| ≤
        ((1 + unitRoundoff f) ^ (2 * k + 2) - 1) * (|beta.val * (QC i j).val| + |alpha.val| * ∑ l ∈ range k,
          (|(opM t QA i l).val * (opM t QB j l).val| + |(opM t QB i l).val * (opM t QA j l).val|)) +
        (1 + unitRoundoff f) ^ (2 * k + 2) * (1 + ∑ l ∈ range k, (max |(opM t QA i l).val| |(opM t QA j l).val| +
          max |(opM t QB i l).val| |(opM t QB j l).val| + 2)) * halfTiny f := by
  have hp : 0 ≤ (1 + unitRoundoff f) ^ (2 * k + 2) := by have := (unit_pos f).le; positivity
  cases o
  · refine ⟨_, syr2kRow_fl he hA hB hC hb hlA hlB hlC hdA hdB, fun i j _ => ?_⟩
    have h := rankSum_err (alpha := alpha) (beta := beta) (QC i j) (inter (opM t QA i) (opM t QB i)) (inter (opM t QB j) (opM t QA j)) (2 * k)
    rw [sum_two, sum_two, sum_two] at h
    simp only [inter_even, inter_odd] at h
    refine h.trans (add_le_add_right (halfTiny_mono hp ?_) _)
    refine add_le_add_right (sum_le_sum fun l _ => ?_) _
    linarith [le_max_right |(opM t QA i l).val| |(opM t QA j l).val|, le_max_right |(opM t QB i l).val| |(opM t QB j l).val|]
  · have hC' := matMem_col.1 hC
    have hdA' := stDisj_col hdA
    have hdB' := stDisj_col hdB
    rw [matAt_col, sw_full, ← opCols_flip, ← opRows_flip t] at hA hB
    rw [sw_tri] at hC'
    rw [sw_tri, sw_full, ← opCols_flip, ← opRows_flip t] at hdA' hdB'
    have e2 : opCols t.flip n k = opRows t n k := opCols_flip t n k
    have := syr2kRow_fl (t := t.flip) (alpha := alpha) he hA hB hC' (fun h => by have := matAt_col.1 (hb h); rwa [sw_tri] at this)
      (by rw [e2]; exact hlA) (by rw [e2]; exact hlB) hlC hdA' hdB'
    rw [opM_flip, opM_flip] at this
    refine ⟨fun i j => rankSum alpha (QC i j * beta) (inter (opM t QA j) (opM t QB j)) (inter (opM t QB i) (opM t QA i)) (2 * k),
      yieldsMat_col (by rw [sw_tri]; exact this), fun i j _ => ?_⟩
    have h := rankSum_err (alpha := alpha) (beta := beta) (QC i j) (inter (opM t QA j) (opM t QB j)) (inter (opM t QB i) (opM t QA i)) (2 * k)
    rw [sum_two, sum_two, sum_two] at h
    simp only [inter_even, inter_odd] at h
    have e1 : ∀ l, (opM t QA j l).val * (opM t QB i l).val + (opM t QB j l).val * (opM t QA i l).val =
        (opM t QA i l).val * (opM t QB j l).val + (opM t QB i l).val * (opM t QA j l).val := fun l => by ring
    have e3 : ∀ l, |(opM t QA j l).val * (opM t QB i l).val| + |(opM t QB j l).val * (opM t QA i l).val| =
        |(opM t QA i l).val * (opM t QB j l).val| + |(opM t QB i l).val * (opM t QA j l).val| := fun l => by
      rw [mul_comm (opM t QA j l).val, mul_comm (opM t QB j l).val, add_comm]
    simp only [e1, e3] at h
    refine h.trans (add_le_add_right (halfTiny_mono hp ?_) _)
    refine add_le_add_right (sum_le_sum fun l _ => ?_) _
    linarith [le_max_left |(opM t QA i l).val| |(opM t QA j l).val|, le_max_left |(opM t QB i l).val| |(opM t QB j l).val|]

/-! ### Products with symmetric matrices -/

theorem symM_commF (u : UpLo) (Q : Nat → Nat → Fl f) (i j : Nat) : symM u Q i j = symM u Q j i := by
  rcases lt_trichotomy i j with h | h | h
  · cases u <;> simp [symM, h.le, not_le.2 h]
  · subst h; rfl
  · cases u <;> simp [symM, h.le, not_le.2 h]

theorem gescalInit_fl (hC : MatMem m C .rowMajor ldC (full r c)) (hb : beta ≠ 0 → MatAt m C .rowMajor ldC (full r c) QC) (hld : (c : Int) ≤ ldC) :
    YieldsMat (gescalInit .rowMajor r c beta C ldC) m C .rowMajor ldC (full r c) fun i j => QC i j * beta := by
  refine gescalRow_run (sc := fun n => scalInit n beta) hld (fun h => ?_) fun i hi m' ho => ?_
  · subst h
    exact yields_of_over (by decide) (scalInit_initF ⟨vecMem_full hC, fun h => vecAt_full (hb h)⟩ (by decide))
  · exact yields_of_over (by decide) (scalInit_initF ⟨vecMem_row' hC hld hi ho, fun h => vecAt_row' (hb h) hld hi ho⟩ (by decide))

theorem symElem_one (he : f.emin ≤ 0) (v : Fl f) (a x : Nat → Fl f) (i : Nat) :
    symElem u n alpha 1 (v * beta) a x i = symElem u n alpha beta v a x i := by
  cases u <;> simp only [symElem, MulM.fl_mul_one he]

theorem symv_fl (hA : MatAt m A .rowMajor ldA (tri u n) QA) {x incX y incY : Int} {xv yv : Nat → Fl f} (hx : VecAt m x incX n xv)
    (hy : VecAt m y incY n yv) (hi : incY ≠ 0) (hdA : MatVecDisj A .rowMajor ldA (tri u n) y incY n) (hdx : VecDisj x incX n y incY n) :
    Yields (symv .rowMajor u n alpha A ldA x incX beta y incY) m y incY n fun i => symElem u n alpha beta (yv i) (symM u QA i) xv i :=
  yields_of_over hi (symvRow_fl hA hx ⟨hy.mem, fun _ => hy⟩ hi hdA hdx)

/-- The elements of `symm` as they are computed. -/
def symmElem (s : Side) (u : UpLo) (r c : Nat) (alpha beta : Fl f) (S QB QC : Nat → Nat → Fl f) (i j : Nat) : Fl f :=
  match s with
  | .left => symElem u r alpha beta (QC i j) (S i) (fun l => QB l j) i
  | .right => symElem u c alpha beta (QC i j) (S j) (fun l => QB i l) j

theorem symmRow_fl (he : f.emin ≤ 0) (hA : MatAt m A .rowMajor ldA (tri u (sideDim s r c)) QA) (hB : MatAt m B .rowMajor ldB (full r c) QB)
    (hC : MatMem m C .rowMajor ldC (full r c)) (hb : beta ≠ 0 → MatAt m C .rowMajor ldC (full r c) QC)
    (hlB : (c : Int) ≤ ldB) (hlC : (c : Int) ≤ ldC)
    (hdA : StDisj (matAd A .rowMajor ldA) (tri u (sideDim s r c)) (matAd C .rowMajor ldC) (full r c))
    (hdB : StDisj (matAd B .rowMajor ldB) (full r c) (matAd C .rowMajor ldC) (full r c)) :
    YieldsMat (symmRow s u r c alpha A ldA B ldB beta C ldC) m C .rowMajor ldC (full r c) (symmElem s u r c alpha beta (symM u QA) QB QC) := by
  refine (gescalInit_fl hC hb hlC).bind fun m' hV ho => ?_
  have hA' : StAt m' (matAd A .rowMajor ldA) _ QA := StAt.only hA ho hdA
  have hB' : StAt m' (matAd B .rowMajor ldB) _ QB := StAt.only hB ho hdB
  cases s
  · refine cols_run hlC _ fun l hl m'' ho' => ?_
    have ho2 := ho'.mono (P' := full r c) fun i j hp => ⟨hp.1, hp.2.trans hl⟩
    have hB2 : MatAt m'' B .rowMajor ldB (full r c) QB := hB'.only ho2 hdB
    refine (symv_fl (alpha := alpha) (beta := 1) (hA'.only ho2 hdA) (vecAt_col hB2 (by omega) hl)
      (vecAt_col' hV hlC hl ho') (by omega) (disj_col hdA (by omega) hl)
      (disj_colVec (disj_col hdB (by omega) hl) (by omega) hl)).congr fun i _ => ?_
    exact symElem_one he _ _ _ _
  · refine lines_run hlC _ fun l hl m'' ho' => ?_
    have ho2 := ho'.mono (P' := full r c) fun i j hp => ⟨hp.1.trans hl, hp.2⟩
    have hB2 : MatAt m'' B .rowMajor ldB (full r c) QB := hB'.only ho2 hdB
    refine (symv_fl (alpha := alpha) (beta := 1) (hA'.only ho2 hdA) (vecAt_row hB2 hl) (vecAt_row' hV hlC hl ho') (by decide)
      (disj_row hdA hl) (disj_rowVec (disj_row hdB hl) hl)).congr fun i _ => ?_
    exact symElem_one he _ _ _ _

theorem symmElem_err (he : f.emin ≤ 0) {S : Nat → Nat → Fl f} (hS : ∀ i j, S i j = S j i) {i j : Nat} (h : full r c i j) :
    |(symmElem s u r c alpha beta S QB QC i j).val - (beta.val * (QC i j).val +
        alpha.val * sideMul s r c (fun i l => (S i l).val) (fun l j => (QB l j).val) i j)| ≤
      ((1 + unitRoundoff f) ^ (sideDim s r c + 4) - 1) * (|beta.val * (QC i j).val| +
        |alpha.val| * sideMul s r c (fun i l => |(S i l).val|) (fun l j => |(QB l j).val|) i j) +
      (4 + sideDim s r c * |alpha.val|) * (1 + unitRoundoff f) ^ (sideDim s r c + 4) * halfTiny f := by
  obtain ⟨h1, h2⟩ := h
  cases s
  · have := symElem_err (u := u) (alpha := alpha) (beta := beta) he h1 (QC i j) (S i) (fun l => QB l j)
    simp only [abs_mul] at this
    simp only [abs_mul]
    exact this
  · have := symElem_err (u := u) (alpha := alpha) (beta := beta) he h2 (QC i j) (S j) (fun l => QB i l)
    simp only [abs_mul, mul_comm _ (QB i _).val, mul_comm _ |(QB i _).val|, hS j] at this
    simp only [abs_mul]
    exact this

/-- **C170** `symm` in floating point, for all orders, sides and triangles: each element of `beta C + alpha S B` or `beta C + alpha B S` is right up
to `n + 4` roundings of the sum of the magnitudes of its terms, `n` being the order of `S`. The other triangle is not read, nor the old `C` with
`beta = 0`. -/
theorem C170_symm (he : f.emin ≤ 0) (hA : MatAt m A o ldA (tri u (sideDim s r c)) QA) (hB : MatAt m B o ldB (full r c) QB)
    (hC : MatMem m C o ldC (full r c)) (hb : beta ≠ 0 → MatAt m C o ldC (full r c) QC)
    (hlB : LdOk o ldB r c) (hlC : LdOk o ldC r c)
    (hdA : StDisj (matAd A o ldA) (tri u (sideDim s r c)) (matAd C o ldC) (full r c))
    (hdB : StDisj (matAd B o ldB) (full r c) (matAd C o ldC) (full r c)) :
    ∃ W, YieldsMat (symm o s u r c alpha A ldA B ldB beta C ldC) m C o ldC (full r c) W ∧ ∀ i j, full r c i j →
      |(W i j).val - (beta.val * (QC i j).val +
          alpha.val * sideMul s r c (fun i l => (symM u QA i l).val) (fun l j => (QB l j).val) i j)| ≤
        ((1 + unitRoundoff f) ^ (sideDim s r c + 4) - 1) * (|beta.val * (QC i j).val| +
          |alpha.val| * sideMul s r c (fun i l => |(symM u QA i l).val|) (fun l j => |(QB l j).val|) i j) +
        (4 + sideDim s r c * |alpha.val|) * (1 + unitRoundoff f) ^ (sideDim s r c + 4) * halfTiny f := by
  cases o
  · exact ⟨_, symmRow_fl he hA hB hC hb hlB hlC hdA hdB, fun i j h => symmElem_err he (symM_commF u QA) h⟩
  · have hC' := matMem_col.1 hC
    have hdA' := stDisj_col hdA
    have hdB' := stDisj_col hdB
    rw [matAt_col, sw_tri, ← sideDim_flip] at hA
    rw [matAt_col, sw_full] at hB
    rw [sw_full] at hC'
    rw [sw_tri, sw_full, ← sideDim_flip] at hdA'
    rw [sw_full] at hdB'
    have := symmRow_fl (alpha := alpha) he hA hB hC' (fun h => by have := matAt_col.1 (hb h); rwa [sw_full] at this) hlB hlC hdA' hdB'
    rw [sw_symM] at this
    have e : symmElem s.flip u.flip c r alpha beta (symM u QA) (sw QB) (sw QC) =
        sw (symmElem s u.flip r c alpha beta (symM u QA) QB QC) := by
      funext i j
      cases s <;> rfl
    rw [e] at this
    refine ⟨symmElem s u.flip r c alpha beta (symM u QA) QB QC, yieldsMat_col (by rw [sw_full]; exact this), fun i j h => ?_⟩
    exact symmElem_err he (symM_commF u QA) h

/-! ### A difference -/

/-- The row `2^-27, 2^-27, 2^-27, 2^-27` at 0 and a one at 20. -/
def exRankFl : Mem (Fl binary64) := fun p =>
  if 0 ≤ p ∧ p < 4 then .val (.round _ (1 / 2 ^ 27)) else if p = 20 then .val (.round _ 1) else .out

/-- **C170** `syrk` and `gemm` do not give the same bits for `C + A Aᵀ`: four terms `2^-54` are lost when they are added to one by one. -/
theorem C170_gemm :
    peek (syrk .rowMajor .upper noTrans 1 4 (.round binary64 1) 0 4 (.round _ 1) 20 1 exRankFl) (fun _ m => m 20) = .ok (.val (.round _ 1)) ∧
    peek (gemm .rowMajor noTrans doTrans 1 1 4 (.round binary64 1) 0 4 0 4 (.round _ 1) 20 1 exRankFl) (fun _ m => m 20) =
      .ok (.val (.round _ (1 + 1 / 2 ^ 52))) := by
  refine ⟨by decide +kernel, by decide +kernel⟩

/-- The hypotheses of `C170_syrk` hold for this call. -/
example : MatAt exRankFl 0 .rowMajor 4 (full (opRows noTrans 1 4) (opCols noTrans 1 4)) (fun _ _ => .round _ (1 / 2 ^ 27)) ∧
    MatAt exRankFl 20 .rowMajor 1 (tri .upper 1) (fun _ _ => .round _ 1) ∧ LdOk .rowMajor 4 (opRows noTrans 1 4) (opCols noTrans 1 4) ∧
    StDisj (matAd 0 .rowMajor 4) (full (opRows noTrans 1 4) (opCols noTrans 1 4)) (matAd 20 .rowMajor 1) (tri .upper 1) := by
  refine ⟨fun i j h => ?_, fun i j h => ?_, by unfold LdOk; decide, fun i j k l h h' => ?_⟩
  · obtain ⟨h1, h2⟩ := h
    have h1 : i < 1 := h1
    have h2 : j < 4 := h2
    interval_cases i; interval_cases j <;> rfl
  · obtain ⟨h1, h2, -⟩ := h
    interval_cases i; interval_cases j; rfl
  · obtain ⟨h1, h2⟩ := h
    obtain ⟨h3, h4, -⟩ := h'
    have h1 : i < 1 := h1
    have h2 : j < 4 := h2
    interval_cases i; interval_cases k; interval_cases l; interval_cases j <;> decide

/-- The hypotheses of `C170_symm` hold: the matrix of ones, whose lower triangle is not used, times `v` is added to `w`. -/
example (v w : Nat → ℚ) : MatAt (exSymFl v w) 0 .rowMajor 2 (tri .upper (sideDim .left 2 1)) (fun _ _ => .round _ 1) ∧
    MatAt (exSymFl v w) 10 .rowMajor 1 (full 2 1) (fun i _ => .round _ (v i)) ∧
    MatAt (exSymFl v w) 20 .rowMajor 1 (full 2 1) (fun i _ => .round _ (w i)) ∧
    StDisj (matAd 0 .rowMajor 2) (tri .upper (sideDim .left 2 1)) (matAd 20 .rowMajor 1) (full 2 1) ∧
    StDisj (matAd 10 .rowMajor 1) (full 2 1) (matAd 20 .rowMajor 1) (full 2 1) := by
  refine ⟨(exSymFl_ok .upper v w).1, fun i j h => ?_, fun i j h => ?_, fun i j k l h h' => ?_, fun i j k l h h' => ?_⟩
  · obtain ⟨h1, h2⟩ := h
    interval_cases j; interval_cases i <;> rfl
  · obtain ⟨h1, h2⟩ := h
    interval_cases j; interval_cases i <;> rfl
  · obtain ⟨h1, h2, -⟩ := h
    obtain ⟨h3, h4⟩ := h'
    have h1 : i < 2 := h1
    have h2 : j < 2 := h2
    interval_cases l; interval_cases i <;> interval_cases j <;> interval_cases k <;> decide
  · obtain ⟨h1, h2⟩ := h
    obtain ⟨h3, h4⟩ := h'
    interval_cases l; interval_cases j; interval_cases i <;> interval_cases k <;> decide

/-- The hypotheses of `C170_syr2k` hold: the matrix of ones is updated with `v` and `w`. -/
example (v w : Nat → ℚ) : MatAt (exSymFl v w) 10 .rowMajor 1 (full (opRows noTrans 2 1) (opCols noTrans 2 1)) (fun i _ => .round _ (v i)) ∧
    MatAt (exSymFl v w) 20 .rowMajor 1 (full (opRows noTrans 2 1) (opCols noTrans 2 1)) (fun i _ => .round _ (w i)) ∧
    MatAt (exSymFl v w) 0 .rowMajor 2 (tri .upper 2) (fun _ _ => .round _ 1) ∧
    StDisj (matAd 10 .rowMajor 1) (full (opRows noTrans 2 1) (opCols noTrans 2 1)) (matAd 0 .rowMajor 2) (tri .upper 2) ∧
    StDisj (matAd 20 .rowMajor 1) (full (opRows noTrans 2 1) (opCols noTrans 2 1)) (matAd 0 .rowMajor 2) (tri .upper 2) := by
  refine ⟨fun i j h => ?_, fun i j h => ?_, (exSymFl_ok .upper v w).1, fun i j k l h h' => ?_, fun i j k l h h' => ?_⟩
  · obtain ⟨h1, h2⟩ := h
    have h1 : i < 2 := h1
    have h2 : j < 1 := h2
    interval_cases j; interval_cases i <;> rfl
  · obtain ⟨h1, h2⟩ := h
    have h1 : i < 2 := h1
    have h2 : j < 1 := h2
    interval_cases j; interval_cases i <;> rfl
  · obtain ⟨h1, h2⟩ := h
    obtain ⟨h3, h4, -⟩ := h'
    have h1 : i < 2 := h1
    have h2 : j < 1 := h2
    interval_cases j; interval_cases i <;> interval_cases k <;> interval_cases l <;> decide
  · obtain ⟨h1, h2⟩ := h
    obtain ⟨h3, h4, -⟩ := h'
    have h1 : i < 2 := h1
    have h2 : j < 1 := h2
    interval_cases j; interval_cases i <;> interval_cases k <;> interval_cases l <;> decide

end Verif.Blas
