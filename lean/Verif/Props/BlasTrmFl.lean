import Verif.Lemmas.BlasTriFl
import Verif.Props.BlasTrsmFl

/-!
# C164: products with triangular matrices in floating point
-/

namespace Verif.Blas

open Finset Verif.Ieee

variable {f : Fmt} {o : Order} {s : Side} {u : UpLo} {t : Trans} {d : Diag} {n r c : Nat} {A ld x incX ldA B ldB : Int} {m : Mem (Fl f)}
  {Q QA QB : Nat → Nat → Fl f} {xv : Nat → Fl f} {alpha : Fl f}

theorem fl_add_zero (a : Fl f) : a + 0 = a := by
  obtain ⟨v, hv⟩ := a
  change Fl.round f (v + 0) = _
  unfold Fl.round
  congr 1
  rw [add_zero, rnd_of_repr hv]

theorem fl_mul_zero (a : Fl f) : a * 0 = 0 := by
  change Fl.round f (a.val * 0) = ⟨0, _⟩
  unfold Fl.round
  congr 1
  rw [mul_zero, rnd_zero]

theorem sumBound_mono {k : Nat} {T : ℚ} (hT : 0 ≤ T) (h : k ≤ n) : sumBound f k T ≤ sumBound f n T := by
  unfold sumBound
  have hp := pow_unit_mono f h
  have h1 := one_le_pow_unit f k
  have hk : (k : ℚ) ≤ n := by exact_mod_cast h
  have k0 : (0 : ℚ) ≤ k := Nat.cast_nonneg k
  exact add_le_add (mul_le_mul_of_nonneg_right (by linarith) hT)
    (mul_le_mul_of_nonneg_right (mul_le_mul hk hp (by linarith) (by linarith)) (tiny_pos f).le)

/-- The terms that a loop over a row sums are those of the row. -/
theorem row_terms {trans cc : Bool} {i : Nat} (hi : i < n) (hd : d = .nonUnit) (g : ℚ → ℚ) (h0 : g 0 = 0) :
    ∑ j ∈ range n, g ((triOp u trans cc d Q i j).val * (xv j).val) =
      if triUp u trans then ∑ k ∈ range (n - i), g ((triE trans cc Q i (i + k)).val * (xv (i + k)).val)
      else ∑ k ∈ range (i + 1), g ((triE trans cc Q i k).val * (xv k).val) := by
  have hdd : triOp u trans cc d Q i i = triE trans cc Q i i := by simp [triOp, hd]
  cases hup : triUp u trans
  · simp only [Bool.false_eq_true, if_false]
    rw [sum_split_at hi, hdd, sum_range_succ]
    have e1 : ∑ k ∈ range (n - i - 1), g ((triOp u trans cc d Q i (i + 1 + k)).val * (xv (i + 1 + k)).val) = 0 := by
      refine sum_eq_zero fun k _ => ?_
      have : ¬ i + 1 + k < i := by omega
      simp [triOp, hup, show i ≠ i + 1 + k by omega, this, val_zero, h0]
    rw [e1, add_zero]
    congr 1
    refine sum_congr rfl fun k hk => ?_
    rw [mem_range] at hk
    simp [triOp, hup, show i ≠ k by omega, hk]
  · simp only [if_true]
    rw [sum_split_at hi, hdd, show n - i = n - i - 1 + 1 by omega, sum_range_succ']
    have e1 : ∑ k ∈ range i, g ((triOp u trans cc d Q i k).val * (xv k).val) = 0 := by
      refine sum_eq_zero fun k hk => ?_
      rw [mem_range] at hk
      have : ¬ i < k := by omega
      simp [triOp, hup, show i ≠ k by omega, this, val_zero, h0]
    rw [e1, zero_add, add_comm]
    congr 1
    refine sum_congr rfl fun k _ => ?_
    have : i < i + (k + 1) := by omega
    rw [show i + 1 + k = i + (k + 1) by omega]
    simp [triOp, hup, this]

/-- One element of the product. -/
theorem prod_error (he : f.emin ≤ 0) {trans cc : Bool} {i : Nat} (hi : i < n) :
    |(prodRow u trans cc d n Q xv i).val - ∑ j ∈ range n, (triOp u trans cc d Q i j).val * (xv j).val| ≤
      sumBound f n (∑ j ∈ range n, |(triOp u trans cc d Q i j).val * (xv j).val|) := by
  cases d
  · obtain ⟨k, a, z, hk, hs, hg⟩ := row_split (u := u) (d := .unit) (Q := Q) (trans := trans) (c := cc) (xs := xv) he hi
    have e : prodRow u trans cc .unit n Q xv i = xv i + dotL k a z := by
      rw [← hs]
      unfold prodRow solveSum
      cases triUp u trans <;> simp
    have h1 := hg id rfl
    have h2 := hg (fun q => |q|) abs_zero
    simp only [id, if_true, one_mul] at h1 h2
    rw [e, h1, h2]
    have hT : (0 : ℚ) ≤ ∑ l ∈ range k, |(a l).val * (z l).val| := sum_nonneg fun _ _ => abs_nonneg _
    refine le_trans ?_ (sumBound_mono (k := k + 1) (by have := abs_nonneg (xv i).val; linarith) (by omega))
    have hE := dotL_error k a z
    have hM : |∑ l ∈ range k, (a l).val * (z l).val| ≤ ∑ l ∈ range k, |(a l).val * (z l).val| := abs_sum_le_sum_abs _ _
    have hA := rnd_add_err (xv i).repr (dotL k a z).repr
    change |rnd f ((xv i).val + (dotL k a z).val) - _| ≤ _
    generalize rnd f ((xv i).val + (dotL k a z).val) = V at *
    generalize (dotL k a z).val = D at *
    generalize (xv i).val = X at *
    generalize ∑ l ∈ range k, (a l).val * (z l).val = S at *
    generalize ∑ l ∈ range k, |(a l).val * (z l).val| = T at *
    unfold sumBound at *
    have u0 := (unit_pos f).le
    have hh := (tiny_pos f).le
    have hP := one_le_pow_unit f k
    rw [pow_succ]
    generalize (1 + unitRoundoff f) ^ k = P at *
    generalize unitRoundoff f = v at *
    generalize halfTiny f = h at *
    have k0 : (0 : ℚ) ≤ k := Nat.cast_nonneg k
    push_cast
    generalize (k : ℚ) = κ at *
    have t1 : |V - (X + S)| ≤ |V - (X + D)| + |D - S| := by
      have : V - (X + S) = (V - (X + D)) + (D - S) := by ring
      rw [this]
      exact abs_add_le _ _
    have t2 : |X + D| ≤ |X| + (T + |D - S|) := by
      have : X + D = X + (S + (D - S)) := by ring
      rw [this]
      refine (abs_add_le _ _).trans (add_le_add_right ((abs_add_le _ _).trans (add_le_add_left hM _)) _)
    have x0 := abs_nonneg X
    have m1 := mul_le_mul_of_nonneg_left (t2.trans (add_le_add_right (add_le_add_right hE T) |X|)) u0
    have m2 : 0 ≤ (P - 1) * |X| := mul_nonneg (by linarith) x0
    have m3 : 0 ≤ v * ((P - 1) * |X|) := mul_nonneg u0 m2
    have m4 : 0 ≤ P * h := mul_nonneg (by linarith) hh
    have m5 : 0 ≤ v * (P * h) := mul_nonneg u0 m4
    nlinarith
  · have h1 := row_terms (u := u) (Q := Q) (xv := xv) (trans := trans) (cc := cc) hi rfl id rfl
    have h2 := row_terms (u := u) (Q := Q) (xv := xv) (trans := trans) (cc := cc) hi rfl (fun q => |q|) abs_zero
    simp only [id] at h1
    rw [h1, h2]
    unfold prodRow
    cases triUp u trans
    · simp only [reduceCtorEq, Bool.false_eq_true, if_false]
      exact (dotL_error _ _ _).trans (sumBound_mono (sum_nonneg fun _ _ => abs_nonneg _) (by omega))
    · simp only [reduceCtorEq, if_false, if_true]
      exact (dotL_error _ _ _).trans (sumBound_mono (sum_nonneg fun _ _ => abs_nonneg _) (by omega))

/-- **C164** `trmv` in floating point, for all orders, triangles, transpositions, conjugations and diagonals: each element of the product is right
up to `n` roundings of the sum of the magnitudes of its terms, and what is lost below the normal range. Nothing else changes. -/
theorem C164_trmv (he : f.emin ≤ 0) (hA : MatAt m A o ld (stored u d n) Q) (hx : VecAt m x incX n xv) (hi : incX ≠ 0)
    (hdA : MatVecDisj A o ld (stored u d n) x incX n) :
    ∃ v, Yields (trmv o u t d n A ld x incX) m x incX n v ∧ ∀ i, i < n →
      |(v i).val - ∑ j ∈ range n, (opM t (triM u d Q) i j).val * (xv j).val| ≤
        ((1 + unitRoundoff f) ^ n - 1) * ∑ j ∈ range n, |(opM t (triM u d Q) i j).val * (xv j).val| +
        n * (1 + unitRoundoff f) ^ n * halfTiny f := by
  rw [← triOp_eq t u d Q rfl rfl]
  cases o
  swap
  · rw [matAt_col, sw_stored] at hA
    rw [matVecDisj_col, sw_stored] at hdA
    refine ⟨_, yields_of_over hi (trmvRow_ops (trans := t.flip.trans) (c := t.flip.conj) fl_add_zero hA hx hi hdA), fun i hin => ?_⟩
    have := prod_error (u := u.flip) (d := d) (Q := sw Q) (xv := xv) (trans := t.flip.trans) (cc := t.flip.conj) he hin
    rw [triOp_flip] at this
    exact this
  · exact ⟨_, yields_of_over hi (trmvRow_ops (trans := t.trans) (c := t.conj) fl_add_zero hA hx hi hdA), fun i hin => prod_error he hin⟩

/-- `V` is `op(T) B` (or `B op(T)`) up to `n` roundings of the sum of the magnitudes of the terms of each element, and what is lost below the
normal range; `n` is the order of the matrix. -/
def ProdF (s : Side) (r c : Nat) (T B V : Nat → Nat → Fl f) : Prop := ∀ i j, full r c i j →
  |(V i j).val - sideMul s r c (valM T) (valM B) i j| ≤
    ((1 + unitRoundoff f) ^ sideDim s r c - 1) * sideMul s r c (absM T) (absM B) i j +
    sideDim s r c * (1 + unitRoundoff f) ^ sideDim s r c * halfTiny f

theorem scalInit_runF {n : Nat} {y incY : Int} {yv : Nat → Fl f} (hy : VecAt m y incY n yv) (hi : incY ≠ 0) :
    scalInit n alpha y incY m = .ok ((), over m (elem y incY n) (fun i => yv i * alpha) (below n)) := by
  by_cases h : alpha = 0
  · subst h
    rw [scalInit_zero_run hy.mem hi]
    simp only [fl_mul_zero]
  · have h1 : scalInit n alpha y incY = scal n alpha y incY := by
      unfold scalInit scalInitGeneric scal
      rw [if_neg h]
    rw [h1, scal_run hy hi]

theorem gescalInit_rowF (hA : MatAt m B .rowMajor ldB (full r c) Q) (hld : (c : Int) ≤ ldB) :
    YieldsMat (gescalInit .rowMajor r c alpha B ldB) m B .rowMajor ldB (full r c) fun i j => Q i j * alpha := by
  refine gescalRow_run (sc := fun n => scalInit n alpha) hld (fun h => ?_) fun i hi m' ho => ?_
  · subst h
    exact yields_of_over (by decide) (scalInit_runF (vecAt_full hA) (by decide))
  · exact yields_of_over (by decide) (scalInit_runF (vecAt_row' hA hld hi ho) (by decide))

theorem trmmRow_runF (he : f.emin ≤ 0)
    (hA : MatAt m A .rowMajor ldA (stored u d (sideDim s r c)) QA) (hB : MatAt m B .rowMajor ldB (full r c) QB)
    (hlB : (c : Int) ≤ ldB)
    (hdA : StDisj (matAd A .rowMajor ldA) (stored u d (sideDim s r c)) (matAd B .rowMajor ldB) (full r c)) :
    ∃ V, YieldsMat (trmmRow s u t d r c alpha A ldA B ldB) m B .rowMajor ldB (full r c) (fun i j => V i j * alpha) ∧
      ProdF s r c (opM t (triM u d QA)) QB V := by
  have hA0 : StAt m (matAd A .rowMajor ldA) (stored u d (sideDim s r c)) QA := hA
  have fin : ∀ (c1 : M (Fl f) Unit) V, YieldsMat c1 m B .rowMajor ldB (full r c) V →
      YieldsMat (do c1; gescalInit .rowMajor r c alpha B ldB) m B .rowMajor ldB (full r c) fun i j => V i j * alpha :=
    fun c1 V h => h.bind fun m' hW _ => gescalInit_rowF hW hlB
  cases s
  · obtain ⟨V, h1, h2⟩ := cols_ex (m := m) (C := B)
      (fun l v => ∀ i, i < r → |(v i).val - ∑ j ∈ range r, (opM t (triM u d QA) i j).val * (QB j l).val| ≤
        ((1 + unitRoundoff f) ^ r - 1) * ∑ j ∈ range r, |(opM t (triM u d QA) i j).val * (QB j l).val| +
        r * (1 + unitRoundoff f) ^ r * halfTiny f) hlB
      (fun j => trmv .rowMajor u t d r A ldA (B + j) ldB) fun l hl m' ho => by
        have ho2 := ho.mono (P' := full r c) fun i j hp => ⟨hp.1, hp.2.trans hl⟩
        exact C164_trmv he (hA0.only ho2 hdA) (vecAt_col' hB hlB hl ho) (by omega) (disj_col hdA (by omega) hl)
    refine ⟨V, fin _ V h1, fun i j hp => ?_⟩
    have := h2 j hp.2 i hp.1
    simp only [abs_mul] at this
    exact this
  · obtain ⟨V, h1, h2⟩ := lines_ex (m := m) (C := B)
      (fun l v => ∀ i, i < c → |(v i).val - ∑ j ∈ range c, (opM t.flip (triM u d QA) i j).val * (QB l j).val| ≤
        ((1 + unitRoundoff f) ^ c - 1) * ∑ j ∈ range c, |(opM t.flip (triM u d QA) i j).val * (QB l j).val| +
        c * (1 + unitRoundoff f) ^ c * halfTiny f) hlB
      (fun i => trmv .rowMajor u t.flip d c A ldA (B + i * ldB) 1) fun l hl m' ho => by
        have ho2 := ho.mono (P' := full r c) fun i j hp => ⟨hp.1.trans hl, hp.2⟩
        exact C164_trmv he (hA0.only ho2 hdA) (vecAt_row' hB hlB hl ho) (by decide) (disj_row hdA hl)
    refine ⟨V, fin _ V h1, fun i j hp => ?_⟩
    have := h2 i hp.1 j hp.2
    simp only [abs_mul, opM_flip'] at this
    simp only [mul_comm (Fl.val (opM _ _ _ _)), mul_comm |Fl.val (opM _ _ _ _)|] at this
    exact this

theorem ProdF.sw {T V Q : Nat → Nat → Fl f} (h : ProdF s.flip c r (sw T) (sw Q) V) : ProdF s r c T Q (sw V) := by
  intro i j hp
  have := h j i ⟨hp.2, hp.1⟩
  have e1 : ∀ M : Nat → Nat → Fl f, valM (Blas.sw M) = Blas.sw (valM M) := fun _ => rfl
  have e2 : ∀ M : Nat → Nat → Fl f, absM (Blas.sw M) = Blas.sw (absM M) := fun _ => rfl
  rw [sideDim_flip, e1 T, e1 Q, e2 T, e2 Q, sideMul_sw, sideMul_sw] at this
  exact this

/-- **C164** `trmm` in floating point, for all orders, sides, triangles, transpositions and diagonals: the matrix left in `B` is `alpha V`, each
element rounded once, where `V` is the product up to `n` roundings of the sum of the magnitudes of the terms. Nothing else changes. -/
theorem C164_trmm (he : f.emin ≤ 0)
    (hA : MatAt m A o ldA (stored u d (sideDim s r c)) QA) (hB : MatAt m B o ldB (full r c) QB) (hlB : LdOk o ldB r c)
    (hdA : StDisj (matAd A o ldA) (stored u d (sideDim s r c)) (matAd B o ldB) (full r c)) :
    ∃ V, YieldsMat (trmm o s u t d r c alpha A ldA B ldB) m B o ldB (full r c) (fun i j => V i j * alpha) ∧
      ProdF s r c (opM t (triM u d QA)) QB V := by
  cases o
  · exact trmmRow_runF he hA hB hlB hdA
  · have hdA' := stDisj_col hdA
    rw [matAt_col, sw_stored, ← sideDim_flip] at hA
    rw [matAt_col, sw_full] at hB
    rw [sw_stored, sw_full, ← sideDim_flip] at hdA'
    obtain ⟨V, h1, h2⟩ := trmmRow_runF (t := t) (alpha := alpha) he hA hB hlB hdA'
    refine ⟨sw V, yieldsMat_col (by rw [sw_full]; exact h1), ?_⟩
    rw [triM_sw, sw_opM] at h2
    exact h2.sw

/-- **C164** The matrix left in `B` is `alpha op(T) B` or `alpha B op(T)`: one more rounding. What is lost below the normal range is multiplied by
`alpha`. -/
theorem C164_error {T V Q : Nat → Nat → Fl f} (h : ProdF s r c T Q V) (alpha : Fl f) (i j : Nat) (hp : full r c i j) :
    |(V i j * alpha).val - alpha.val * sideMul s r c (valM T) (valM Q) i j| ≤
      ((1 + unitRoundoff f) ^ (sideDim s r c + 1) - 1) * (|alpha.val| * sideMul s r c (absM T) (absM Q) i j) +
      |alpha.val| * (sideDim s r c * (1 + unitRoundoff f) ^ (sideDim s r c + 1) * halfTiny f) + halfTiny f := by
  have h1 := h i j hp
  have hS : |sideMul s r c (valM T) (valM Q) i j| ≤ sideMul s r c (absM T) (absM Q) i j := by
    have key : ∀ (n : Nat) (a v : Nat → ℚ), |∑ k ∈ range n, a k * v k| ≤ ∑ k ∈ range n, |a k| * |v k| := fun n a v =>
      (abs_sum_le_sum_abs _ _).trans (le_of_eq (sum_congr rfl fun _ _ => abs_mul _ _))
    cases s
    · exact key r (valM T i) fun k => valM Q k j
    · exact key c (valM Q i) fun k => valM T k j
  have h2 := rnd_err f ((V i j).val * alpha.val)
  change |rnd f ((V i j).val * alpha.val) - _| ≤ _
  generalize rnd f ((V i j).val * alpha.val) = X at *
  generalize sideMul s r c (absM T) (absM Q) i j = S at *
  generalize sideMul s r c (valM T) (valM Q) i j = E at *
  generalize (V i j).val = W at *
  generalize alpha.val = α at *
  have hP := one_le_pow_unit f (sideDim s r c)
  rw [pow_succ]
  have u0 := (unit_pos f).le
  have N0 : (0 : ℚ) ≤ (sideDim s r c : ℚ) := Nat.cast_nonneg _
  have hh := (tiny_pos f).le
  generalize (1 + unitRoundoff f) ^ sideDim s r c = P at *
  generalize unitRoundoff f = v at *
  generalize halfTiny f = h at *
  generalize (sideDim s r c : ℚ) = N at *
  have a0 := abs_nonneg α
  have w1 : |W| ≤ S + ((P - 1) * S + N * P * h) := by
    have : W = E + (W - E) := by ring
    rw [this]
    exact (abs_add_le _ _).trans (add_le_add hS h1)
  have t1 : |X - α * E| ≤ |X - W * α| + |α| * |W - E| := by
    have : X - α * E = (X - W * α) + α * (W - E) := by ring
    rw [this]
    refine (abs_add_le _ _).trans (le_of_eq ?_)
    rw [abs_mul α]
  rw [abs_mul W] at h2
  have m1 := mul_le_mul_of_nonneg_left h1 a0
  have m2 := mul_le_mul_of_nonneg_left (mul_le_mul_of_nonneg_right w1 a0) u0
  refine t1.trans ((add_le_add (h2.trans (add_le_add_left m2 h)) m1).trans (le_of_eq ?_))
  ring

/-- **C164** in full: what is lost below the normal range is not multiplied by `alpha`. -/
def C164Claim : Prop := ∀ (s : Side) (u : UpLo) (t : Trans) (d : Diag) (r c : Nat) (alpha : Fl binary64) (A ldA B ldB : Int)
    (m : Mem (Fl binary64)) (QA QB X : Nat → Nat → Fl binary64),
    MatAt m A .rowMajor ldA (stored u d (sideDim s r c)) QA → MatAt m B .rowMajor ldB (full r c) QB → (c : Int) ≤ ldB →
    StDisj (matAd A .rowMajor ldA) (stored u d (sideDim s r c)) (matAd B .rowMajor ldB) (full r c) →
    YieldsMat (trmm .rowMajor s u t d r c alpha A ldA B ldB) m B .rowMajor ldB (full r c) X →
    ∀ i j, full r c i j → |(X i j).val - alpha.val * sideMul s r c (valM (opM t (triM u d QA))) (valM QB) i j| ≤
      ((1 + unitRoundoff binary64) ^ (sideDim s r c + 1) - 1) * (|alpha.val| * sideMul s r c (absM (opM t (triM u d QA))) (absM QB) i j) +
      (sideDim s r c + 1) * (1 + unitRoundoff binary64) ^ (sideDim s r c + 1) * halfTiny binary64

/-- A matrix of order one, `2^-600`, and the number `2^-600` to be multiplied by it. -/
def exTiny : Mem (Fl binary64) := fun a =>
  if a = 0 then .val (.round _ (1 / 2 ^ 600)) else if a = 10 then .val (.round _ (1 / 2 ^ 600)) else .out

/-- **C164** The product is scaled last: with `alpha = 2^600` the product `2^-600 · 2^-600` underflows, and zero is left where the result is
`2^-600`. Scaling first gives it exactly. -/
theorem C164_scaleLast :
    peek (trmm .rowMajor .left .upper noTrans .nonUnit 1 1 (.round binary64 (2 ^ 600)) 0 1 10 1 exTiny) (fun _ m => m 10) =
      .ok (.val (.round _ 0)) ∧
    peek ((do gescal .rowMajor 1 1 (.round binary64 (2 ^ 600)) 10 1
              trmm .rowMajor .left .upper noTrans .nonUnit 1 1 (.round binary64 1) 0 1 10 1 : M (Fl binary64) Unit) exTiny)
        (fun _ m => m 10) = .ok (.val (.round _ (1 / 2 ^ 600))) := by
  refine ⟨by decide +kernel, by decide +kernel⟩

theorem exTiny_ok : MatAt exTiny 0 .rowMajor 1 (stored .upper .nonUnit (sideDim .left 1 1)) (fun _ _ => .round _ (1 / 2 ^ 600)) ∧
    MatAt exTiny 10 .rowMajor 1 (full 1 1) (fun _ _ => .round _ (1 / 2 ^ 600)) ∧
    StDisj (matAd 0 .rowMajor 1) (stored .upper .nonUnit (sideDim .left 1 1)) (matAd 10 .rowMajor 1) (full 1 1) := by
  refine ⟨fun i j h => ?_, fun i j h => ?_, exScale_ok.2.2⟩
  · obtain ⟨⟨h1, h2, -⟩, -⟩ := h
    change i < 1 at h1
    change j < 1 at h2
    interval_cases i; interval_cases j; rfl
  · obtain ⟨h1, h2⟩ := h
    interval_cases i; interval_cases j; rfl

theorem C164_false : ¬ C164Claim := by
  intro h
  obtain ⟨hA, hB, hd⟩ := exTiny_ok
  obtain ⟨V, hV, -⟩ := C164_trmm (t := noTrans) (alpha := .round binary64 (2 ^ 600)) (o := .rowMajor) (by decide) hA hB
    (show (1 : Int) ≤ 1 by decide) hd
  have hf : full 1 1 0 0 := ⟨by decide, by decide⟩
  have h1 := h .left .upper noTrans .nonUnit 1 1 _ 0 1 10 1 exTiny _ _ _ hA hB (by decide) hd hV 0 0 hf
  have h2 : V 0 0 * .round binary64 (2 ^ 600) = .round _ 0 := by
    obtain ⟨m', e, g, -⟩ := hV
    have := C164_scaleLast.1
    have g0 := g 0 0 hf
    simp only [peek, e] at this
    have e0 : (10 : Int) + idx .rowMajor 1 0 0 = 10 := by decide
    rw [e0] at g0
    rw [show (Out.ok ((), m') >>= fun p : Unit × Mem (Fl binary64) => Out.ok (p.2 10)) = Out.ok (m' 10) from rfl, g0] at this
    injection this with this
    injection this
  have key : ¬ |(Fl.round binary64 0).val - (Fl.round binary64 (2 ^ 600)).val *
        ((Fl.round binary64 (1 / 2 ^ 600)).val * (Fl.round binary64 (1 / 2 ^ 600)).val)| ≤
      ((1 + unitRoundoff binary64) ^ 2 - 1) * (|(Fl.round binary64 (2 ^ 600)).val| *
        (|(Fl.round binary64 (1 / 2 ^ 600)).val| * |(Fl.round binary64 (1 / 2 ^ 600)).val|)) +
      (1 + 1) * (1 + unitRoundoff binary64) ^ 2 * halfTiny binary64 := by decide +kernel
  have e2 : opM noTrans (triM .upper .nonUnit fun _ _ => Fl.round binary64 (1 / 2 ^ 600)) 0 0 = .round binary64 (1 / 2 ^ 600) := rfl
  simp only [sideMul, sideDim, range_one, sum_singleton, valM, absM, h2, e2, Nat.cast_one] at h1
  exact key h1

/-- The hypotheses are met by a matrix of order two, and the product is inexact. -/
example : MatAt exTriFl 0 .rowMajor 3 (stored .upper .nonUnit 2) (fun i j => .round _ (if i = 1 then 7 else if j = 0 then 3 else 1 / 10)) ∧
    VecAt exTriFl 10 2 2 (fun i => .round _ ((i : ℚ) + 1)) ∧
    peek (trmv .rowMajor .upper noTrans .nonUnit 2 0 3 10 2 exTriFl) (fun _ m => (m 10, m 12)) =
      .ok (.val (.round binary64 (32 / 10)), .val (.round binary64 14)) := by
  refine ⟨fun i j h => ?_, fun i h => ?_, by decide +kernel⟩
  · obtain ⟨⟨h1, h2, h3⟩, -⟩ := h
    interval_cases i <;> interval_cases j <;> first | (simp [exTriFl, idx]; done) | (exact absurd h3 (by decide))
  · interval_cases i
    · simp [exTriFl, elem]
    · norm_num [exTriFl, elem]

end Verif.Blas
