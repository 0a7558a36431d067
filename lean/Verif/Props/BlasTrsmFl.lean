import Verif.Props.BlasFl
import Verif.Props.Blas3Tri

/-!
# C160: triangular systems with many right-hand sides in floating point
-/

namespace Verif.Blas

open Finset Verif.Ieee

variable {f : Fmt} {o : Order} {s : Side} {u : UpLo} {t : Trans} {d : Diag} {r c : Nat} {A ldA B ldB : Int} {m : Mem (Fl f)}
  {QA QB : Nat → Nat → Fl f} {alpha : Fl f}

/-- The numbers in a matrix of floating-point numbers. -/
def valM (M : Nat → Nat → Fl f) (i j : Nat) : ℚ := (M i j).val

/-- Their magnitudes. -/
def absM (M : Nat → Nat → Fl f) (i j : Nat) : ℚ := |(M i j).val|

/-- The place on the diagonal that belongs to element `(i, j)` of the right-hand sides. -/
def sideDiag (s : Side) (i j : Nat) : Nat :=
  match s with
  | .left => i
  | .right => j

/-- `V` solves `op(T) V = B` (or `V op(T) = B`) up to `n + 1` roundings of the sum of the magnitudes of the terms of each equation;
`n` is the order of the matrix. The second term is what is lost below the normal range. -/
def SolvesF (s : Side) (r c : Nat) (T V B : Nat → Nat → Fl f) : Prop := ∀ i j, full r c i j →
  |sideMul s r c (valM T) (valM V) i j - (B i j).val| ≤
    ((1 + unitRoundoff f) ^ (sideDim s r c + 1) - 1) * sideMul s r c (absM T) (absM V) i j +
    (sideDim s r c + absM T (sideDiag s i j) (sideDiag s i j)) * (1 + unitRoundoff f) ^ (sideDim s r c + 1) * halfTiny f

/-- Scaling: one rounding for each element. -/
theorem gescal_rowF {Q : Nat → Nat → Fl f} (hA : MatAt m B .rowMajor ldB (full r c) Q) (hld : (c : Int) ≤ ldB) :
    YieldsMat (gescal .rowMajor r c alpha B ldB) m B .rowMajor ldB (full r c) fun i j => Q i j * alpha := by
  refine gescalRow_run (sc := fun n => scal n alpha) hld (fun h => ?_) fun i hi m' ho => ?_
  · subst h
    exact yields_of_over (by decide) (scal_run (vecAt_full hA) (by decide))
  · exact yields_of_over (by decide) (scal_run (vecAt_row' hA hld hi ho) (by decide))

theorem trsmRow_runF (he : f.emin ≤ 0)
    (hA : MatAt m A .rowMajor ldA (stored u d (sideDim s r c)) QA) (hB : MatAt m B .rowMajor ldB (full r c) QB)
    (hlB : (c : Int) ≤ ldB)
    (hdA : StDisj (matAd A .rowMajor ldA) (stored u d (sideDim s r c)) (matAd B .rowMajor ldB) (full r c))
    (hnz : d = .nonUnit → ∀ i, i < sideDim s r c → (QA i i).val ≠ 0) :
    ∃ V, YieldsMat (trsmRow s u t d r c alpha A ldA B ldB) m B .rowMajor ldB (full r c) (fun i j => V i j * alpha) ∧
      SolvesF s r c (opM t (triM u d QA)) V QB := by
  have hA0 : StAt m (matAd A .rowMajor ldA) (stored u d (sideDim s r c)) QA := hA
  have fin : ∀ (c1 : M (Fl f) Unit) V, YieldsMat c1 m B .rowMajor ldB (full r c) V →
      YieldsMat (do c1; gescal .rowMajor r c alpha B ldB) m B .rowMajor ldB (full r c) fun i j => V i j * alpha :=
    fun c1 V h => h.bind fun m' hW _ => gescal_rowF hW hlB
  cases s
  · obtain ⟨V, h1, h2⟩ := cols_ex (m := m) (C := B)
      (fun l v => ∀ i, i < r → |∑ j ∈ range r, (opM t (triM u d QA) i j).val * (v j).val - (QB i l).val| ≤
        ((1 + unitRoundoff f) ^ (r + 1) - 1) * ∑ j ∈ range r, |(opM t (triM u d QA) i j).val * (v j).val| +
        (r + |(opM t (triM u d QA) i i).val|) * (1 + unitRoundoff f) ^ (r + 1) * halfTiny f) hlB
      (fun j => trsv .rowMajor u t d r A ldA (B + j) ldB) fun l hl m' ho => by
        have ho2 := ho.mono (P' := full r c) fun i j hp => ⟨hp.1, hp.2.trans hl⟩
        exact C154_trsv he (hA0.only ho2 hdA) (vecAt_col' hB hlB hl ho) (by omega) (disj_col hdA (by omega) hl) hnz
    refine ⟨V, fin _ V h1, fun i j hp => ?_⟩
    have := h2 j hp.2 i hp.1
    simp only [abs_mul] at this
    exact this
  · obtain ⟨V, h1, h2⟩ := lines_ex (m := m) (C := B)
      (fun l v => ∀ i, i < c → |∑ j ∈ range c, (opM t.flip (triM u d QA) i j).val * (v j).val - (QB l i).val| ≤
        ((1 + unitRoundoff f) ^ (c + 1) - 1) * ∑ j ∈ range c, |(opM t.flip (triM u d QA) i j).val * (v j).val| +
        (c + |(opM t.flip (triM u d QA) i i).val|) * (1 + unitRoundoff f) ^ (c + 1) * halfTiny f) hlB
      (fun i => trsv .rowMajor u t.flip d c A ldA (B + i * ldB) 1) fun l hl m' ho => by
        have ho2 := ho.mono (P' := full r c) fun i j hp => ⟨hp.1.trans hl, hp.2⟩
        exact C154_trsv he (hA0.only ho2 hdA) (vecAt_row' hB hlB hl ho) (by decide) (disj_row hdA hl) hnz
    refine ⟨V, fin _ V h1, fun i j hp => ?_⟩
    have := h2 i hp.1 j hp.2
    simp only [abs_mul, opM_flip'] at this
    simp only [mul_comm (Fl.val (opM _ _ _ _)), mul_comm |Fl.val (opM _ _ _ _)|] at this
    exact this

theorem triM_sw (u : UpLo) (d : Diag) (Q : Nat → Nat → Fl f) : triM u.flip d (sw Q) = sw (triM u d Q) := by
  funext i j
  rcases lt_trichotomy i j with h | h | h
  · cases u <;> simp [triM, UpLo.flip, sw, h.ne, h.ne', h, not_lt.2 h.le]
  · subst h; cases d <;> simp [triM, sw]
  · cases u <;> simp [triM, UpLo.flip, sw, h.ne, h.ne', h, not_lt.2 h.le]

theorem SolvesF.sw {T V Q : Nat → Nat → Fl f} (h : SolvesF s.flip c r (sw T) V (sw Q)) : SolvesF s r c T (sw V) Q := by
  intro i j hp
  have := h j i ⟨hp.2, hp.1⟩
  have e1 : ∀ M : Nat → Nat → Fl f, valM (Blas.sw M) = Blas.sw (valM M) := fun _ => rfl
  have e2 : ∀ M : Nat → Nat → Fl f, absM (Blas.sw M) = Blas.sw (absM M) := fun _ => rfl
  rw [sideDim_flip, show V = Blas.sw (Blas.sw V) from rfl, e1 T, e1 (Blas.sw V), e2 T, e2 (Blas.sw V), sideMul_sw, sideMul_sw] at this
  have e3 : sideDiag s.flip j i = sideDiag s i j := by cases s <;> rfl
  rw [e3] at this
  exact this

/-- **C160** `trsm` in floating point, for all orders, sides, triangles, transpositions and diagonals: the matrix left in `B` is `alpha V`,
each element rounded once, for a `V` that satisfies each equation of `op(T) V = B` or `V op(T) = B` up to `n + 1` roundings of the sum of
the magnitudes of its terms. Nothing else changes. -/
theorem C160_trsm (he : f.emin ≤ 0)
    (hA : MatAt m A o ldA (stored u d (sideDim s r c)) QA) (hB : MatAt m B o ldB (full r c) QB) (hlB : LdOk o ldB r c)
    (hdA : StDisj (matAd A o ldA) (stored u d (sideDim s r c)) (matAd B o ldB) (full r c))
    (hnz : d = .nonUnit → ∀ i, i < sideDim s r c → (QA i i).val ≠ 0) :
    ∃ V, YieldsMat (trsm o s u t d r c alpha A ldA B ldB) m B o ldB (full r c) (fun i j => V i j * alpha) ∧
      SolvesF s r c (opM t (triM u d QA)) V QB := by
  cases o
  · exact trsmRow_runF he hA hB hlB hdA hnz
  · have hdA' := stDisj_col hdA
    rw [matAt_col, sw_stored, ← sideDim_flip] at hA
    rw [matAt_col, sw_full] at hB
    rw [sw_stored, sw_full, ← sideDim_flip] at hdA'
    rw [← sideDim_flip] at hnz
    obtain ⟨V, h1, h2⟩ := trsmRow_runF (t := t) (alpha := alpha) he hA hB hlB hdA' hnz
    refine ⟨sw V, yieldsMat_col (by rw [sw_full]; exact h1), ?_⟩
    rw [triM_sw, sw_opM] at h2
    exact h2.sw

/-- **C160** The matrix left in `B` satisfies `op(T) X = alpha B` or `X op(T) = alpha B`: one more rounding. -/
theorem C160_residual {T V Q : Nat → Nat → Fl f} (h : SolvesF s r c T V Q) (alpha : Fl f) (i j : Nat) (hp : full r c i j) :
    |sideMul s r c (valM T) (valM fun i j => V i j * alpha) i j - alpha.val * (Q i j).val| ≤
      ((1 + unitRoundoff f) ^ (sideDim s r c + 2) - 1) * (|alpha.val| * sideMul s r c (absM T) (absM V) i j) +
      |alpha.val| * ((sideDim s r c + absM T (sideDiag s i j) (sideDiag s i j)) * (1 + unitRoundoff f) ^ (sideDim s r c + 1) * halfTiny f) +
      sideMul s r c (absM T) (fun _ _ => 1) i j * halfTiny f := by
  have h1 := h i j hp
  have u0 := (unit_pos f).le
  have key : ∀ (n : Nat) (a v : Nat → Fl f),
      |∑ k ∈ range n, (a k).val * (v k * alpha).val - alpha.val * ∑ k ∈ range n, (a k).val * (v k).val| ≤
        unitRoundoff f * (|alpha.val| * ∑ k ∈ range n, |(a k).val| * |(v k).val|) + (∑ k ∈ range n, |(a k).val| * 1) * halfTiny f := by
    intro n a v
    rw [mul_sum, ← sum_sub_distrib, mul_sum, mul_sum, sum_mul, ← sum_add_distrib]
    refine (abs_sum_le_sum_abs _ _).trans (sum_le_sum fun k _ => ?_)
    have e : (a k).val * (v k * alpha).val - alpha.val * ((a k).val * (v k).val) = (a k).val * ((v k * alpha).val - (v k).val * alpha.val) := by
      ring
    rw [e, abs_mul]
    have := mul_le_mul_of_nonneg_left (rnd_err f ((v k).val * alpha.val)) (abs_nonneg (a k).val)
    rw [abs_mul] at this
    refine le_trans this (le_of_eq (by ring))
  have hk : |sideMul s r c (valM T) (valM fun i j => V i j * alpha) i j - alpha.val * sideMul s r c (valM T) (valM V) i j| ≤
      unitRoundoff f * (|alpha.val| * sideMul s r c (absM T) (absM V) i j) + sideMul s r c (absM T) (fun _ _ => 1) i j * halfTiny f := by
    cases s
    · exact key r (T i) fun k => V k j
    · have := key c (fun k => T k j) (V i)
      simp only [mul_comm (Fl.val (T _ _)), mul_comm |Fl.val (T _ _)|] at this
      exact this
  have hS : 0 ≤ sideMul s r c (absM T) (absM V) i j := by
    cases s <;> exact sum_nonneg fun k _ => mul_nonneg (abs_nonneg _) (abs_nonneg _)
  generalize sideMul s r c (absM T) (absM V) i j = S at *
  generalize sideMul s r c (valM T) (valM V) i j = E at *
  generalize sideMul s r c (valM T) (valM fun i j => V i j * alpha) i j = X at *
  generalize sideMul s r c (absM T) (fun _ _ => 1) i j * halfTiny f = H at *
  generalize (sideDim s r c + absM T (sideDiag s i j) (sideDiag s i j)) * (1 + unitRoundoff f) ^ (sideDim s r c + 1) * halfTiny f = G at *
  have hP := one_le_pow_unit f (sideDim s r c + 1)
  rw [show sideDim s r c + 2 = sideDim s r c + 1 + 1 from rfl, pow_succ (1 + unitRoundoff f) (sideDim s r c + 1)]
  generalize (1 + unitRoundoff f) ^ (sideDim s r c + 1) = P at *
  generalize unitRoundoff f = v at *
  have a0 := abs_nonneg alpha.val
  have h2 := mul_le_mul_of_nonneg_left h1 a0
  rw [← abs_mul] at h2
  have e : X - alpha.val * (Q i j).val = (X - alpha.val * E) + alpha.val * (E - (Q i j).val) := by ring
  rw [e]
  refine (abs_add_le _ _).trans ?_
  have h3 : 0 ≤ v * (P - 1) * (|alpha.val| * S) := mul_nonneg (mul_nonneg u0 (by linarith)) (mul_nonneg a0 hS)
  nlinarith

/-- **C160** in full: the matrix `X` left in `B` satisfies each equation of `op(T) X = alpha B` up to roundings of its own terms, when the
right-hand sides `alpha B` are floating-point numbers. -/
def C160Claim : Prop := ∀ (s : Side) (u : UpLo) (t : Trans) (d : Diag) (r c : Nat) (alpha : Fl binary64) (A ldA B ldB : Int)
    (m : Mem (Fl binary64)) (QA QB X : Nat → Nat → Fl binary64),
    MatAt m A .rowMajor ldA (stored u d (sideDim s r c)) QA → MatAt m B .rowMajor ldB (full r c) QB → (c : Int) ≤ ldB →
    StDisj (matAd A .rowMajor ldA) (stored u d (sideDim s r c)) (matAd B .rowMajor ldB) (full r c) →
    (d = .nonUnit → ∀ i, i < sideDim s r c → (QA i i).val ≠ 0) →
    (∀ i j, full r c i j → rnd binary64 (alpha.val * (QB i j).val) = alpha.val * (QB i j).val) →
    YieldsMat (trsm .rowMajor s u t d r c alpha A ldA B ldB) m B .rowMajor ldB (full r c) X →
    ∀ i j, full r c i j → |sideMul s r c (valM (opM t (triM u d QA))) (valM X) i j - alpha.val * (QB i j).val| ≤
      ((1 + unitRoundoff binary64) ^ (sideDim s r c + 2) - 1) * sideMul s r c (absM (opM t (triM u d QA))) (absM X) i j

/-- A system of order one: `2^600 x = 2^600 · 2^-600`. -/
def exScale : Mem (Fl binary64) := fun a =>
  if a = 0 then .val (.round _ (2 ^ 600)) else if a = 10 then .val (.round _ (1 / 2 ^ 600)) else .out

/-- **C160** The right-hand side is scaled after the solution: `2^-600 / 2^600` underflows, and zero is left where the solution is
`2^-600`. Scaling first gives it exactly. -/
theorem C160_scaleLast :
    peek (trsm .rowMajor .left .upper noTrans .nonUnit 1 1 (.round binary64 (2 ^ 600)) 0 1 10 1 exScale) (fun _ m => m 10) =
      .ok (.val (.round _ 0)) ∧
    peek ((do gescal .rowMajor 1 1 (.round binary64 (2 ^ 600)) 10 1
              trsm .rowMajor .left .upper noTrans .nonUnit 1 1 (.round binary64 1) 0 1 10 1 : M (Fl binary64) Unit) exScale)
        (fun _ m => m 10) = .ok (.val (.round _ (1 / 2 ^ 600))) ∧
    rnd binary64 (1 / 2 ^ 600) = 1 / 2 ^ 600 := by
  refine ⟨by decide +kernel, by decide +kernel, by decide +kernel⟩

theorem exScale_ok : MatAt exScale 0 .rowMajor 1 (stored .upper .nonUnit (sideDim .left 1 1)) (fun _ _ => .round _ (2 ^ 600)) ∧
    MatAt exScale 10 .rowMajor 1 (full 1 1) (fun _ _ => .round _ (1 / 2 ^ 600)) ∧
    StDisj (matAd 0 .rowMajor 1) (stored .upper .nonUnit (sideDim .left 1 1)) (matAd 10 .rowMajor 1) (full 1 1) := by
  refine ⟨fun i j h => ?_, fun i j h => ?_, fun i j k l h h' => ?_⟩
  · obtain ⟨⟨h1, h2, -⟩, -⟩ := h
    change i < 1 at h1
    change j < 1 at h2
    interval_cases i; interval_cases j; rfl
  · obtain ⟨h1, h2⟩ := h
    interval_cases i; interval_cases j; rfl
  · obtain ⟨⟨h1, h2, -⟩, -⟩ := h
    change i < 1 at h1
    change j < 1 at h2
    obtain ⟨h4, h5⟩ := h'
    interval_cases i; interval_cases j; interval_cases k; interval_cases l; decide

theorem C160_false : ¬ C160Claim := by
  intro h
  obtain ⟨hA, hB, hd⟩ := exScale_ok
  have nz : (Fl.round binary64 (2 ^ 600)).val ≠ 0 := by decide +kernel
  obtain ⟨V, hV, -⟩ := C160_trsm (t := noTrans) (alpha := .round binary64 (2 ^ 600)) (o := .rowMajor) (by decide) hA hB
    (show (1 : Int) ≤ 1 by decide) hd (fun _ _ _ => nz)
  have hf : full 1 1 0 0 := ⟨by decide, by decide⟩
  have h1 := h .left .upper noTrans .nonUnit 1 1 _ 0 1 10 1 exScale _ _ _ hA hB (by decide) hd (fun _ _ _ => nz)
    (fun _ _ _ => by decide +kernel) hV 0 0 hf
  have h2 : V 0 0 * .round binary64 (2 ^ 600) = .round _ 0 := by
    obtain ⟨m', e, g, -⟩ := hV
    have := C160_scaleLast.1
    have g0 := g 0 0 hf
    simp only [peek, e] at this
    have e0 : (10 : Int) + idx .rowMajor 1 0 0 = 10 := by decide
    rw [e0] at g0
    rw [show (Out.ok ((), m') >>= fun p : Unit × Mem (Fl binary64) => Out.ok (p.2 10)) = Out.ok (m' 10) from rfl, g0] at this
    injection this with this
    injection this
  have e0 : (Fl.round binary64 0).val = 0 := by decide +kernel
  have e1 : (Fl.round binary64 (2 ^ 600)).val * (Fl.round binary64 (1 / 2 ^ 600)).val = 1 := by decide +kernel
  simp only [sideMul, range_one, sum_singleton, valM, absM, h2, e0, e1, abs_zero, mul_zero] at h1
  norm_num at h1

/-- The hypotheses of `C160_trsm` are met by a system with two unknowns, and the solution is inexact. -/
example : MatAt exTriFl 0 .rowMajor 3 (stored .upper .nonUnit (sideDim .left 2 1))
      (fun i j => .round _ (if i = 1 then 7 else if j = 0 then 3 else 1 / 10)) ∧
    MatAt exTriFl 10 .rowMajor 2 (full 2 1) (fun i _ => .round _ ((i : ℚ) + 1)) ∧
    StDisj (matAd 0 .rowMajor 3) (stored .upper .nonUnit (sideDim .left 2 1)) (matAd 10 .rowMajor 2) (full 2 1) ∧
    LdOk .rowMajor 2 2 1 ∧ rnd binary64 (2 / 7) ≠ 2 / 7 := by
  refine ⟨fun i j h => ?_, fun i j h => ?_, fun i j k l h h' => ?_, (by decide : (1 : Int) ≤ 2), by decide +kernel⟩
  · obtain ⟨⟨h1, h2, h3⟩, -⟩ := h
    change i < 2 at h1
    change j < 2 at h2
    interval_cases i <;> interval_cases j <;> first | (simp [exTriFl, idx]; done) | (exact absurd h3 (by decide))
  · obtain ⟨h1, h2⟩ := h
    interval_cases i <;> interval_cases j
    · simp [exTriFl, idx]
    · norm_num [exTriFl, idx]
  · obtain ⟨⟨h1, h2, h3⟩, -⟩ := h
    change i < 2 at h1
    change j < 2 at h2
    obtain ⟨h4, h5⟩ := h'
    interval_cases i <;> interval_cases j <;> interval_cases k <;> interval_cases l <;> decide

end Verif.Blas
