import Verif.Lemmas.FloatSolve
import Verif.Lemmas.Blas2Order
import Verif.Props.Blas1
import Mathlib.Tactic.IntervalCases

/-!
# C154: triangular systems in floating point
-/

namespace Verif.Blas

open Finset Verif.Ieee

variable {f : Fmt} {u : UpLo} {d : Diag} {n : Nat} {A ld x incX : Int} {m : Mem (Fl f)} {Q : Nat → Nat → Fl f} {b : Nat → Fl f}

theorem val_zero : (0 : Fl f).val = 0 := rfl

theorem val_one (he : f.emin ≤ 0) : (1 : Fl f).val = 1 := by
  have : Repr f 1 := by simpa using repr_two_zpow (f := f) he
  exact rnd_of_repr this

/-- The sum of a loop, against the exact one. -/
theorem dotL_error (k : Nat) (a z : Nat → Fl f) :
    |(dotL k a z).val - ∑ l ∈ range k, (a l).val * (z l).val| ≤ sumBound f k (∑ l ∈ range k, |(a l).val * (z l).val|) := by
  have h := (SumOf.loop f k a z).error
  have e1 : ∀ k, exactSum ((List.range k).map fun l => ((a l).val, (z l).val)) = ∑ l ∈ range k, (a l).val * (z l).val := by
    intro k
    induction k with
    | zero => rfl
    | succ k ih => rw [List.range_succ, List.map_append, exactSum_append, ih, sum_range_succ]; simp [exactSum]
  have e2 : ∀ k, magnitudeSum ((List.range k).map fun l => ((a l).val, (z l).val)) = ∑ l ∈ range k, |(a l).val * (z l).val| := by
    intro k
    induction k with
    | zero => rfl
    | succ k ih => rw [List.range_succ, List.map_append, magnitudeSum_append, ih, sum_range_succ]; simp [magnitudeSum]
  rw [e1, e2, List.length_map, List.length_range] at h
  exact h

/-- The row `i` of a system, split into what the loop sums and the diagonal. -/
theorem row_split (he : f.emin ≤ 0) {trans c : Bool} {xs : Nat → Fl f} {i : Nat} (hi : i < n) :
    ∃ (k : Nat) (a z : Nat → Fl f), k + 2 ≤ n + 1 ∧ solveSum u trans c n Q xs i = dotL k a z ∧ ∀ g : ℚ → ℚ, g 0 = 0 →
      ∑ j ∈ range n, g ((triOp u trans c d Q i j).val * (xs j).val) =
        g ((if d = .unit then (1 : ℚ) else (cj c (Q i i)).val) * (xs i).val) + ∑ l ∈ range k, g ((a l).val * (z l).val) := by
  have hdd : (triOp u trans c d Q i i).val = if d = .unit then (1 : ℚ) else (cj c (Q i i)).val := by
    unfold triOp
    rw [if_pos rfl]
    split
    · exact val_one he
    · unfold triE
      simp
  cases hup : triUp u trans
  · refine ⟨i, fun k => triE trans c Q i k, xs, by omega, by rw [solveSum, hup]; simp, fun g h0 => ?_⟩
    have e1 : ∑ k ∈ range (n - i - 1), g ((triOp u trans c d Q i (i + 1 + k)).val * (xs (i + 1 + k)).val) = 0 := by
      refine sum_eq_zero fun k _ => ?_
      have : ¬ i + 1 + k < i := by omega
      simp [triOp, hup, show i ≠ i + 1 + k by omega, this, val_zero, h0]
    have e2 : ∑ k ∈ range i, g ((triOp u trans c d Q i k).val * (xs k).val) = ∑ k ∈ range i, g ((triE trans c Q i k).val * (xs k).val) := by
      refine sum_congr rfl fun k hk => ?_
      rw [mem_range] at hk
      simp [triOp, hup, show i ≠ k by omega, hk]
    rw [sum_split_at hi, hdd, e1, e2, add_zero, add_comm]
  · refine ⟨n - i - 1, fun k => triE trans c Q i (i + 1 + k), fun k => xs (i + 1 + k), by omega, by rw [solveSum, hup]; simp, fun g h0 => ?_⟩
    have e1 : ∑ k ∈ range i, g ((triOp u trans c d Q i k).val * (xs k).val) = 0 := by
      refine sum_eq_zero fun k hk => ?_
      rw [mem_range] at hk
      have : ¬ i < k := by omega
      simp [triOp, hup, show i ≠ k by omega, this, val_zero, h0]
    have e2 : ∑ k ∈ range (n - i - 1), g ((triOp u trans c d Q i (i + 1 + k)).val * (xs (i + 1 + k)).val) =
        ∑ k ∈ range (n - i - 1), g ((triE trans c Q i (i + 1 + k)).val * (xs (i + 1 + k)).val) := by
      refine sum_congr rfl fun k _ => ?_
      have : i < i + 1 + k := by omega
      simp [triOp, hup, show i ≠ i + 1 + k by omega, this]
    rw [sum_split_at hi, hdd, e1, e2, zero_add]

theorem cj_val (c : Bool) (v : Fl f) : cj c v = v := by cases c <;> rfl

theorem row_residual (he : f.emin ≤ 0) {trans c : Bool} {xs : Nat → Fl f} {i : Nat} (hi : i < n)
    (hx : xs i = solveStep c d Q b i (solveSum u trans c n Q xs i)) (hnz : d = .nonUnit → (Q i i).val ≠ 0) :
    |∑ j ∈ range n, (triOp u trans c d Q i j).val * (xs j).val - (b i).val| ≤
      ((1 + unitRoundoff f) ^ (n + 1) - 1) * ∑ j ∈ range n, |(triOp u trans c d Q i j).val * (xs j).val| +
      (n + |(triOp u trans c d Q i i).val|) * (1 + unitRoundoff f) ^ (n + 1) * halfTiny f := by
  obtain ⟨k, a, z, hk, hs, hg⟩ := row_split (u := u) (d := d) (Q := Q) (trans := trans) (c := c) (xs := xs) he hi
  have hD : (triOp u trans c d Q i i).val = if d = .unit then (1 : ℚ) else (cj c (Q i i)).val := by
    unfold triOp
    rw [if_pos rfl]
    split
    · exact val_one he
    · unfold triE
      simp
  have h1 := hg id rfl
  have h2 := hg (fun q => |q|) abs_zero
  simp only [id] at h1
  rw [h1, h2, ← hD]
  rw [← hD] at h1 h2
  have hT : (0 : ℚ) ≤ ∑ l ∈ range k, |(a l).val * (z l).val| := sum_nonneg fun _ _ => abs_nonneg _
  have hr := step_residual (f := f) (b := (b i).val) (s := (dotL k a z).val) (S := ∑ l ∈ range k, (a l).val * (z l).val)
    (D := (triOp u trans c d Q i i).val) (w := (b i - dotL k a z).val) (z := (xs i).val) (b i).repr (dotL k a z).repr
    (dotL_error k a z) hT rfl (by
      rw [hx, hs, hD, solveStep]
      by_cases hd : d = .unit
      · left
        rw [if_pos hd, if_pos hd]
        exact ⟨rfl, rfl⟩
      · right
        rw [if_neg hd, if_neg hd, cj_val]
        exact ⟨hnz (by cases d <;> simp_all), rfl⟩)
  have hp : (1 + unitRoundoff f) ^ (k + 2) ≤ (1 + unitRoundoff f) ^ (n + 1) := pow_unit_mono f hk
  have hp1 := one_le_pow_unit f (k + 2)
  have hkn : (k : ℚ) ≤ n := by exact_mod_cast (by omega : k ≤ n)
  have hk0 : (0 : ℚ) ≤ k := Nat.cast_nonneg k
  have hh := tiny_pos f
  rw [add_comm (∑ l ∈ range k, (a l).val * (z l).val)] at hr
  refine hr.trans ?_
  have hD0 := abs_nonneg (triOp u trans c d Q i i).val
  have hX := abs_nonneg ((triOp u trans c d Q i i).val * (xs i).val)
  generalize |(triOp u trans c d Q i i).val * (xs i).val| = X at *
  generalize |(triOp u trans c d Q i i).val| = D at *
  generalize (1 + unitRoundoff f) ^ (k + 2) = P' at *
  generalize (1 + unitRoundoff f) ^ (n + 1) = P at *
  generalize ∑ l ∈ range k, |(a l).val * (z l).val| = T at *
  have h5 : (P' - 1) * (T + X) ≤ (P - 1) * (X + T) := by
    rw [add_comm T]
    exact mul_le_mul_of_nonneg_right (by linarith) (by linarith)
  have h6 : (k + D) * P' * halfTiny f ≤ (n + D) * P * halfTiny f :=
    mul_le_mul_of_nonneg_right (mul_le_mul (by linarith) hp (by linarith) (by linarith)) hh.le
  linarith

/-- **C154** `trsv` in floating point, for all 32 combinations of order, triangle, transposition, conjugation and unit diagonal: the
computed vector satisfies each equation of `op(T) x = b` up to `n + 1` roundings of the sum of the magnitudes of its terms, however
badly conditioned the matrix is. Nothing else changes. -/
theorem C154_trsv (he : f.emin ≤ 0) {o : Order} {t : Trans} (hA : MatAt m A o ld (stored u d n) Q) (hx : VecAt m x incX n b)
    (hi : incX ≠ 0) (hdA : MatVecDisj A o ld (stored u d n) x incX n) (hnz : d = .nonUnit → ∀ i, i < n → (Q i i).val ≠ 0) :
    ∃ xv, Yields (trsv o u t d n A ld x incX) m x incX n xv ∧ ∀ i, i < n →
      |∑ j ∈ range n, (opM t (triM u d Q) i j).val * (xv j).val - (b i).val| ≤
        ((1 + unitRoundoff f) ^ (n + 1) - 1) * ∑ j ∈ range n, |(opM t (triM u d Q) i j).val * (xv j).val| +
        (n + |(opM t (triM u d Q) i i).val|) * (1 + unitRoundoff f) ^ (n + 1) * halfTiny f := by
  rw [← triOp_eq t u d Q rfl rfl]
  cases o
  swap
  · rw [matAt_col, sw_stored] at hA
    rw [matVecDisj_col, sw_stored] at hdA
    obtain ⟨xs, h1, h2⟩ := trsvRow_ops (trans := t.flip.trans) (c := t.flip.conj) hA hx hi hdA
    refine ⟨xs, yields_of_over hi h1, fun i hin => ?_⟩
    have := row_residual (d := d) he hin (h2 i hin) (fun hd => hnz hd i hin)
    rw [triOp_flip] at this
    exact this
  · obtain ⟨xs, h1, h2⟩ := trsvRow_ops (trans := t.trans) (c := t.conj) hA hx hi hdA
    exact ⟨xs, yields_of_over hi h1, fun i hin => row_residual he hin (h2 i hin) (fun hd => hnz hd i hin)⟩

/-- A residual that is small against the terms of its equation is that of a slightly different equation. -/
theorem nearby_row {a z : Nat → ℚ} {β γ τ : ℚ} (hγ : 0 ≤ γ) (hτ : 0 ≤ τ)
    (h : |∑ j ∈ range n, a j * z j - β| ≤ γ * ∑ j ∈ range n, |a j * z j| + τ) :
    ∃ (e : Nat → ℚ) (δ : ℚ), (∀ j, |e j| ≤ γ * |a j|) ∧ |δ| ≤ τ ∧ ∑ j ∈ range n, (a j + e j) * z j = β + δ := by
  have hM : 0 ≤ ∑ j ∈ range n, |a j * z j| := sum_nonneg fun _ _ => abs_nonneg _
  obtain ⟨ρ, hρ, hr⟩ : ∃ ρ : ℚ, |ρ| ≤ γ ∧ |(∑ j ∈ range n, a j * z j - β) - ρ * (∑ j ∈ range n, |a j * z j|)| ≤ τ := by
    generalize ∑ j ∈ range n, a j * z j - β = r at h
    generalize ∑ j ∈ range n, |a j * z j| = M at h hM
    by_cases h1 : |r| ≤ γ * M
    · rcases hM.eq_or_lt with h0 | h0
      · refine ⟨0, by simpa using hγ, ?_⟩
        rw [← h0, mul_zero] at h1
        rw [zero_mul, sub_zero]
        exact h1.trans hτ
      · refine ⟨r / M, ?_, ?_⟩
        · rw [abs_div, abs_of_pos h0, div_le_iff₀ h0]
          exact h1
        · rw [div_mul_cancel₀ _ h0.ne', sub_self, abs_zero]
          exact hτ
    · push Not at h1
      have h2 := mul_nonneg hγ hM
      rcases le_total 0 r with h3 | h3
      · rw [abs_of_nonneg h3] at h h1
        refine ⟨γ, by rw [abs_of_nonneg hγ], ?_⟩
        rw [abs_of_pos (by linarith)]
        linarith
      · rw [abs_of_nonpos h3] at h h1
        refine ⟨-γ, by rw [abs_neg, abs_of_nonneg hγ], ?_⟩
        rw [abs_of_neg (by linarith)]
        linarith
  refine ⟨fun j => -ρ * |a j| * (if 0 ≤ z j then 1 else -1), _, fun j => ?_, hr, ?_⟩
  · rw [abs_mul, abs_mul, abs_neg, abs_abs]
    have : |(if 0 ≤ z j then (1 : ℚ) else -1)| = 1 := by split <;> simp
    rw [this, mul_one]
    exact mul_le_mul_of_nonneg_right hρ (abs_nonneg _)
  · have e : ∀ j, (a j + -ρ * |a j| * (if 0 ≤ z j then 1 else -1)) * z j = a j * z j - ρ * |a j * z j| := by
      intro j
      have : |z j| = (if 0 ≤ z j then 1 else -1) * z j := by
        split
        · rename_i h; rw [abs_of_nonneg h, one_mul]
        · rename_i h; push Not at h; rw [abs_of_neg h]; ring
      rw [abs_mul, this]
      ring
    simp only [e]
    rw [sum_sub_distrib, ← mul_sum]
    ring

/-- **C154** The computed vector is the exact solution of a system whose coefficients differ from those of `op(T)` by at most `n + 1`
roundings each; zeros stay zeros. The right-hand side differs by what is lost below the normal range only. -/
theorem C154_nearby (he : f.emin ≤ 0) {o : Order} {t : Trans} (hA : MatAt m A o ld (stored u d n) Q) (hx : VecAt m x incX n b)
    (hi : incX ≠ 0) (hdA : MatVecDisj A o ld (stored u d n) x incX n) (hnz : d = .nonUnit → ∀ i, i < n → (Q i i).val ≠ 0) :
    ∃ xv, Yields (trsv o u t d n A ld x incX) m x incX n xv ∧ ∃ (E : Nat → Nat → ℚ) (δ : Nat → ℚ),
      (∀ i j, |E i j| ≤ ((1 + unitRoundoff f) ^ (n + 1) - 1) * |(opM t (triM u d Q) i j).val|) ∧
      (∀ i, |δ i| ≤ (n + |(opM t (triM u d Q) i i).val|) * (1 + unitRoundoff f) ^ (n + 1) * halfTiny f) ∧
      ∀ i, i < n → ∑ j ∈ range n, ((opM t (triM u d Q) i j).val + E i j) * (xv j).val = (b i).val + δ i := by
  obtain ⟨xv, h1, h2⟩ := C154_trsv (t := t) he hA hx hi hdA hnz
  refine ⟨xv, h1, ?_⟩
  have hγ : 0 ≤ (1 + unitRoundoff f) ^ (n + 1) - 1 := by
    have := one_le_pow_unit f (n + 1)
    linarith
  have hτ : ∀ i, 0 ≤ (n + |(opM t (triM u d Q) i i).val|) * (1 + unitRoundoff f) ^ (n + 1) * halfTiny f := fun i =>
    mul_nonneg (mul_nonneg (add_nonneg (Nat.cast_nonneg n) (abs_nonneg _)) (by linarith)) (tiny_pos f).le
  have h3 : ∀ i, ∃ (e : Nat → ℚ) (δ : ℚ), (∀ j, |e j| ≤ ((1 + unitRoundoff f) ^ (n + 1) - 1) * |(opM t (triM u d Q) i j).val|) ∧
      |δ| ≤ (n + |(opM t (triM u d Q) i i).val|) * (1 + unitRoundoff f) ^ (n + 1) * halfTiny f ∧
      (i < n → ∑ j ∈ range n, ((opM t (triM u d Q) i j).val + e j) * (xv j).val = (b i).val + δ) := by
    intro i
    by_cases hin : i < n
    · obtain ⟨e, δ, g1, g2, g3⟩ := nearby_row hγ (hτ i) (h2 i hin)
      exact ⟨e, δ, g1, g2, fun _ => g3⟩
    · exact ⟨fun _ => 0, 0, fun j => by rw [abs_zero]; exact mul_nonneg hγ (abs_nonneg _), by rw [abs_zero]; exact hτ i,
        fun h => absurd h hin⟩
  choose E δ g1 g2 g3 using h3
  exact ⟨E, δ, g1, g2, g3⟩

/-- A memory of doubles: an upper triangular matrix of order 2 with `1/10` above the diagonal at 0, a vector at 10. -/
def exTriFl : Mem (Fl binary64) := fun a =>
  if a = 0 then .val (.round _ 3) else if a = 1 then .val (.round _ (1 / 10)) else if a = 4 then .val (.round _ 7)
  else if a = 10 then .val (.round _ 1) else if a = 12 then .val (.round _ 2) else .out

/-- The hypotheses are met, and the solution is inexact: `2 / 7` is rounded. -/
example : MatAt exTriFl 0 .rowMajor 3 (stored .upper .nonUnit 2)
      (fun i j => .round _ (if i = 1 then 7 else if j = 0 then 3 else 1 / 10)) ∧
    VecAt exTriFl 10 2 2 (fun i => .round _ ((i : ℚ) + 1)) ∧ MatVecDisj 0 .rowMajor 3 (stored .upper .nonUnit 2) 10 2 2 ∧
    rnd binary64 7 ≠ 0 ∧ rnd binary64 (2 / 7) ≠ 2 / 7 := by
  refine ⟨fun i j h => ?_, fun i h => ?_, fun i j k h hk => ?_, by decide +kernel, by decide +kernel⟩
  · obtain ⟨⟨h1, h2, h3⟩, -⟩ := h
    interval_cases i <;> interval_cases j <;> first | (simp [exTriFl, idx]; done) | (exact absurd h3 (by decide))
  · interval_cases i
    · simp [exTriFl, elem]
    · norm_num [exTriFl, elem]
  · obtain ⟨⟨h1, h2, h3⟩, -⟩ := h
    interval_cases i <;> interval_cases j <;> interval_cases k <;> decide

end Verif.Blas
