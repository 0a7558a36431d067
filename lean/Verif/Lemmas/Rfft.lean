import Verif.Model.Rfft
import Mathlib.Analysis.Fourier.ZMod

/-! Lemmas on the model of `rfft`. -/

namespace Verif.Rfft

open Complex

theorem store_ok (f : Nat → ℂ) (m k : Nat) (out : List ℂ) (h : k + m ≤ out.length) :
    ∃ out', store f 1 m k out = .ok out' ∧ out'.length = out.length ∧
      ∀ i, out'[i]? = if k ≤ i ∧ i < k + m then some (f i) else out[i]? := by
  induction m generalizing k out with
  | zero =>
    refine ⟨out, rfl, rfl, fun i => ?_⟩
    rw [if_neg (by omega)]
  | succ m ih =>
    obtain ⟨o, h1, h2, h3⟩ := ih (k + 1) (out.set k (f k)) (by simp; omega)
    refine ⟨o, ?_, by simpa using h2, fun i => ?_⟩
    · simp only [store, mul_one]
      rw [if_pos (by omega), h1]
    · rw [h3 i]
      by_cases hi : i = k
      · subst hi
        rw [if_neg (by omega), if_pos (by omega), List.getElem?_set_self (by omega)]
      · rw [List.getElem?_set_ne (by omega)]
        by_cases hc : k + 1 ≤ i ∧ i < k + 1 + m
        · rw [if_pos hc, if_pos (by omega)]
        · rw [if_neg hc, if_neg (by omega)]

theorem r2c_ok (n : Nat) (data : List ℝ) (h : n ≤ data.length) :
    r2c n 1 1 true 1 data (List.replicate (n / 2 + 1) 0) =
      .ok ((List.range (n / 2 + 1)).map fun k => ((List.range n).map fun j => term true n (data.getD j 0) j k).sum) := by
  unfold r2c
  by_cases h0 : n = 0
  · subst h0; simp
  · rw [if_neg h0, if_pos (by omega)]
    obtain ⟨o, h1, h2, h3⟩ := store_ok (coeff true n 1 1 data) (n / 2 + 1) 0 (List.replicate (n / 2 + 1) 0) (by simp)
    rw [h1]
    congr 1
    apply List.ext_getElem?
    intro i
    rw [h3 i]
    by_cases hi : i < n / 2 + 1
    · rw [if_pos (by omega), List.getElem?_map, List.getElem?_range hi]
      simp [coeff]
    · rw [if_neg (by omega), List.getElem?_eq_none (by simpa using hi), List.getElem?_eq_none (by simpa using hi)]

theorem toInt_eq {n : Nat} (h : n < 2 ^ 31) : toInt n = n := by
  have : n % 2 ^ 32 = n := Nat.mod_eq_of_lt (by omega)
  unfold toInt
  rw [this, if_pos h]

/-- The numbers of a list as a function on the integers modulo `n`. -/
noncomputable def signal (n : Nat) (data : List ℝ) : ZMod n → ℂ := fun j => (data.getD j.val 0 : ℝ)

theorem sum_zmod {n : Nat} [NeZero n] (g : Nat → ℂ) : ∑ j : ZMod n, g j.val = ((List.range n).map g).sum := by
  obtain ⟨m, rfl⟩ : ∃ m, n = m + 1 := ⟨n - 1, by have := NeZero.ne n; omega⟩
  have : ((List.range (m + 1)).map g).sum = ∑ i ∈ Finset.range (m + 1), g i := by
    rw [Finset.sum, Finset.range_val, Multiset.range, Multiset.map_coe, Multiset.sum_coe]
  rw [this, ← Fin.sum_univ_eq_sum_range]
  rfl

theorem char_eq {n : Nat} [NeZero n] (j k : Nat) :
    (ZMod.stdAddChar (-((j : ZMod n) * (k : ZMod n))) : ℂ) = exp (-1 * (2 * Real.pi * I * (j * k) / n)) := by
  have := ZMod.stdAddChar_coe (N := n) (-((j : ℤ) * k))
  push_cast at this
  rw [this]
  congr 1
  ring

theorem dft_eq {n : Nat} [NeZero n] (data : List ℝ) (k : Nat) :
    ZMod.dft (signal n data) (k : ZMod n) = ((List.range n).map fun j => term true n (data.getD j 0) j k).sum := by
  rw [ZMod.dft_apply, ← sum_zmod]
  refine Finset.sum_congr rfl (fun j _ => ?_)
  have := char_eq (n := n) j.val k
  rw [ZMod.natCast_zmod_val] at this
  rw [this, smul_eq_mul, mul_comm, signal, term, if_pos rfl]

/-- The transform of real numbers takes conjugate values at opposite places. -/
theorem dft_conj {n : Nat} [NeZero n] (data : List ℝ) (k : ZMod n) :
    ZMod.dft (signal n data) (-k) = starRingEnd ℂ (ZMod.dft (signal n data) k) := by
  rw [ZMod.dft_apply, ZMod.dft_apply, map_sum]
  refine Finset.sum_congr rfl (fun j _ => ?_)
  rw [smul_eq_mul, smul_eq_mul, map_mul]
  congr 1
  · rw [mul_neg, ← AddChar.map_neg_eq_conj]
  · simp [signal]

end Verif.Rfft
