import Verif.Lemmas.RandomDist
import Verif.Model.Random

/-!
# C147: random numbers have the distributions they should

Property: if draws are independent and uniform on [0, 1), then `random(a, b)` is uniform between its limits, `randint(lo, hi)` takes every
integer of its range with the same probability, and the values of `randomGaussian` are independent and have the standard normal
distribution. In real arithmetic.

True of `random` and `randomGaussian`, false of `randint` with a negative limit.
-/

open MeasureTheory Set Real ProbabilityTheory Filter
open scoped ENNReal Topology

namespace Verif.RandomDist

/-- `random(a, b)` falls between `c` and `d` with the probability `(d - c) / (b - a)`. -/
theorem C147_random (a b c d : ℝ) (hab : a < b) (hc : a ≤ c) (hcd : c ≤ d) (hd : d ≤ b) :
    uniform {u | c ≤ randomR a b u ∧ randomR a b u < d} = ENNReal.ofReal ((d - c) / (b - a)) :=
  between hab hc hcd hd (fun x => c ≤ x ∧ x < d) (fun _ _ _ h1 h2 => ⟨h1.le, h2⟩) (fun _ _ _ h => ⟨h.1, h.2.le⟩)

/-- The property of `randint`. -/
def C147Claim : Prop :=
  ∀ lo hi z : ℤ, lo ≤ z → z ≤ hi → uniform {u | randintR lo hi u = z} = ENNReal.ofReal (1 / (hi - lo + 1))

/-- `randint` is uniform if its lower limit is not negative.
Missing: negative lower limits, for which see the next three theorems. -/
theorem C147_randint_partial (lo hi z : ℤ) (h0 : 0 ≤ lo) (h1 : lo ≤ z) (h2 : z ≤ hi) :
    uniform {u | randintR lo hi u = z} = ENNReal.ofReal (1 / (hi - lo + 1)) := by
  have r1 : (lo : ℝ) ≤ z := by exact_mod_cast h1
  have r2 : (z : ℝ) ≤ hi := by exact_mod_cast h2
  have r0 : (0 : ℝ) ≤ lo := by exact_mod_cast h0
  simp only [randintR, not_lt.2 h0, if_false, sub_zero]
  rw [between (L := lo) (H := hi + 1) (a := z) (b := z + 1) (by linarith) (by linarith) (by linarith) (by linarith) (fun x => truncR x = z)]
  · congr 1
    rw [show (z : ℝ) + 1 - z = 1 by ring, show (hi : ℝ) + 1 - lo = hi - lo + 1 by ring]
  · intro x hx _ hz1 hz2
    simp only [truncR, if_pos (le_trans r0 hx)]
    exact Int.floor_eq_iff.2 ⟨hz1.le, hz2⟩
  · intro x hx _ hz
    simp only [truncR, if_pos (le_trans r0 hx)] at hz
    obtain ⟨a, b⟩ := Int.floor_eq_iff.1 hz
    exact ⟨a, b.le⟩

/-- For a negative lower limit and an upper one that is not negative, zero is twice as likely as every other number. -/
theorem C147_randint_zero (lo hi : ℤ) (h0 : lo < 0) (h2 : 0 ≤ hi) :
    uniform {u | randintR lo hi u = 0} = ENNReal.ofReal (2 / (hi - lo + 2)) := by
  have r0 : (lo : ℝ) ≤ -1 := by exact_mod_cast Int.le_sub_one_of_lt h0
  have r2 : (0 : ℝ) ≤ hi := by exact_mod_cast h2
  simp only [randintR, if_pos h0]
  push_cast
  rw [between (L := lo - 1) (H := hi + 1) (a := -1) (b := 1) (by linarith) (by linarith) (by linarith) (by linarith) (fun x => truncR x = 0)]
  · congr 1
    rw [show (1 : ℝ) - -1 = 2 by ring, show (hi : ℝ) + 1 - (lo - 1) = hi - lo + 2 by ring]
  · intro x _ _ hz1 hz2
    exact trunc_zero.2 ⟨hz1, hz2⟩
  · intro x _ _ hz
    have := trunc_zero.1 hz
    exact ⟨this.1.le, this.2.le⟩

/-- The other numbers of the range. -/
theorem C147_randint_other (lo hi z : ℤ) (h0 : lo < 0) (hz0 : z ≠ 0) (h1 : lo ≤ z) (h2 : z ≤ hi) :
    uniform {u | randintR lo hi u = z} = ENNReal.ofReal (1 / (hi - lo + 2)) := by
  have r0 : (lo : ℝ) ≤ -1 := by exact_mod_cast Int.le_sub_one_of_lt h0
  have r1 : (lo : ℝ) ≤ z := by exact_mod_cast h1
  have r2 : (z : ℝ) ≤ hi := by exact_mod_cast h2
  simp only [randintR, if_pos h0]
  push_cast
  have e : (hi : ℝ) + 1 - (lo - 1) = hi - lo + 2 := by ring
  rcases lt_or_gt_of_ne hz0 with hz | hz
  · rw [between (L := lo - 1) (H := hi + 1) (a := z - 1) (b := z) (by linarith) (by linarith) (by linarith) (by linarith)
      (fun x => truncR x = z)]
    · congr 1
      rw [show (z : ℝ) - (z - 1) = 1 by ring, e]
    · intro x _ _ hz1 hz2
      exact (trunc_neg hz).2 ⟨hz1, hz2.le⟩
    · intro x _ _ hx
      have := (trunc_neg hz).1 hx
      exact ⟨this.1.le, this.2⟩
  · rw [between (L := lo - 1) (H := hi + 1) (a := z) (b := z + 1) (by linarith) (by linarith) (by linarith) (by linarith)
      (fun x => truncR x = z)]
    · congr 1
      rw [show (z : ℝ) + 1 - z = 1 by ring, e]
    · intro x _ _ hz1 hz2
      exact (trunc_pos hz).2 ⟨hz1.le, hz2⟩
    · intro x _ _ hx
      have := (trunc_pos hz).1 hx
      exact ⟨this.1, this.2.le⟩

/-- If both limits are negative, the number above the range is as likely as those in it. -/
theorem C147_randint_above (lo hi : ℤ) (h : lo ≤ hi) (h2 : hi < 0) :
    uniform {u | randintR lo hi u = hi + 1} = ENNReal.ofReal (1 / (hi - lo + 2)) := by
  have h0 : lo < 0 := by omega
  have r1 : (lo : ℝ) ≤ hi := by exact_mod_cast h
  have r2 : (hi : ℝ) ≤ -1 := by exact_mod_cast Int.le_sub_one_of_lt h2
  simp only [randintR, if_pos h0]
  push_cast
  rw [between (L := lo - 1) (H := hi + 1) (a := hi) (b := hi + 1) (by linarith) (by linarith) (by linarith) (by linarith)
    (fun x => truncR x = hi + 1)]
  · congr 1
    rw [show (hi : ℝ) + 1 - hi = 1 by ring, show (hi : ℝ) + 1 - (lo - 1) = hi - lo + 2 by ring]
  · intro x _ _ hz1 hz2
    rcases eq_or_lt_of_le (Int.add_one_le_of_lt h2) with hz | hz
    · rw [hz]
      have hh : (hi : ℝ) + 1 = 0 := by exact_mod_cast hz
      exact trunc_zero.2 ⟨by linarith, by linarith⟩
    · exact (trunc_neg hz).2 ⟨by push_cast; linarith, by push_cast; linarith⟩
  · intro x _ hx1 hx
    refine ⟨?_, hx1.le⟩
    rcases eq_or_lt_of_le (Int.add_one_le_of_lt h2) with hz | hz
    · rw [hz] at hx
      have hh : (hi : ℝ) + 1 = 0 := by exact_mod_cast hz
      have := (trunc_zero.1 hx).1
      linarith
    · have := ((trunc_neg hz).1 hx).1
      push_cast at this
      linarith

/-- The property is false of `randint`: `randint(-1, 1)` is zero every second time. -/
theorem C147_false : ¬ C147Claim := by
  intro h
  have h1 := h (-1) 1 0 (by norm_num) (by norm_num)
  rw [C147_randint_zero (-1) 1 (by norm_num) (by norm_num)] at h1
  rw [ENNReal.ofReal_eq_ofReal_iff (by norm_num) (by norm_num)] at h1
  norm_num at h1

/-- `random(lo, hi)` of two integers that are not negative takes the values from `lo` to `hi - 1` with the same probability. -/
theorem C147_random_int (lo hi z : ℤ) (h0 : 0 ≤ lo) (h1 : lo ≤ z) (h2 : z < hi) :
    uniform {u | randomIntR lo hi u = z} = ENNReal.ofReal (1 / (hi - lo)) := by
  have r1 : (lo : ℝ) ≤ z := by exact_mod_cast h1
  have r2 : (z : ℝ) + 1 ≤ hi := by exact_mod_cast h2
  have r0 : (0 : ℝ) ≤ lo := by exact_mod_cast h0
  simp only [randomIntR]
  rw [between (L := lo) (H := hi) (a := z) (b := z + 1) (by linarith) (by linarith) (by linarith) (by linarith) (fun x => truncR x = z)]
  · congr 1
    rw [show (z : ℝ) + 1 - z = 1 by ring]
  · intro x hx _ hz1 hz2
    simp only [truncR, if_pos (le_trans r0 hx)]
    exact Int.floor_eq_iff.2 ⟨hz1.le, hz2⟩
  · intro x hx _ hz
    simp only [truncR, if_pos (le_trans r0 hx)] at hz
    obtain ⟨a, b⟩ := Int.floor_eq_iff.1 hz
    exact ⟨a, b.le⟩

/-- What a call of `randomGaussian` whose loop makes at most `n` passes computes: it returns with the probability `1 - (1 - π/4)^n`, and
then its two values are independent and have the standard normal distribution. -/
theorem C147_passes (n : ℕ) :
    pair n = ENNReal.ofReal (1 - (1 - π / 4) ^ n) • (gaussianReal 0 1).prod (gaussianReal 0 1) := pair_law n

/-- The property of `randomGaussian`: two calls, the first of which finds no value left of an earlier one, return a pair in `B` with the
probability that two independent standard normal numbers are in `B`. -/
theorem C147_gaussian (y : ℝ) (B : Set (ℝ × ℝ)) :
    Tendsto (fun n => twoCalls n (false, y) B) atTop (𝓝 (((gaussianReal 0 1).prod (gaussianReal 0 1)) B)) := by
  have h1 : Tendsto (fun n : ℕ => ENNReal.ofReal (1 - (1 - π / 4) ^ n)) atTop (𝓝 1) := by
    have : Tendsto (fun n : ℕ => 1 - (1 - π / 4) ^ n) atTop (𝓝 (1 - 0)) :=
      tendsto_const_nhds.sub (tendsto_pow_atTop_nhds_zero_of_lt_one (by linarith [pi_quarter]) (by linarith [Real.pi_pos]))
    rw [sub_zero] at this
    have h2 := ENNReal.tendsto_ofReal this
    rwa [ENNReal.ofReal_one] at h2
  have h3 := ENNReal.Tendsto.mul_const (b := ((gaussianReal 0 1).prod (gaussianReal 0 1)) B) h1 (Or.inl one_ne_zero)
  rw [one_mul] at h3
  refine h3.congr fun n => ?_
  rw [two_calls, pair_law]
  rfl

/-- The function of this file and that of the machine model (Verif.Model.Random) agree on rational draws, without rounding. -/
theorem C147_model (lo hi : ℤ) (u : ℚ) (z : ℤ) (h : RandomM.randintVal id lo hi u = .ok z) : randintR lo hi (u : ℝ) = z := by
  have key : ∀ x : ℚ, truncR (x : ℝ) = ScalarM.trunc x := by
    intro x
    unfold truncR ScalarM.trunc
    by_cases hx : x < 0
    · have : ¬ (0 : ℝ) ≤ x := by exact_mod_cast not_le.2 hx
      rw [if_neg this, if_pos hx, Rat.ceil_cast]
    · have : (0 : ℝ) ≤ x := by exact_mod_cast not_lt.1 hx
      rw [if_pos this, if_neg hx, Rat.floor_cast]
  unfold RandomM.randintVal at h
  rw [randintR]
  generalize (lo - (if lo < 0 then 1 else 0) : ℤ) = l at h ⊢
  have e : randomR (l : ℝ) ((hi : ℝ) + 1) u = ((RandomM.randomVal id (id (l : ℚ)) (id (id (hi : ℚ) + 1)) u : ℚ) : ℝ) := by
    simp only [randomR, RandomM.randomVal, id]
    push_cast
    rfl
  rw [e, key]
  split at h
  · cases h
  · unfold RandomM.toI64 at h
    split at h
    · injection h
    · cases h

/-! Concrete cases. -/

/-- A die. -/
example : uniform {u | randintR 1 6 u = 4} = ENNReal.ofReal (1 / 6) := by
  rw [C147_randint_partial 1 6 4 (by norm_num) (by norm_num) (by norm_num)]
  norm_num

/-- `randint(-2, 2)`: zero has a third, the others a sixth each. -/
example : uniform {u | randintR (-2) 2 u = 0} = ENNReal.ofReal (1 / 3) ∧ uniform {u | randintR (-2) 2 u = -2} = ENNReal.ofReal (1 / 6) := by
  rw [C147_randint_zero (-2) 2 (by norm_num) (by norm_num), C147_randint_other (-2) 2 (-2) (by norm_num) (by norm_num) (by norm_num) (by norm_num)]
  norm_num

/-- A point that the loop accepts. -/
example : Accepted (1 / 2, 1 / 2) := by
  simp only [Accepted, sq]
  norm_num

end Verif.RandomDist
