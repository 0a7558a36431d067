import Verif.Props.Half
import Mathlib.Analysis.Real.Pi.Bounds
import Mathlib.Analysis.Complex.ExponentialBounds

/-!
# What the named values of `half` are among all halves (C49)

Limits are compared with every half, and `e` and `pi` with the real numbers.
-/

namespace Verif.HalfM

open HalfS

/-- Every finite half is a signed magnitude. -/
theorem finite_form {h : Nat} (hh : h < 2 ^ 16) {w : ℚ} (hw : (halfVal h).toRat? = some w) :
    ∃ e m, e < 31 ∧ m < 2 ^ 10 ∧ exp h = e ∧ frac h = m ∧ (w = mag e m ∨ w = -mag e m) := by
  obtain ⟨s, e, m, hs, he, hm, rfl⟩ := half_fields h hh
  have hn : halfVal (s * 2 ^ 15 + e * 2 ^ 10 + m) ≠ .nan := by
    intro h; rw [h] at hw; cases hw
  rcases halfVal_cases s e m hs he hm hn with ⟨-, -, h⟩ | ⟨h31, h⟩
  · rw [h] at hw; cases hw
  · rw [h] at hw
    have hw := Option.some.inj hw
    refine ⟨e, m, h31, hm, by unfold exp; omega, by unfold frac; omega, ?_⟩
    rw [← hw]
    split
    · exact Or.inr rfl
    · exact Or.inl rfl

theorem mag_le {e e' m m' : Nat} (hm : m < 2 ^ 10) (hm' : m' < 2 ^ 10) (h : e * 2 ^ 10 + m ≤ e' * 2 ^ 10 + m') :
    mag e m ≤ mag e' m' := by
  by_contra hc
  have := (mag_lt_iff (e := e') (e' := e) hm' hm).1 (not_le.1 hc)
  omega

theorem mag_max : mag 30 1023 = 65504 := by norm_num [mag]
theorem mag_sub : mag 0 1023 = 1023 / 2 ^ 24 := by norm_num [mag]
theorem mag_norm : mag 1 0 = 1 / 2 ^ 14 := by norm_num [mag]
theorem mag_least : mag 0 1 = 1 / 2 ^ 24 := by norm_num [mag]
theorem mag_one : mag 15 0 = 1 := by norm_num [mag]
theorem mag_next : mag 15 1 = 1 + 1 / 2 ^ 10 := by norm_num [mag]

/-- **C49 (limits).** Among all finite halves `max` is the greatest and `min` the least; `minPositiveSubnormal` is the least positive
one, `minPositive` the least positive one that is normal, `maxSubnormal` the greatest one that is not; and the least half above `one`
is `one` and `epsilon`. -/
theorem C49_limits_partial :
    (∃ lo hi, (halfVal cMin).toRat? = some lo ∧ (halfVal cMax).toRat? = some hi ∧
      ∀ h < 2 ^ 16, ∀ w, (halfVal h).toRat? = some w → lo ≤ w ∧ w ≤ hi) ∧
    (∃ v, (halfVal cMinPositiveSubnormal).toRat? = some v ∧ 0 < v ∧
      ∀ h < 2 ^ 16, ∀ w, (halfVal h).toRat? = some w → 0 < w → v ≤ w) ∧
    (∃ v, (halfVal cMinPositive).toRat? = some v ∧ 0 < v ∧ cMinPositive / 2 ^ 10 % 2 ^ 5 ≠ 0 ∧
      ∀ h < 2 ^ 16, h / 2 ^ 10 % 2 ^ 5 ≠ 0 → ∀ w, (halfVal h).toRat? = some w → 0 < w → v ≤ w) ∧
    (∃ v, (halfVal cMaxSubnormal).toRat? = some v ∧ cMaxSubnormal / 2 ^ 10 % 2 ^ 5 = 0 ∧
      ∀ h < 2 ^ 16, h / 2 ^ 10 % 2 ^ 5 = 0 → ∀ w, (halfVal h).toRat? = some w → w ≤ v) ∧
    (∃ u v, (halfVal cOne).toRat? = some u ∧ (halfVal cEpsilon).toRat? = some v ∧ 0 < v ∧
      (∃ h < 2 ^ 16, (halfVal h).toRat? = some (u + v)) ∧
      ∀ h < 2 ^ 16, ∀ w, (halfVal h).toRat? = some w → u < w → u + v ≤ w) := by
  obtain ⟨-, -, -, hmax, hmin, hsub, hnorm, hleast, heps, hone, -⟩ := C49_constants_partial
  refine ⟨⟨_, _, hmin, hmax, fun h hh w hw => ?_⟩, ⟨_, hleast, by norm_num, fun h hh w hw hp => ?_⟩,
    ⟨_, hnorm, by norm_num, by decide, fun h hh hn w hw hp => ?_⟩, ⟨_, hsub, by decide, fun h hh hn w hw => ?_⟩,
    ⟨_, _, hone, heps, by norm_num, ⟨0x3c01, by norm_num, by norm_num [halfVal, ieee, FV.toRat?]⟩, fun h hh w hw hp => ?_⟩⟩ <;>
    obtain ⟨e, m, he, hm, hx, hf, hv⟩ := finite_form hh hw <;> have h0 := mag_nonneg e m
  · have := mag_le (e := e) (e' := 30) hm (by norm_num : 1023 < 2 ^ 10) (by omega)
    rw [mag_max] at this
    rcases hv with rfl | rfl <;> constructor <;> linarith
  · rcases hv with rfl | rfl
    · rw [← mag_least]
      refine mag_le (by norm_num) hm ?_
      by_contra hc
      have := (mag_zero_iff (e := e) hm).2 (by omega)
      linarith
    · linarith
  · rcases hv with rfl | rfl
    · rw [← mag_norm]
      refine mag_le (by norm_num) hm ?_
      unfold exp at hx
      omega
    · linarith
  · have := mag_le (e := e) (e' := 0) hm (by norm_num : 1023 < 2 ^ 10) (by unfold exp at hx; omega)
    rw [mag_sub] at this
    rcases hv with rfl | rfl <;> linarith
  · rcases hv with rfl | rfl
    · rw [← mag_next]
      rw [← mag_one] at hp
      have := (mag_lt_iff (e := 15) (e' := e) (by norm_num) hm).1 hp
      exact mag_le (by norm_num) hm (by omega)
    · linarith

theorem grid {h : Nat} (hh : h < 2 ^ 16) {w : ℚ} (hw : (halfVal h).toRat? = some w) :
    w < 2 ∨ 4 ≤ w ∨ ∃ k : ℤ, w = k / 512 := by
  obtain ⟨e, m, he, hm, -, -, hv⟩ := finite_form hh hw
  have h0 := mag_nonneg e m
  rcases hv with rfl | rfl
  · have e16 : mag 16 0 = 2 := by norm_num [mag]
    have e17 : mag 17 0 = 4 := by norm_num [mag]
    rcases lt_trichotomy e 16 with h | h | h
    · left
      rw [← e16]
      exact (mag_lt_iff hm (by norm_num)).2 (by omega)
    · right; right
      subst h
      refine ⟨2 ^ 10 + m, ?_⟩
      norm_num [mag]
      ring
    · right; left
      rw [← e17]
      exact mag_le (by norm_num) hm (by omega)
  · left; linarith

/-- A multiple of `1/512` is the half nearest to a number between 2 and 4 that it is within `1/1024` of. -/
theorem nearest_real {x : ℝ} {j : ℤ} (h2 : 2 + 1 / 1024 ≤ x) (h4 : x ≤ 4 - 1 / 1024) (hj : |(j : ℝ) / 512 - x| ≤ 1 / 1024)
    {h : Nat} (hh : h < 2 ^ 16) {w : ℚ} (hw : (halfVal h).toRat? = some w) : |(j : ℝ) / 512 - x| ≤ |(w : ℝ) - x| := by
  rcases grid hh hw with h | h | ⟨k, rfl⟩
  · have : (w : ℝ) < 2 := by exact_mod_cast h
    rw [abs_of_neg (by linarith : (w : ℝ) - x < 0)]
    linarith
  · have : (4 : ℝ) ≤ w := by exact_mod_cast h
    rw [abs_of_pos (by linarith : 0 < (w : ℝ) - x)]
    linarith
  · push_cast
    by_cases hjk : j = k
    · rw [hjk]
    · have h1 : (1 : ℝ) ≤ |(j : ℝ) - k| := by
        have : (1 : ℤ) ≤ |j - k| := Int.one_le_abs (sub_ne_zero.2 hjk)
        exact_mod_cast this
      have h2 : |(j : ℝ) - k| / 512 ≤ |(j : ℝ) / 512 - x| + |(k : ℝ) / 512 - x| := by
        have e : |(j : ℝ) - k| / 512 = |((j : ℝ) / 512 - x) - ((k : ℝ) / 512 - x)| := by
          rw [show ((j : ℝ) / 512 - x) - ((k : ℝ) / 512 - x) = ((j : ℝ) - k) / 512 by ring, abs_div]
          norm_num
        rw [e]
        exact abs_sub _ _
      linarith

/-- **C49 (`e` and `pi`).** No half is nearer to Euler's number than `e`, and none nearer to π than `pi`. -/
theorem C49_e_pi_partial :
    (∃ v, (halfVal cE).toRat? = some v ∧
      ∀ h < 2 ^ 16, ∀ w, (halfVal h).toRat? = some w → |(v : ℝ) - Real.exp 1| ≤ |(w : ℝ) - Real.exp 1|) ∧
    (∃ v, (halfVal cPi).toRat? = some v ∧
      ∀ h < 2 ^ 16, ∀ w, (halfVal h).toRat? = some w → |(v : ℝ) - Real.pi| ≤ |(w : ℝ) - Real.pi|) := by
  obtain ⟨-, -, -, -, -, -, -, -, -, -, -, -, -, -, -, he, hpi⟩ := C49_constants_partial
  have e1 := Real.exp_one_gt_d9
  have e2 := Real.exp_one_lt_d9
  have p1 := Real.pi_gt_d6
  have p2 := Real.pi_lt_d6
  refine ⟨⟨_, he, fun h hh w hw => ?_⟩, ⟨_, hpi, fun h hh w hw => ?_⟩⟩
  · have := nearest_real (x := Real.exp 1) (j := 1392) (by linarith) (by linarith)
      (abs_le.2 ⟨by push_cast; linarith, by push_cast; linarith⟩) hh hw
    convert this using 3
    norm_num
  · have := nearest_real (x := Real.pi) (j := 1608) (by linarith) (by linarith)
      (abs_le.2 ⟨by push_cast; linarith, by push_cast; linarith⟩) hh hw
    convert this using 3
    norm_num

end Verif.HalfM
