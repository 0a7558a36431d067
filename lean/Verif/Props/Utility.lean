import Verif.Lemmas.Scalar

/-!
# C42: clamp, lerp, map, smoothStep, isClose
-/

namespace Verif.ScalarM

open Verif.ScalarS Verif.Ieee

/-- What the machine's rounding of exact results satisfies: `R` are the representable numbers. -/
structure IsRounding (fl : ℚ → ℚ) (R : ℚ → Prop) : Prop where
  mono : ∀ x y, x ≤ y → fl x ≤ fl y
  odd : ∀ x, fl (-x) = -fl x
  fix : ∀ x, R x → fl x = x
  zero : R 0
  one : R 1

/-- Exact arithmetic is a rounding. -/
theorem isRounding_id : IsRounding id (fun _ => True) :=
  ⟨fun _ _ h => h, fun _ => rfl, fun _ _ => rfl, trivial, trivial⟩

/-- The rounding of `double`, of `float`, and of every binary format containing the integers near zero. -/
theorem isRounding_rnd (f : Fmt) (he : f.emin ≤ 0) : IsRounding (rnd f) (Repr f) :=
  ⟨fun _ _ h => rnd_mono h, rnd_neg f, fun _ h => rnd_of_repr h, repr_zero f,
    by simpa using repr_two_zpow (f := f) (e := 0) he⟩

/-- `z` is the point of `[lo, hi]` nearest to `x`. -/
def NearestIn (lo hi x z : ℚ) : Prop := lo ≤ z ∧ z ≤ hi ∧ ∀ w, lo ≤ w → w ≤ hi → |z - x| ≤ |w - x|

/-- C42 in full (exact arithmetic). -/
def C42Claim : Prop :=
  (∀ asserts x lo hi, ∃ z, clamp asserts x lo hi = .ok z ∧ NearestIn (min lo hi) (max lo hi) x z) ∧
  (∀ t a b, lerp id t a b = a + t * (b - a)) ∧
  (∀ a b c d, a ≠ b → map id a a b c d = c ∧ map id b a b c d = d ∧
    ∀ v w r, map id (v + r * (w - v)) a b c d = map id v a b c d + r * (map id w a b c d - map id v a b c d)) ∧
  (∀ asserts lo hi t, lo < hi → ∃ s, smoothStep id asserts t lo hi = .ok s ∧ 0 ≤ s ∧ s ≤ 1 ∧
    (t ≤ lo → s = 0) ∧ (hi ≤ t → s = 1) ∧
    ∀ t', t ≤ t' → ∃ s', smoothStep id asserts t' lo hi = .ok s' ∧ s ≤ s') ∧
  (∀ a b absTol relTol, (0 ≤ absTol → isClose id a a absTol relTol = true) ∧
    isClose id a b absTol relTol = isClose id b a absTol relTol)

/-- C42 fails: `clamp(5, 10, 0)`, which the documentation says is 5, is 10 (or a failed assertion). -/
theorem C42_false : ¬C42Claim := by
  intro h
  obtain ⟨z, hz, hn⟩ := h.1 false 5 10 0
  have e : clamp false 5 10 0 = .ok 10 := by decide +kernel
  rw [e] at hz
  cases hz
  have := hn.2.2 5 (by norm_num) (by norm_num)
  norm_num at this

/-- `clamp` with limits that are equal or reversed: a failed assertion or, without assertions, always one of the limits. -/
theorem C42_clamp_limits (x lo hi : ℚ) (h : hi ≤ lo) :
    clamp true x lo hi = .throw .assertion ∧ clamp false x lo hi = .ok (if x < lo then lo else hi) := by
  have hd : decide (lo < hi) = false := by simpa using h
  refine ⟨by simp [clamp, Out.assert, hd, Out.bind], ?_⟩
  unfold clamp
  simp only [Out.assert, Bool.false_and, Out.bind, Bool.false_eq_true, if_false]
  by_cases h1 : x < lo
  · simp [h1]
  · rw [if_neg h1, if_neg h1]
    by_cases h2 : x > hi
    · simp [h2]
    · rw [if_neg h2]
      congr 1
      linarith

/-- C42, partial: `clamp` with `lo < hi` is the nearest point of the interval.
Missing: `lo = hi` fails an assertion, and reversed limits are not swapped (`C42_clamp_limits`, `C42_false`). -/
theorem C42_clamp_partial (asserts : Bool) (x lo hi : ℚ) (h : lo < hi) :
    ∃ z, clamp asserts x lo hi = .ok z ∧ NearestIn lo hi x z := by
  have hd : decide (lo < hi) = true := by simpa using h
  unfold clamp
  simp only [Out.assert, hd, Bool.not_true, Bool.and_false, Bool.false_eq_true, if_false, Out.bind]
  by_cases h1 : x < lo
  · refine ⟨lo, by rw [if_pos h1], le_refl _, h.le, fun w hw _ => ?_⟩
    rw [abs_of_nonneg (by linarith), abs_of_nonneg (by linarith)]
    linarith
  · rw [if_neg h1]
    by_cases h2 : x > hi
    · refine ⟨hi, by rw [if_pos h2], h.le, le_refl _, fun w _ hw => ?_⟩
      rw [abs_of_nonpos (by linarith), abs_of_nonpos (by linarith)]
      linarith
    · refine ⟨x, by rw [if_neg h2], by linarith, by linarith, fun w _ _ => ?_⟩
      rw [sub_self, abs_zero]
      exact abs_nonneg _

example : clamp true (7 / 2) 0 3 = .ok 3 ∧ clamp true (-1) 0 3 = .ok 0 ∧ clamp false 2 0 3 = .ok 2 := by decide +kernel

/-- `lerp` is the linear interpolation, in exact arithmetic, whichever branch it takes. -/
theorem C42_lerp (t a b : ℚ) : lerp id t a b = a + t * (b - a) ∧ lerpMixed id t a b = a + t * (b - a) := by
  constructor
  · unfold lerp
    simp only [id, max2_eq, min2_eq]
    by_cases h1 : (t ≤ 0 ∧ b ≥ 0) ∨ (a ≥ 0 ∧ b ≤ 0)
    · rw [if_pos h1]; ring
    · rw [if_neg h1]
      by_cases h2 : t = 1
      · rw [if_pos h2, h2]; ring
      · rw [if_neg h2]
        by_cases ht : t > 1 <;> by_cases hb : b > a <;> simp only [ht, hb, decide_true, decide_false] <;> simp
        · nlinarith
        · nlinarith
        · have : t < 1 := lt_of_le_of_ne (by linarith) h2
          nlinarith
        · have : t < 1 := lt_of_le_of_ne (by linarith) h2
          nlinarith
  · unfold lerpMixed
    simp only [id]
    ring

/-- `lerp` in machine arithmetic reaches its ends exactly: `lerp(0, a, b) = a` and `lerp(1, a, b) = b`, for all
representable `a` and `b` (such that `b - a` does not overflow). -/
theorem C42_lerp_ends (fl : ℚ → ℚ) (R : ℚ → Prop) (hfl : IsRounding fl R) (a b : ℚ) (ha : R a) (hb : R b) :
    lerp fl 0 a b = a ∧ lerp fl 1 a b = b := by
  have f0 := hfl.fix 0 hfl.zero
  have f1 := hfl.fix 1 hfl.one
  have fa := hfl.fix a ha
  have fb := hfl.fix b hb
  constructor
  · unfold lerp
    simp only [sub_zero, f1, zero_mul, f0, one_mul, fa, zero_add, add_zero, max2_eq, min2_eq, le_refl, true_and]
    split
    · rfl
    · rw [if_neg (by norm_num)]
      by_cases h : b > a
      · simp only [h, decide_true, show decide ((0 : ℚ) > 1) = false by decide +kernel]
        simp [h.le]
      · simp only [h, decide_false, show decide ((0 : ℚ) > 1) = false by decide +kernel]
        simp only [beq_self_eq_true, if_true]
        exact max_eq_right (by linarith)
  · unfold lerp
    simp only [sub_self, f0, zero_mul, one_mul, fb, add_zero, if_true, show ¬((1 : ℚ) ≤ 0) by norm_num, false_and, false_or]
    split <;> rfl

/-- `lerp` in machine arithmetic stays between its ends for `0 ≤ t ≤ 1`. -/
theorem C42_lerp_between (fl : ℚ → ℚ) (R : ℚ → Prop) (hfl : IsRounding fl R) (t a b : ℚ) (ha : R a) (hb : R b)
    (h0 : 0 ≤ t) (h1 : t ≤ 1) : min a b ≤ lerp fl t a b ∧ lerp fl t a b ≤ max a b := by
  have f0 := hfl.fix 0 hfl.zero
  have f1 := hfl.fix 1 hfl.one
  have fa := hfl.fix a ha
  have fb := hfl.fix b hb
  rcases h0.eq_or_lt with rfl | h0'
  · rw [(C42_lerp_ends fl R hfl a b ha hb).1]
    exact ⟨min_le_left _ _, le_max_left _ _⟩
  unfold lerp
  by_cases hc : (t ≤ 0 ∧ b ≥ 0) ∨ (a ≥ 0 ∧ b ≤ 0)
  · rw [if_pos hc]
    rcases hc with hc | ⟨hca, hcb⟩
    · exact absurd hc.1 (by linarith)
    have p1 : fl (t * b) ≤ 0 := by
      have := hfl.mono (t * b) 0 (by nlinarith)
      rwa [f0] at this
    have p2 : b ≤ fl (t * b) := by
      have := hfl.mono b (t * b) (by nlinarith)
      rwa [fb] at this
    have q1 : 0 ≤ fl (1 - t) := by
      have := hfl.mono 0 (1 - t) (by linarith)
      rwa [f0] at this
    have q2 : fl (1 - t) ≤ 1 := by
      have := hfl.mono (1 - t) 1 (by linarith)
      rwa [f1] at this
    have r1 : 0 ≤ fl (fl (1 - t) * a) := by
      have := hfl.mono 0 (fl (1 - t) * a) (by positivity)
      rwa [f0] at this
    have r2 : fl (fl (1 - t) * a) ≤ a := by
      have := hfl.mono (fl (1 - t) * a) a (by nlinarith)
      rwa [fa] at this
    rw [min_eq_right (by linarith), max_eq_left (by linarith)]
    constructor
    · have := hfl.mono b (fl (t * b) + fl (fl (1 - t) * a)) (by linarith)
      rwa [fb] at this
    · have := hfl.mono (fl (t * b) + fl (fl (1 - t) * a)) a (by linarith)
      rwa [fa] at this
  · rw [if_neg hc]
    by_cases h2 : t = 1
    · rw [if_pos h2]
      exact ⟨min_le_right _ _, le_max_right _ _⟩
    · rw [if_neg h2]
      have ht : ¬t > 1 := by linarith
      simp only [max2_eq, min2_eq, ht, decide_false]
      by_cases hba : b > a
      · simp only [hba, decide_true]
        have p : 0 ≤ fl (b - a) := by
          have := hfl.mono 0 (b - a) (by linarith)
          rwa [f0] at this
        have q : 0 ≤ fl (t * fl (b - a)) := by
          have := hfl.mono 0 (t * fl (b - a)) (by positivity)
          rwa [f0] at this
        have r : a ≤ fl (a + fl (t * fl (b - a))) := by
          have := hfl.mono a (a + fl (t * fl (b - a))) (by linarith)
          rwa [fa] at this
        rw [min_eq_left hba.le, max_eq_right hba.le]
        simp only [show (false == true) = false by rfl, Bool.false_eq_true, if_false]
        exact ⟨le_min hba.le r, min_le_left _ _⟩
      · simp only [hba, decide_false]
        have hba' : b ≤ a := by linarith
        have p : fl (b - a) ≤ 0 := by
          have := hfl.mono (b - a) 0 (by linarith)
          rwa [f0] at this
        have q : fl (t * fl (b - a)) ≤ 0 := by
          have := hfl.mono (t * fl (b - a)) 0 (by nlinarith)
          rwa [f0] at this
        have r : fl (a + fl (t * fl (b - a))) ≤ a := by
          have := hfl.mono (a + fl (t * fl (b - a))) a (by linarith)
          rwa [fa] at this
        rw [min_eq_right hba', max_eq_left hba']
        simp only [beq_self_eq_true, if_true]
        exact ⟨le_max_left _ _, max_le hba' r⟩

example : lerp (rnd binary64) (rnd binary64 (1 / 10)) 2 (-7) = rnd binary64 (11 / 10) ∧ lerp id (-3) 2 4 = -4 := by
  decide +kernel

/-- `map` sends the ends of the first interval to the ends of the second, and is affine in between and beyond. -/
theorem C42_map (a b c d : ℚ) (h : a ≠ b) :
    map id a a b c d = c ∧ map id b a b c d = d ∧
    ∀ v w r, map id (v + r * (w - v)) a b c d = map id v a b c d + r * (map id w a b c d - map id v a b c d) := by
  have hb : b - a ≠ 0 := sub_ne_zero.mpr (Ne.symm h)
  unfold map
  simp only [id]
  refine ⟨by simp, ?_, fun v w r => ?_⟩
  · field_simp
    ring
  · field_simp
    ring

/-- The polynomial of `smoothStep` is monotone on `[0, 1]`. -/
theorem smoothPoly_mono {a b : ℚ} (ha : 0 ≤ a) (hab : a ≤ b) (hb : b ≤ 1) : smoothPoly id a ≤ smoothPoly id b := by
  obtain ⟨h, rfl⟩ : ∃ h, b = a + h := ⟨b - a, by ring⟩
  obtain ⟨v, hv⟩ : ∃ v, v = 1 - a - h := ⟨_, rfl⟩
  have h0 : 0 ≤ h := by linarith
  have v0 : 0 ≤ v := by linarith
  have key : smoothPoly id (a + h) - smoothPoly id a =
      h * (30*a^2*v^2 + 30*a^2*v*h + 10*a^2*h^2 + 30*a*h*v^2 + 20*a*v*h^2 + 5*a*h^3 + 10*h^2*v^2 + 5*v*h^3 + h^4) := by
    unfold smoothPoly
    simp only [id]
    rw [hv]
    ring
  have : 0 ≤ smoothPoly id (a + h) - smoothPoly id a := by rw [key]; positivity
  linarith

/-- `smoothStep` in exact arithmetic: 0 up to the lower edge, 1 from the upper edge on, always in `[0, 1]`, monotone. -/
theorem C42_smoothStep (asserts : Bool) (lo hi t : ℚ) (h : lo < hi) :
    ∃ s, smoothStep id asserts t lo hi = .ok s ∧ 0 ≤ s ∧ s ≤ 1 ∧ (t ≤ lo → s = 0) ∧ (hi ≤ t → s = 1) ∧
      ∀ t', t ≤ t' → ∃ s', smoothStep id asserts t' lo hi = .ok s' ∧ s ≤ s' := by
  have e : ∀ t, smoothStep id asserts t lo hi = .ok (smoothPoly id (max 0 (min 1 ((t - lo) / (hi - lo))))) := by
    intro t
    unfold smoothStep clamp
    have hd : decide ((0 : ℚ) < 1) = true := by decide +kernel
    simp only [id, Out.assert, hd, Bool.not_true, Bool.and_false, Bool.false_eq_true, if_false, Out.bind]
    generalize (t - lo) / (hi - lo) = q
    by_cases h1 : q < 0
    · rw [if_pos h1, min_eq_right (by linarith), max_eq_left (by linarith)]
    · rw [if_neg h1]
      by_cases h2 : q > 1
      · rw [if_pos h2, min_eq_left (by linarith), max_eq_right (by linarith)]
      · rw [if_neg h2, min_eq_right (by linarith), max_eq_right (by linarith)]
  have hpos : 0 < hi - lo := by linarith
  have z0 : smoothPoly id 0 = 0 := by decide +kernel
  have z1 : smoothPoly id 1 = 1 := by decide +kernel
  have b0 : ∀ q : ℚ, 0 ≤ max 0 (min 1 q) := fun q => le_max_left _ _
  have b1 : ∀ q : ℚ, max 0 (min 1 q) ≤ 1 := fun q => max_le (by norm_num) (min_le_left _ _)
  refine ⟨_, e t, ?_, ?_, fun ht => ?_, fun ht => ?_, fun t' ht => ⟨_, e t', ?_⟩⟩
  · have := smoothPoly_mono (le_refl 0) (b0 ((t - lo) / (hi - lo))) (b1 _)
    rwa [z0] at this
  · have := smoothPoly_mono (b0 ((t - lo) / (hi - lo))) (b1 _) (le_refl 1)
    rwa [z1] at this
  · have : (t - lo) / (hi - lo) ≤ 0 := div_nonpos_of_nonpos_of_nonneg (by linarith) hpos.le
    rw [min_eq_right (by linarith), max_eq_left this, z0]
  · have : 1 ≤ (t - lo) / (hi - lo) := by rw [le_div_iff₀ hpos]; linarith
    rw [min_eq_left this, max_eq_right (by norm_num), z1]
  · refine smoothPoly_mono (b0 _) (max_le_max (le_refl _) (min_le_min (le_refl _) ?_)) (b1 _)
    exact div_le_div_of_nonneg_right (by linarith) hpos.le

example : smoothStep id true (1 / 2) 0 1 = .ok (1 / 2) ∧ smoothStep id true 3 2 6 = .ok (53 / 512) := by decide +kernel

/-- `isClose` is reflexive for a nonnegative absolute tolerance, and symmetric, in every rounding arithmetic. -/
theorem C42_isClose (fl : ℚ → ℚ) (R : ℚ → Prop) (hfl : IsRounding fl R) (a b absTol relTol : ℚ) :
    (0 ≤ absTol → isClose fl a a absTol relTol = true) ∧
    isClose fl a b absTol relTol = isClose fl b a absTol relTol := by
  constructor
  · intro h
    simp only [isClose, sub_self, hfl.fix 0 hfl.zero, abs'_eq, max2_eq, abs_zero, decide_eq_true_eq]
    exact le_trans h (le_max_right _ _)
  · unfold isClose
    simp only [abs'_eq, max2_eq]
    rw [← neg_sub a b, hfl.odd, abs_neg, max_comm |a| |b|]

/-- On `unsigned` values `isClose` is not symmetric: `isClose(1u, 2u, 1.0, 0.0)` but not `isClose(2u, 1u, 1.0, 0.0)`. -/
theorem C42_unsigned_false :
    isCloseU32 (rnd binary64) 1 2 1 0 = true ∧ isCloseU32 (rnd binary64) 2 1 1 0 = false := by
  decide +kernel

end Verif.ScalarM
