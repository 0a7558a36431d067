import Verif.Lemmas.Scalar

/-!
# C40, C41, C56: rounding functions and powers of ten
-/

namespace Verif.ScalarM

open Verif.ScalarS Verif.Ieee

/-! ## C56 -/

/-- C56 in full: `pow10(e)` is the power of ten, in exact arithmetic. -/
def C56Claim : Prop := ∀ e : Int, pow10 id e = (10 : ℚ) ^ e

/-- C56 fails: `pow10(7)` is `10^6`. -/
theorem C56_false : ¬C56Claim := fun h => absurd (h 7) (by decide +kernel)

/-- C56, partial: every exponent other than `7`.
Missing: the exponent `7`, where the table is wrong (`C56_false`). -/
theorem C56_partial (e : Int) (h : e ≠ 7) : pow10 id e = (10 : ℚ) ^ e := pow10_exact h

example : pow10 id (-12) = 1 / 10 ^ 12 ∧ pow10 id 9 = 10 ^ 9 := by
  rw [C56_partial _ (by decide), C56_partial _ (by decide)]
  norm_num

/-! ## C40 -/

/-- What each mode promises for `round(x, d, mode)`, with unit `10^-d` (round.hpp 5-19). -/
def Selected (mode : Mode) (d : Int) (x z : ℚ) : Prop :=
  match mode with
  | .math => NearestAway (10 ^ (-d)) x z
  | .up => AwayFromZero (10 ^ (-d)) x z
  | .down => TowardZero (10 ^ (-d)) x z
  | .halfEven => NearestEven (10 ^ (-d)) x z

/-- C40 in full, in exact arithmetic. -/
def C40Claim : Prop := ∀ (x : ℚ) (d : Int) (mode : Mode), ∃ z, round id x d mode = .ok z ∧ Selected mode d x z

/-- C40, partial: the default mode returns the nearest multiple, ties away from zero.
Missing: seven digits either way (`C40_digits_false`), and the modes `UP` and `HALF_EVEN`. -/
theorem C40_math_partial (x : ℚ) (d : Int) (h7 : d ≠ 7) (hm7 : d ≠ -7) :
    ∃ z, round id x d .math = .ok z ∧ NearestAway (10 ^ (-d)) x z := by
  rw [round_exact h7 hm7, evenStep_of_not (by rfl)]
  refine ⟨_, rfl, ?_⟩
  have hq := q_nonneg x d
  refine assemble (roundY_nonneg _ hq) NearestAway.scale NearestAway.neg (nearestAway_int hq ?_ ?_)
  all_goals
    have h0 := Int.floor_le (|x| * 10 ^ d)
    have h1 := Int.lt_floor_add_one (|x| * 10 ^ d)
    unfold roundY
    have ht : Mode.math.bits.testBit 0 = true := rfl
    simp only [ht, true_and]
    split
    · rename_i h
      push_cast
      linarith
    · rename_i h
      linarith

/-- C40, partial: `DOWN` (and `TRUNC`) truncate.
Missing: as for `C40_math_partial`. -/
theorem C40_down_partial (x : ℚ) (d : Int) (h7 : d ≠ 7) (hm7 : d ≠ -7) :
    ∃ z, round id x d .down = .ok z ∧ TowardZero (10 ^ (-d)) x z := by
  rw [round_exact h7 hm7, evenStep_of_not (by rfl)]
  refine ⟨_, rfl, ?_⟩
  have hq := q_nonneg x d
  refine assemble (roundY_nonneg _ hq) TowardZero.scale TowardZero.neg ?_
  have hr : roundY .down (|x| * 10 ^ d) = ⌊|x| * 10 ^ d⌋ := by
    unfold roundY
    have ht : Mode.down.bits.testBit 0 = false := rfl
    simp [ht]
  rw [hr]
  exact towardZero_floor hq

/-- `UP` is the default mode: for every argument, in every arithmetic, the two return the same. -/
theorem C40_up_is_math (fl : ℚ → ℚ) (x : ℚ) (d : Int) : round fl x d .up = round fl x d .math := rfl

/-- C40, partial: `UP` is right exactly when the part cut off is zero or at least half a unit.
Missing: every argument where it is not, which `UP` rounds towards zero. -/
theorem C40_up_partial (x : ℚ) (d : Int) (h7 : d ≠ 7) (hm7 : d ≠ -7) :
    ∃ z, round id x d .up = .ok z ∧
      (AwayFromZero (10 ^ (-d)) x z ↔ Int.fract (|x| * 10 ^ d) = 0 ∨ 1 / 2 ≤ Int.fract (|x| * 10 ^ d)) := by
  rw [round_exact h7 hm7, evenStep_of_not (by rfl)]
  refine ⟨_, rfl, ?_⟩
  have hq := q_nonneg x d
  have hr : roundY .up (|x| * 10 ^ d) =
      if 1 / 2 ≤ Int.fract (|x| * 10 ^ d) then ⌊|x| * 10 ^ d⌋ + 1 else ⌊|x| * 10 ^ d⌋ := by
    unfold roundY
    have ht : Mode.up.bits.testBit 0 = true := rfl
    simp only [ht, true_and, ge_iff_le]
    rfl
  constructor
  · intro h
    by_contra hn
    push Not at hn
    obtain ⟨hf0, hf1⟩ := hn
    rw [hr, if_neg (by linarith)] at h
    have hx := h.2.1
    have e1 : |copySign (↑⌊|x| * 10 ^ d⌋ * 10 ^ (-d)) x| = ⌊|x| * 10 ^ d⌋ * 10 ^ (-d) := by
      have h3 : (0 : ℚ) ≤ ⌊|x| * 10 ^ d⌋ := by exact_mod_cast Int.floor_nonneg.mpr hq
      have h4 := mul_nonneg h3 (pos10 (-d)).le
      rcases lt_or_ge x 0 with hx | hx
      · rw [copySign_of_neg hx, abs_neg, abs_abs, abs_of_nonneg h4]
      · rw [copySign_of_nonneg hx, abs_abs, abs_of_nonneg h4]
    rw [e1] at hx
    have h5 : |x| * 10 ^ d ≤ ⌊|x| * 10 ^ d⌋ := by
      have := mul_le_mul_of_nonneg_right hx (pos10 d).le
      rwa [mul_assoc, ← zpow_add₀ (by norm_num), neg_add_cancel, zpow_zero, mul_one] at this
    exact hf0 (le_antisymm (by unfold Int.fract; linarith) (Int.fract_nonneg _))
  · intro h
    refine assemble (roundY_nonneg _ hq) AwayFromZero.scale AwayFromZero.neg ?_
    have : roundY .up (|x| * 10 ^ d) = ⌈|x| * 10 ^ d⌉ := by
      rw [hr]
      rcases h with h | h
      · rw [if_neg (by rw [h]; norm_num)]
        exact (Int.ceil_eq_iff.mpr ⟨by unfold Int.fract at h; linarith, by unfold Int.fract at h; linarith⟩).symm
      · rw [if_pos h]
        have h1 := Int.lt_floor_add_one (|x| * 10 ^ d)
        unfold Int.fract at h
        symm
        rw [Int.ceil_eq_iff]
        push_cast
        exact ⟨by linarith, by linarith⟩
    rw [this]
    exact awayFromZero_ceil hq

/-- C40, partial: `HALF_EVEN` is right exactly when the part cut off is at most half a unit; above, it truncates.
It needs the scaled value below `2^64`; from there on the conversion to `uint64_t` is undefined (`C40_halfEven_ub`). -/
theorem C40_halfEven_partial (x : ℚ) (d : Int) (h7 : d ≠ 7) (hm7 : d ≠ -7) (hs : |x| * 10 ^ d < 2 ^ 64) :
    ∃ z, round id x d .halfEven = .ok z ∧
      (NearestEven (10 ^ (-d)) x z ↔ Int.fract (|x| * 10 ^ d) ≤ 1 / 2) := by
  have hq := q_nonneg x d
  have hr : roundY .halfEven (|x| * 10 ^ d) = ⌊|x| * 10 ^ d⌋ := by
    unfold roundY
    have ht : Mode.halfEven.bits.testBit 0 = false := rfl
    simp [ht]
  have hfl : 0 ≤ ⌊|x| * 10 ^ d⌋ := Int.floor_nonneg.mpr hq
  have hlt : ⌊|x| * 10 ^ d⌋ < 2 ^ 64 := by
    have := Int.floor_le (|x| * 10 ^ d)
    have h2 : (⌊|x| * 10 ^ d⌋ : ℚ) < 2 ^ 64 := by linarith
    exact_mod_cast h2
  rw [round_exact h7 hm7, hr, evenStep_halfEven hfl hlt]
  refine ⟨_, rfl, ?_⟩
  have h0 := Int.floor_le (|x| * 10 ^ d)
  have h1 := Int.lt_floor_add_one (|x| * 10 ^ d)
  constructor
  · intro h
    by_contra hn
    push Not at hn
    unfold Int.fract at hn
    rw [if_neg (by linarith)] at h
    -- the next multiple is nearer
    obtain ⟨n, -, hw⟩ := h
    have hu := pos10 (-d)
    have hxd : |x| = |x| * 10 ^ d * 10 ^ (-d) := by
      rw [mul_assoc, ← zpow_add₀ (by norm_num), add_neg_cancel, zpow_zero, mul_one]
    generalize hfq : |x| * 10 ^ d = q at *
    generalize hk : ⌊q⌋ = k at *
    have hkq : (0 : ℚ) ≤ k := by exact_mod_cast hfl
    generalize hud : (10 : ℚ) ^ (-d) = u at *
    have habs : |(k : ℚ) * u| = k * u := abs_of_nonneg (mul_nonneg hkq hu.le)
    have hgap : (k : ℚ) * u + u - q * u < q * u - k * u := by
      have : (k + 1 - q) * u < (q - k) * u := mul_lt_mul_of_pos_right (by linarith) hu
      linarith
    have hlow : (k : ℚ) * u ≤ q * u := mul_le_mul_of_nonneg_right h0 hu.le
    have hhigh : q * u ≤ k * u + u := by
      have := mul_le_mul_of_nonneg_right h1.le hu.le
      linarith
    rcases lt_or_ge x 0 with hx | hx
    · have hx' : x = -(q * u) := by rw [← hxd, abs_of_neg hx]; ring
      rw [copySign_of_neg hx, habs] at hw
      have := hw (-((k + 1 : Int) * u)) (mult_neg ⟨k + 1, rfl⟩)
      push_cast at this
      have a1 : |-(k * u) - x| = q * u - k * u := by
        rw [hx', abs_of_nonneg (by linarith)]; ring
      have a2 : |-((k + 1) * u) - x| = k * u + u - q * u := by
        rw [hx', abs_of_nonpos (by linarith)]; ring
      rw [a1, a2] at this
      rcases this with h | ⟨h, -⟩ <;> linarith
    · have hx' : x = q * u := by rw [← hxd, abs_of_nonneg hx]
      rw [copySign_of_nonneg hx, habs] at hw
      have := hw ((k + 1 : Int) * u) ⟨k + 1, rfl⟩
      push_cast at this
      have a1 : |k * u - x| = q * u - k * u := by
        rw [hx', abs_of_nonpos (by linarith)]; ring
      have a2 : |(k + 1) * u - x| = k * u + u - q * u := by
        rw [hx', abs_of_nonneg (by linarith)]; ring
      rw [a1, a2] at this
      rcases this with h | ⟨h, -⟩ <;> linarith
  · intro h
    unfold Int.fract at h
    refine assemble (by split <;> (try split) <;> omega) NearestEven.scale NearestEven.neg ?_
    generalize |x| * 10 ^ d = q at *
    generalize hk : ⌊q⌋ = k at *
    by_cases ht : q - k = 1 / 2
    · rw [if_pos ht]
      have heven : (if k % 2 = 0 then k else k + 1) % 2 = 0 := by split <;> omega
      refine ⟨_, by rw [mul_one], ?_⟩
      rintro w ⟨m, rfl⟩
      have hz : |((if k % 2 = 0 then k else k + 1 : Int) : ℚ) - q| = 1 / 2 := by
        split
        · rw [abs_of_nonpos (by linarith)]; linarith
        · push_cast
          rw [abs_of_nonneg (by linarith)]; linarith
      rw [hz, mul_one]
      have hm : 1 / 2 ≤ |(m : ℚ) - q| := by
        rcases le_or_gt m k with h | h
        · have : (m : ℚ) ≤ k := by exact_mod_cast h
          rw [abs_of_nonpos (by linarith)]; linarith
        · have : (k : ℚ) + 1 ≤ m := by exact_mod_cast h
          rw [abs_of_nonneg (by linarith)]; linarith
      rcases hm.lt_or_eq with h | h
      · exact .inl h
      · exact .inr ⟨h, .inr heven⟩
    · rw [if_neg ht]
      have hlt : q - k < 1 / 2 := lt_of_le_of_ne h ht
      refine ⟨k, by rw [mul_one], ?_⟩
      rintro w ⟨m, rfl⟩
      rw [mul_one, abs_of_nonpos (by linarith : (k : ℚ) - q ≤ 0)]
      rcases lt_trichotomy m k with h | h | h
      · have : (m : ℚ) + 1 ≤ k := by exact_mod_cast h
        left
        rw [abs_of_nonpos (by linarith)]; linarith
      · subst h
        right
        exact ⟨by rw [abs_of_nonpos (by linarith)], .inl rfl⟩
      · have : (k : ℚ) + 1 ≤ m := by exact_mod_cast h
        left
        rw [abs_of_nonneg (by linarith)]; linarith

/-- `HALF_EVEN` is undefined behaviour from `2^64` units on. -/
theorem C40_halfEven_ub (x : ℚ) (d : Int) (h7 : d ≠ 7) (hm7 : d ≠ -7) (hs : 2 ^ 64 ≤ |x| * 10 ^ d) :
    round id x d .halfEven = .ub := by
  have hr : roundY .halfEven (|x| * 10 ^ d) = ⌊|x| * 10 ^ d⌋ := by
    unfold roundY
    have ht : Mode.halfEven.bits.testBit 0 = false := rfl
    simp [ht]
  have hb : Mode.halfEven.bits.testBit 2 = true := rfl
  have hf : (2 : Int) ^ 64 ≤ ⌊|x| * 10 ^ d⌋ := Int.le_floor.mpr (by exact_mod_cast hs)
  have hf' : ¬(⌊|x| * 10 ^ d⌋ : ℚ) < 2 ^ 64 := by
    rw [not_lt]
    exact_mod_cast hf
  rw [round_exact h7 hm7, hr, evenStep, if_pos hb, toU64, if_neg hf']
  rfl

/-- At seven digits the default mode divides every integer by ten. -/
theorem C40_digits_false (n : Int) : round id (n : ℚ) 7 .math = .ok (n / 10) := by
  have ha : pow10 id 7 = 1000000 := by decide +kernel
  have hb : pow10 id (-7) = 1 / 10000000 := by decide +kernel
  have hm : Mode.math.bits.testBit 0 = true := rfl
  have e : |(n : ℚ) * 1000000| = ((|n| * 1000000 : Int) : ℚ) := by
    push_cast
    rw [abs_mul]
    norm_num
  unfold round
  simp only [ha, hb, id, abs'_eq, e, Int.floor_intCast, sub_self]
  rw [if_neg (by norm_num), evenStep_of_not (by rfl)]
  simp only [Out.bind]
  congr 1
  rcases lt_or_ge n 0 with h | h
  · have hq : (n : ℚ) < 0 := by exact_mod_cast h
    rw [copySign_of_neg hq]
    push_cast
    rw [abs_mul, abs_mul, abs_abs, abs_of_neg hq]
    norm_num
    ring
  · have hq : (0 : ℚ) ≤ n := by exact_mod_cast h
    rw [copySign_of_nonneg hq]
    push_cast
    rw [abs_mul, abs_mul, abs_abs, abs_of_nonneg hq]
    norm_num
    ring

/-- C40 fails: `round(2.25, 0, UP)` is 2. -/
theorem C40_false : ¬C40Claim := by
  intro h
  obtain ⟨z, hz, hs⟩ := h (9 / 4) 0 .up
  have e : round id (9 / 4) 0 .up = .ok 2 := by decide +kernel
  rw [e] at hz
  cases hz
  have := hs.2.1
  norm_num at this

/-- The failing values of `UP` and `HALF_EVEN`, in the arithmetic of the machine: `2.25` up gives 2, `2.75` to even gives
2, and one at seven digits gives about `0.1`. -/
theorem C40_double_false :
    round (rnd binary64) (9 / 4) 0 .up = .ok 2 ∧ round (rnd binary64) (11 / 4) 0 .halfEven = .ok 2 ∧
      round (rnd binary64) 1 7 .math = .ok (rnd binary64 (1000000 * rnd binary64 (1 / 10000000))) := by
  decide +kernel

/-- Rounding to whole numbers is exact on the machine: for every representable value and every mode, the computation in
floating point (`double`, `float`, any binary format) returns what exact arithmetic does.
(With other digit counts the unit `10^-d` itself is not representable.) -/
theorem C40_double (f : Fmt) (he : f.emin ≤ 0) (x : ℚ) (hx : Repr f x) (mode : Mode) :
    round (rnd f) x 0 mode = round id x 0 mode := by
  have h1 : Repr f 1 := by simpa using repr_two_zpow (f := f) (e := 0) he
  have hp : pow10 (rnd f) 0 = 1 := by
    have : pow10 (rnd f) 0 = rnd f 1 := rfl
    rw [this, rnd_of_repr h1]
  have hp' : pow10 id 0 = 1 := rfl
  obtain ⟨hfl, hfr, hnext⟩ := repr_parts he hx
  unfold round
  simp only [neg_zero, hp, hp', mul_one, rnd_of_repr hx, id, abs'_eq, rnd_of_repr hfr]
  generalize hy : (if mode.bits.testBit 0 = true ∧ |x| - ↑⌊|x|⌋ ≥ 1 / 2 then rnd f (↑⌊|x|⌋ + 1) else ↑⌊|x|⌋) = y
  generalize hy' : (if mode.bits.testBit 0 = true ∧ |x| - ↑⌊|x|⌋ ≥ 1 / 2 then ((⌊|x|⌋ : ℚ) + 1) else (⌊|x|⌋ : ℚ)) = y'
  have hyy : y = y' := by
    rw [← hy, ← hy']
    split
    · rename_i h
      exact rnd_of_repr (hnext (by have := h.2; intro h0; rw [h0] at this; norm_num at this))
    · rfl
  have hry : Repr f y := by
    rw [← hy]
    split
    · exact repr_rnd f _
    · exact hfl
  rw [← hyy]
  -- the mode HALF_EVEN changes `y` only at a tie
  by_cases hb : mode.bits.testBit 2 = true
  · have hm : mode = .halfEven := by cases mode <;> first | rfl | (exact absurd hb (by decide))
    subst hm
    have ht : Mode.halfEven.bits.testBit 0 = false := rfl
    have hyf : y = ⌊|x|⌋ := by rw [← hy, ht]; simp
    unfold evenStep
    rw [if_pos hb, if_pos hb]
    cases hc : toU64 y with
    | throw e => rfl
    | ub => rfl
    | ok n =>
      simp only [Out.bind, id]
      have hn : (n : ℚ) = y := by
        unfold toU64 at hc
        split at hc
        · cases hc
          have h0 : 0 ≤ ⌊|x|⌋ := Int.floor_nonneg.mpr (abs_nonneg x)
          rw [hyf, Int.floor_intCast, ← Int.cast_natCast, Int.toNat_of_nonneg h0]
        · cases hc
      by_cases htie : |x| - ↑⌊|x|⌋ = 1 / 2
      · have hnx := hnext (by rw [htie]; norm_num)
        rw [← hyf] at hnx
        rw [rnd_of_repr hnx]
        congr 2
        apply rnd_of_repr
        split
        · split
          · exact hnx
          · rw [hn]; exact hry
        · exact hry
      · rw [if_neg (fun h => htie h.2), if_neg (fun h => htie h.2), rnd_of_repr hry]
  · have hb' : mode.bits.testBit 2 = false := by simpa using hb
    rw [evenStep_of_not hb', evenStep_of_not hb']
    simp only [Out.bind, rnd_of_repr hry]

/-- The default mode, computed in `double` at no digits, is the nearest integer with ties away from zero, for every finite
`double`. -/
theorem C40_double_nearest (x : ℚ) (hx : Repr binary64 x) :
    ∃ z, round (rnd binary64) x 0 .math = .ok z ∧ NearestAway 1 x z := by
  obtain ⟨z, hz, hn⟩ := C40_math_partial x 0 (by decide) (by decide)
  exact ⟨z, by rw [C40_double _ (by decide) x hx, hz], by simpa using hn⟩

example : round (rnd binary64) (-5 / 2) 0 .math = .ok (-3) ∧ round id (-5 / 2) 0 .halfEven = .ok (-2) ∧
    round id (12345 / 1000) 2 .math = .ok (1235 / 100) ∧ round id (-12345 / 1000) 1 .down = .ok (-123 / 10) := by
  decide +kernel

example : Repr binary64 (-5 / 2) := ⟨-5, -1, by decide, by decide, by norm_num⟩

/-! ## C41 -/

/-- C41 in full: in exact arithmetic on reals, and on integers. -/
def C41Claim : Prop :=
  (∀ x v : ℚ, 0 < v → Nearest v x (roundTo id x v) ∧ LeastAbove v x (roundUpTo id x v)) ∧
  (∀ x v : Int, 0 < v → (∃ z, roundToI x v = .ok z ∧ Nearest v x z) ∧ (∃ z, roundUpToI x v = .ok z ∧ LeastAbove v x z))

/-- C41, partial: `roundTo` on reals is right exactly for nonnegative values, multiples, and negative values whose
remainder is at least half the step.
Missing: the negative values with a smaller remainder, for which the result is not even a multiple. -/
theorem C41_roundTo_partial (x v : ℚ) (hv : 0 < v) :
    (Nearest v x (roundTo id x v) ↔ 0 ≤ x ∨ Int.fract (|x| / v) = 0 ∨ 1 / 2 ≤ Int.fract (|x| / v)) ∧
    (x < 0 → 0 < Int.fract (|x| / v) → Int.fract (|x| / v) < 1 / 2 → ¬Mult v (roundTo id x v)) := by
  rw [roundTo_exact hv]
  have hq : 0 ≤ |x| / v := div_nonneg (abs_nonneg x) hv.le
  have hx : |x| = |x| / v * v := by field_simp
  generalize hqq : |x| / v = q at *
  have h0 := Int.floor_le q
  have h1 := Int.lt_floor_add_one q
  have hk : (0 : ℚ) ≤ ⌊q⌋ := by exact_mod_cast Int.floor_nonneg.mpr hq
  have hfr : Int.fract q = q - ⌊q⌋ := rfl
  have hbad : x < 0 → 0 < Int.fract q → Int.fract q < 1 / 2 →
      ¬Mult v (if 1 / 2 ≤ Int.fract q then copySign ((⌊q⌋ + 1) * v) x
        else if 0 ≤ x then ⌊q⌋ * v else -(⌊q⌋ * v + 2 * Int.fract q * v)) := by
    intro hneg hpos hlt hm
    rw [if_neg (by linarith), if_neg (by linarith)] at hm
    obtain ⟨n, hn⟩ := hm
    have h2 : (2 * Int.fract q) = ((-n - ⌊q⌋ : Int) : ℚ) := by
      push_cast
      have : (2 * Int.fract q) * v = (-(n : ℚ) - ⌊q⌋) * v := by linarith
      exact mul_right_cancel₀ hv.ne' this
    have h3 : (0 : ℚ) < ((-n - ⌊q⌋ : Int) : ℚ) := by rw [← h2]; linarith
    have h4 : ((-n - ⌊q⌋ : Int) : ℚ) < 1 := by rw [← h2]; linarith
    have h5 : 0 < -n - ⌊q⌋ := by exact_mod_cast h3
    have h6 : -n - ⌊q⌋ < 1 := by exact_mod_cast h4
    omega
  refine ⟨⟨fun h => ?_, fun h => ?_⟩, hbad⟩
  · by_contra hc
    push Not at hc
    obtain ⟨hneg, hne, hlt⟩ := hc
    exact hbad hneg (lt_of_le_of_ne (Int.fract_nonneg q) (Ne.symm hne)) hlt h.1
  · have key : ∃ Y : Int, (0 : Int) ≤ Y ∧ (Y : ℚ) ≤ q + 1 / 2 ∧ q < Y + 1 / 2 ∧
        (if 1 / 2 ≤ Int.fract q then copySign ((⌊q⌋ + 1) * v) x
        else if 0 ≤ x then ⌊q⌋ * v else -(⌊q⌋ * v + 2 * Int.fract q * v)) =
          if 0 ≤ x then (Y : ℚ) * v else -(Y * v) := by
      have hk' : 0 ≤ ⌊q⌋ := Int.floor_nonneg.mpr hq
      by_cases hh : 1 / 2 ≤ Int.fract q
      · refine ⟨⌊q⌋ + 1, by omega, by push_cast; linarith, by push_cast; linarith, ?_⟩
        rw [if_pos hh]
        have hp : (0 : ℚ) ≤ (⌊q⌋ + 1) * v := by positivity
        push_cast
        split
        · rename_i hx; rw [copySign_of_nonneg hx, abs_of_nonneg hp]
        · rename_i hx; rw [copySign_of_neg (by linarith), abs_of_nonneg hp]
      · refine ⟨⌊q⌋, hk', by linarith, by linarith, ?_⟩
        rw [if_neg hh]
        split
        · rfl
        · rename_i hx
          rcases h with h | h | h
          · exact absurd h hx
          · rw [h]; ring
          · exact absurd h hh
    obtain ⟨Y, hY, h3, h4, e⟩ := key
    rw [e]
    have hn := NearestAway.scale hv (nearestAway_int hq h3 h4)
    rw [← hx] at hn
    split
    · rename_i hx0
      rw [abs_of_nonneg hx0] at hn
      exact NearestAway.nearest hn
    · rename_i hx0
      rw [abs_of_neg (by linarith)] at hn
      have := NearestAway.neg hn
      rw [neg_neg] at this
      exact NearestAway.nearest this

/-- C41, partial: `roundUpTo` on reals is right exactly for nonnegative values and multiples; for the other negative values
the result is one step too high.
Missing: negative values that are not multiples. -/
theorem C41_roundUpTo_partial (x v : ℚ) (hv : 0 < v) :
    (LeastAbove v x (roundUpTo id x v) ↔ 0 ≤ x ∨ Mult v x) ∧
    (x < 0 → ¬Mult v x → LeastAbove v x (roundUpTo id x v - v)) := by
  have hm : Mult v x ↔ fmod x v = 0 := fmod_eq_zero hv
  by_cases hz : fmod x v = 0
  · have hmx := hm.mpr hz
    have e : roundUpTo id x v = x := by simp [roundUpTo, hz]
    rw [e]
    exact ⟨⟨fun _ => .inr hmx, fun _ => ⟨hmx, le_refl _, fun w _ h => h⟩⟩, fun _ h => absurd hmx h⟩
  · have e : roundUpTo id x v = (trunc (x / v) + 1) * v := by
      unfold roundUpTo
      simp only [id]
      rw [if_neg hz, fmod]
      ring
    have hnm : ¬Mult v x := fun h => hz (hm.mp h)
    have hc : LeastAbove v x (⌈x / v⌉ * v) := leastAbove_ceil hv x
    have hni : x / v ≠ ⌊x / v⌋ := fun h => hnm ⟨⌊x / v⌋, by rw [← h]; field_simp⟩
    have hcf : ⌈x / v⌉ = ⌊x / v⌋ + 1 := by
      rw [Int.ceil_eq_iff]
      push_cast
      have a := lt_of_le_of_ne (Int.floor_le (x / v)) (Ne.symm hni)
      have b := Int.lt_floor_add_one (x / v)
      exact ⟨by linarith, b.le⟩
    rcases le_or_gt 0 x with hx | hx
    · rw [e, trunc_of_nonneg (div_nonneg hx hv.le)]
      have : ((⌊x / v⌋ : ℚ) + 1) * v = ⌈x / v⌉ * v := by rw [hcf]; push_cast; rfl
      rw [this]
      exact ⟨⟨fun _ => .inl hx, fun _ => hc⟩, fun h => absurd h (by linarith)⟩
    · rw [e, trunc_of_neg (div_neg_of_neg_of_pos hx hv)]
      have e2 : ((⌈x / v⌉ : ℚ) + 1) * v - v = ⌈x / v⌉ * v := by ring
      rw [e2]
      refine ⟨⟨fun h => ?_, fun h => ?_⟩, fun _ _ => hc⟩
      · have := h.2.2 _ hc.1 hc.2.1
        linarith
      · rcases h with h | h
        · linarith
        · exact absurd h hnm

/-- C41, partial: `roundTo` on positive integers is right exactly when the remainder is not the rounded-down half of the
step; in particular for every even step.
Missing: negative values (as for reals), and odd steps at the remainder `(v - 1) / 2`, which are rounded the wrong way. -/
theorem C41_roundToI_partial (x v : Int) (hx : 0 < x) (hv : 0 < v) :
    ∃ z, roundToI x v = .ok z ∧ (Nearest v x z ↔ x % v * 2 + 1 ≠ v) ∧ (v % 2 = 0 → Nearest v x z) := by
  have hv0 : v ≠ 0 := by omega
  have hmod : Int.tmod x v = x % v := Int.tmod_eq_emod_of_nonneg hx.le
  have hdiv : Int.tdiv v 2 = v / 2 := Int.tdiv_eq_ediv_of_nonneg hv.le
  have habs : |x| = x := abs_of_pos hx
  have hr0 := Int.emod_nonneg x hv0
  have hr1 := Int.emod_lt_of_pos x hv
  have hdm := Int.mul_ediv_add_emod x v
  have hkk : 0 ≤ v * (x / v) := mul_nonneg hv.le (Int.ediv_nonneg hx.le hv.le)
  -- the nearest multiples of an integer
  have near : ∀ z : Int, v ∣ z → (Nearest v x z ↔ |z - x| * 2 ≤ v) := fun z hz => nearest_int_iff hv hz
  have hdvd1 : v ∣ x - x % v := by
    refine ⟨x / v, ?_⟩
    omega
  have hdvd2 : v ∣ x + v - x % v := by
    have : x + v - x % v = (x - x % v) + v := by ring
    rw [this]
    exact (Int.dvd_add_right hdvd1).mpr (dvd_refl v)
  unfold roundToI
  rw [if_neg (by omega), if_neg hv0]
  simp only [habs, hmod, hdiv]
  by_cases hc : x % v ≥ v / 2
  · rw [if_pos hc]
    refine ⟨_, rfl, ?_⟩
    have hz : copySignI (x + v - x % v) x = x + v - x % v := by
      rw [copySignI, if_neg (by omega), abs_of_nonneg (by omega)]
    have h1 : (Nearest v x ((copySignI (x + v - x % v) x : Int) : ℚ)) ↔ (v - x % v) * 2 ≤ v := by
      rw [hz, near _ hdvd2, show x + v - x % v - x = v - x % v by ring, abs_of_nonneg (by omega)]
    rw [h1]
    constructor
    · constructor <;> intro h <;> omega
    · intro h; omega
  · rw [if_neg hc]
    refine ⟨_, rfl, ?_⟩
    have hz : copySignI (x - x % v) x = x - x % v := by
      rw [copySignI, if_neg (by omega), abs_of_nonneg (by omega)]
    have h1 : (Nearest v x ((copySignI (x - x % v) x : Int) : ℚ)) ↔ (x % v) * 2 ≤ v := by
      rw [hz, near _ hdvd1, show x - x % v - x = -(x % v) by ring, abs_neg, abs_of_nonneg hr0]
    rw [h1]
    constructor
    · constructor <;> intro h <;> omega
    · intro h; omega

/-- C41, partial: `roundUpTo` on nonnegative integers.
Missing: negative values that are not multiples. -/
theorem C41_roundUpToI_partial (x v : Int) (hx : 0 ≤ x) (hv : 0 < v) :
    ∃ z, roundUpToI x v = .ok z ∧ LeastAbove v x z := by
  have hvq : (0 : ℚ) < v := by exact_mod_cast hv
  have h := (C41_roundUpTo_partial x v hvq).1.mpr (.inl (by exact_mod_cast hx))
  have hmod : Int.tmod x v = x % v := Int.tmod_eq_emod_of_nonneg hx
  have hfm : fmod (x : ℚ) v = ((x % v : Int) : ℚ) := fmod_int hx hv
  unfold roundUpToI
  rw [if_neg (by omega)]
  simp only [hmod]
  unfold roundUpTo at h
  simp only [hfm, id] at h
  by_cases hz : x % v = 0
  · rw [if_pos hz]
    rw [if_pos (by exact_mod_cast hz)] at h
    exact ⟨_, rfl, h⟩
  · rw [if_neg hz]
    rw [if_neg (by exact_mod_cast hz)] at h
    exact ⟨_, rfl, by push_cast at h ⊢; exact h⟩

/-- Rounding a nonzero integer to a multiple of one moves it away from zero by one. -/
theorem C41_unit_false (x : Int) (hx : x ≠ 0) : roundToI x 1 = .ok (if x < 0 then x - 1 else x + 1) := by
  unfold roundToI
  rw [if_neg hx, if_neg (by decide)]
  have : Int.tmod |x| 1 = 0 := Int.tmod_one _
  simp only [this]
  rw [if_pos (by decide)]
  unfold copySignI
  congr 1
  split
  · rename_i h; rw [abs_of_neg h, abs_of_nonneg (by omega)]; ring
  · rename_i h; rw [abs_of_nonneg (by omega : 0 ≤ x), abs_of_nonneg (by omega)]; ring

/-- C41 fails: `roundTo(-7, 5)` is `-9`. -/
theorem C41_false : ¬C41Claim := by
  intro h
  have h1 := (h.1 (-7) 5 (by norm_num)).1.1
  have e : roundTo id (-7) 5 = -9 := by decide +kernel
  rw [e] at h1
  obtain ⟨n, hn⟩ := h1
  have : (-9 : Int) = n * 5 := by exact_mod_cast hn
  omega

/-- The failing cases, also in `double` arithmetic: `roundTo(-7, 5) = -9`, `roundUpTo(-7, 5) = 0`, and on integers
`roundTo(1, 3) = 3`. -/
theorem C41_double_false :
    roundTo (rnd binary64) (-7) 5 = -9 ∧ roundUpTo (rnd binary64) (-7) 5 = 0 ∧ roundToI 1 3 = .ok 3 := by
  decide +kernel

example : roundTo id 13 5 = 15 ∧ roundTo id (-13) 5 = -15 ∧ roundTo id 12 5 = 10 ∧ roundUpTo id 12 5 = 15 ∧
    roundUpTo id (-10) 5 = -10 ∧ roundToI 7 4 = .ok 8 ∧ roundUpToI 12 5 = .ok 15 := by decide +kernel

end Verif.ScalarM
