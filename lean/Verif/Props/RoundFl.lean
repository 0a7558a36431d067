import Verif.Props.Round
import Verif.Lemmas.FloatSum
import Mathlib.Tactic.IntervalCases

/-!
# C153: rounding to decimals in floating point
-/

namespace Verif.ScalarM

open Verif.ScalarS Verif.Ieee

/-- The whole property, of `double`: rounding keeps the order in every mode, does not change the double nearest to a number with `d` decimals,
and rounding twice is rounding once. -/
def C153Claim : Prop :=
  (∀ (mode : Mode) (x y : ℚ) (d : Int) (a b : ℚ), Repr binary64 x → Repr binary64 y → x ≤ y → round (rnd binary64) x d mode = .ok a →
    round (rnd binary64) y d mode = .ok b → a ≤ b) ∧
  (∀ (n : Int) (d : Int), 1 ≤ d → d ≤ 22 → |n| ≤ 2 ^ 47 →
    round (rnd binary64) (rnd binary64 (n / 10 ^ d)) d .math = .ok (rnd binary64 (n / 10 ^ d))) ∧
  ∀ (x : ℚ) (d : Int) (a : ℚ), Repr binary64 x → 1 ≤ d → d ≤ 22 → |x| * 10 ^ d ≤ 2 ^ 47 → round (rnd binary64) x d .math = .ok a →
    round (rnd binary64) a d .math = .ok a

variable {f : Fmt}

theorem mulLoop_nonneg {c : ℚ} (hc : 0 ≤ c) : ∀ (n : Nat) (r : ℚ), 0 ≤ r → 0 ≤ mulLoop (rnd f) c n r
  | 0, _, h => h
  | n + 1, r, h => mulLoop_nonneg hc n _ (rnd_nonneg (mul_nonneg h hc))

theorem pow10_nonneg (f : Fmt) (e : Int) : 0 ≤ pow10 (rnd f) e := by
  unfold pow10
  split
  · refine rnd_nonneg ?_
    have : ∀ p ∈ pows, (0 : ℚ) ≤ p := by decide +kernel
    exact this _ (List.getElem_mem _)
  · split
    · exact mulLoop_nonneg (by norm_num) _ _ (by norm_num)
    · exact mulLoop_nonneg (rnd_nonneg (by norm_num)) _ _ (by norm_num)

/-- The integer that is multiplied by the unit: the number of units to the nearest integer, or cut off. -/
def units (mode : Mode) (A : ℚ) : Int := if mode = .down then ⌊A⌋ else ⌊A + 1 / 2⌋

theorem floor_half (A : ℚ) : ⌊A + 1 / 2⌋ = if A - ⌊A⌋ ≥ 1 / 2 then ⌊A⌋ + 1 else ⌊A⌋ := by
  have h0 := Int.floor_le A
  have h1 := Int.lt_floor_add_one A
  split
  · rename_i h
    rw [Int.floor_eq_iff]
    push_cast
    constructor <;> linarith
  · rename_i h
    push Not at h
    rw [Int.floor_eq_iff]
    constructor <;> linarith

/-- What the code computes, for every digit count: only the scaling and the last product are rounded. -/
theorem round_units (he : f.emin ≤ 0) {mode : Mode} (hm : mode ≠ .halfEven) (x : ℚ) (d : Int) :
    round (rnd f) x d mode = .ok (copySign (rnd f (units mode |rnd f (x * pow10 (rnd f) d)| * pow10 (rnd f) (-d))) x) := by
  have hA : Repr f |rnd f (x * pow10 (rnd f) d)| := by
    rcases abs_choice (rnd f (x * pow10 (rnd f) d)) with h | h
    · rw [h]; exact repr_rnd _ _
    · rw [h]; exact repr_neg (repr_rnd _ _)
  unfold round
  simp only [abs'_eq]
  have hA0 : 0 ≤ |rnd f (x * pow10 (rnd f) d)| := abs_nonneg _
  generalize |rnd f (x * pow10 (rnd f) d)| = A at hA hA0
  obtain ⟨-, hfr, hnext⟩ := repr_parts he hA
  rw [abs_of_nonneg hA0] at hfr hnext
  rw [rnd_of_repr hfr]
  have e2 : mode.bits.testBit 2 = false := by cases mode <;> first | rfl | exact absurd rfl hm
  rw [evenStep_of_not e2]
  show Out.ok _ = Out.ok _
  congr 3
  congr 1
  unfold units
  by_cases hd : mode = .down
  · subst hd
    have : Mode.down.bits.testBit 0 = false := rfl
    rw [if_pos rfl, if_neg (by rw [this]; simp)]
  · rw [if_neg hd, floor_half]
    have : mode.bits.testBit 0 = true := by cases mode <;> first | rfl | exact absurd rfl hm | exact absurd rfl hd
    simp only [this, true_and]
    split
    · rename_i h
      rw [rnd_of_repr (hnext (by intro h0; rw [h0] at h; norm_num at h))]
      push_cast
      rfl
    · rfl

theorem units_mono (mode : Mode) {A B : ℚ} (h : A ≤ B) : units mode A ≤ units mode B := by
  unfold units
  split
  · exact Int.floor_mono h
  · exact Int.floor_mono (by linarith)

theorem units_nonneg (mode : Mode) {A : ℚ} (h : 0 ≤ A) : (0 : ℚ) ≤ units mode A := by
  have : 0 ≤ units mode A := by
    unfold units
    split
    · exact Int.floor_nonneg.mpr h
    · exact Int.floor_nonneg.mpr (by linarith)
  exact_mod_cast this

theorem mag_nonneg (mode : Mode) (x : ℚ) (d : Int) :
    0 ≤ rnd f (units mode |rnd f (x * pow10 (rnd f) d)| * pow10 (rnd f) (-d)) :=
  rnd_nonneg (mul_nonneg (units_nonneg _ (abs_nonneg _)) (pow10_nonneg _ _))

theorem abs_rnd (f : Fmt) (x : ℚ) : |rnd f x| = rnd f |x| := by
  rcases le_total 0 x with h | h
  · rw [abs_of_nonneg h, abs_of_nonneg (rnd_nonneg h)]
  · have := rnd_nonneg (f := f) (x := -x) (by linarith)
    rw [abs_of_nonpos h, rnd_neg, abs_of_nonpos (by rw [rnd_neg] at this; linarith)]

theorem mag_mono (mode : Mode) {x y : ℚ} (d : Int) (h : |x| ≤ |y|) :
    rnd f (units mode |rnd f (x * pow10 (rnd f) d)| * pow10 (rnd f) (-d)) ≤
      rnd f (units mode |rnd f (y * pow10 (rnd f) d)| * pow10 (rnd f) (-d)) := by
  refine rnd_mono (mul_le_mul_of_nonneg_right ?_ (pow10_nonneg _ _))
  have h1 : |rnd f (x * pow10 (rnd f) d)| ≤ |rnd f (y * pow10 (rnd f) d)| := by
    rw [abs_rnd, abs_rnd, abs_mul, abs_mul]
    exact rnd_mono (mul_le_mul_of_nonneg_right h (abs_nonneg _))
  exact_mod_cast units_mono mode h1

/-- C153, partial: in the default mode, `UP` and `DOWN` rounding keeps the order, for every digit count and every floating format.
Missing: `HALF_EVEN` (`C153_halfEven_order`), and overflow. -/
theorem C153_order_partial (he : f.emin ≤ 0) {mode : Mode} (hm : mode ≠ .halfEven) {x y : ℚ} (d : Int) (h : x ≤ y) :
    ∃ a b, round (rnd f) x d mode = .ok a ∧ round (rnd f) y d mode = .ok b ∧ a ≤ b := by
  refine ⟨_, _, round_units he hm x d, round_units he hm y d, ?_⟩
  have hx := mag_nonneg (f := f) mode x d
  have hy := mag_nonneg (f := f) mode y d
  rcases lt_or_ge x 0 with h0 | h0
  · rw [copySign_of_neg h0, abs_of_nonneg hx]
    rcases lt_or_ge y 0 with h1 | h1
    · rw [copySign_of_neg h1, abs_of_nonneg hy]
      have := mag_mono (f := f) mode d (x := y) (y := x) (by rw [abs_of_neg h0, abs_of_neg h1]; linarith)
      linarith
    · rw [copySign_of_nonneg h1, abs_of_nonneg hy]
      linarith
  · have h1 : 0 ≤ y := h0.trans h
    rw [copySign_of_nonneg h0, abs_of_nonneg hx, copySign_of_nonneg h1, abs_of_nonneg hy]
    exact mag_mono mode d (by rwa [abs_of_nonneg h0, abs_of_nonneg h1])

/-- Rounding is odd: the negated number rounds to the negated result (but for the sign of zero, which the model does not have). -/
theorem C153_odd (he : f.emin ≤ 0) {mode : Mode} (hm : mode ≠ .halfEven) (x : ℚ) (hx : x ≠ 0) (d : Int) :
    ∃ a, round (rnd f) x d mode = .ok a ∧ round (rnd f) (-x) d mode = .ok (-a) := by
  refine ⟨_, round_units he hm x d, ?_⟩
  rw [round_units he hm (-x) d, neg_mul, rnd_neg, abs_neg]
  congr 1
  rcases lt_or_gt_of_ne hx with h | h
  · rw [copySign_of_neg h, copySign_of_nonneg (by linarith), neg_neg]
  · rw [copySign_of_nonneg h.le, copySign_of_neg (by linarith)]

/-- `HALF_EVEN` does not keep the order: `1.5` rounds to `2` and `1.75` to `1`. -/
theorem C153_halfEven_order :
    round (rnd binary64) (3 / 2) 0 .halfEven = .ok 2 ∧ round (rnd binary64) (7 / 4) 0 .halfEven = .ok 1 := by
  constructor <;> decide +kernel

/-! ## Accuracy -/

theorem alpha_exact {d : Int} (h1 : 1 ≤ d) (h2 : d ≤ 22) (h7 : d ≠ 7) : pow10 (rnd binary64) d = 10 ^ d := by
  interval_cases d <;> first | exact absurd rfl h7 | decide +kernel

/-- How many units in the last place the small power of ten may be off. -/
def betaErr (d : Int) : ℚ := if d ≤ 6 then 1 else 12

theorem beta_close {d : Int} (h1 : 1 ≤ d) (h2 : d ≤ 22) (h7 : d ≠ 7) :
    |pow10 (rnd binary64) (-d) * 10 ^ d - 1| ≤ betaErr d * 2 ^ (-53 : Int) := by
  interval_cases d <;> first | exact absurd rfl h7 | decide +kernel

theorem beta_ge {d : Int} (h1 : 1 ≤ d) (h2 : d ≤ 22) : 1 / 10 ^ 23 ≤ pow10 (rnd binary64) (-d) := by
  interval_cases d <;> decide +kernel

theorem betaErr_bounds (d : Int) : 1 ≤ betaErr d ∧ betaErr d ≤ 12 := by
  unfold betaErr
  split <;> norm_num

/-- Numbers that are not tiny are rounded with a small relative error. -/
theorem rnd_rel64 {x : ℚ} (h : 1 / 10 ^ 23 ≤ |x|) : |rnd binary64 x - x| ≤ 2 ^ (-53 : Int) * |x| := by
  refine rnd_rel (f := binary64) (le_trans ?_ h)
  refine le_trans (b := (2 : ℚ) ^ (-100 : Int)) (zpow_le_zpow_right₀ (by norm_num) (by decide)) (by norm_num)

/-- The last product, against the number of units. -/
theorem product_close {d : Int} (h1 : 1 ≤ d) (h2 : d ≤ 22) (h7 : d ≠ 7) (k : Int) :
    |rnd binary64 (k * pow10 (rnd binary64) (-d)) - k / 10 ^ d| ≤ (betaErr d + 2) * 2 ^ (-53 : Int) * |(k : ℚ) / 10 ^ d| := by
  rcases eq_or_ne k 0 with rfl | hk
  · simp
  have hb := beta_close h1 h2 h7
  have hge := beta_ge h1 h2
  obtain ⟨hc1, hc2⟩ := betaErr_bounds d
  generalize pow10 (rnd binary64) (-d) = β at hb hge
  have hk1 : (1 : ℚ) ≤ |(k : ℚ)| := by
    have := Int.one_le_abs hk
    exact_mod_cast this
  have hβ : 0 < β := lt_of_lt_of_le (by norm_num) hge
  have hr := rnd_rel64 (x := k * β) (by
    rw [abs_mul, abs_of_pos hβ]
    calc (1 : ℚ) / 10 ^ 23 ≤ β := hge
      _ = 1 * β := (one_mul _).symm
      _ ≤ _ := mul_le_mul_of_nonneg_right hk1 hβ.le)
  have hp : (0 : ℚ) < 10 ^ d := zpow_pos (by norm_num) _
  have e : (k : ℚ) * β - k / 10 ^ d = k / 10 ^ d * (β * 10 ^ d - 1) := by
    field_simp
  have hd : |(k : ℚ) * β - k / 10 ^ d| ≤ |(k : ℚ) / 10 ^ d| * (betaErr d * 2 ^ (-53 : Int)) := by
    rw [e, abs_mul]
    exact mul_le_mul_of_nonneg_left hb (abs_nonneg _)
  have ht := abs_sub_le (rnd binary64 (k * β)) (k * β) (k / 10 ^ d)
  have hs := abs_sub_abs_le_abs_sub ((k : ℚ) * β) (k / 10 ^ d)
  have hu : (2 : ℚ) ^ (-53 : Int) * 12 ≤ 1 := by norm_num
  have hu0 : (0 : ℚ) < 2 ^ (-53 : Int) := zpow_pos (by norm_num) _
  have hK : 0 ≤ |(k : ℚ) / 10 ^ d| := abs_nonneg _
  generalize (2 : ℚ) ^ (-53 : Int) = u at *
  generalize |(k : ℚ) / 10 ^ d| = K at *
  have h3 : |(k : ℚ) * β| ≤ K + K * (betaErr d * u) := by linarith
  have h4 : u * |(k : ℚ) * β| ≤ u * (K + K * (betaErr d * u)) := mul_le_mul_of_nonneg_left h3 hu0.le
  have h5 : betaErr d * u ≤ 1 := by nlinarith
  have h6 : K * u * (betaErr d * u) ≤ K * u * 1 := mul_le_mul_of_nonneg_left h5 (mul_nonneg hK hu0.le)
  nlinarith

/-- The result is the product of the unit and an integer nearest to the scaled argument. -/
theorem round_int (x : ℚ) {d : Int} (h1 : 1 ≤ d) (h2 : d ≤ 22) (h7 : d ≠ 7) :
    ∃ k : Int, |(k : ℚ) - rnd binary64 (x * 10 ^ d)| ≤ 1 / 2 ∧
      round (rnd binary64) x d .math = .ok (rnd binary64 (k * pow10 (rnd binary64) (-d))) := by
  have hp : (0 : ℚ) < 10 ^ d := zpow_pos (by norm_num) _
  have hm := mag_nonneg (f := binary64) .math x d
  rw [round_units (by decide) (by decide)]
  rw [alpha_exact h1 h2 h7] at hm ⊢
  have hk : ∀ A : ℚ, |(units .math A : ℚ) - A| ≤ 1 / 2 := by
    intro A
    unfold units
    rw [if_neg (by decide), abs_le]
    have h0 := Int.floor_le (A + 1 / 2)
    have h3 := Int.lt_floor_add_one (A + 1 / 2)
    constructor <;> linarith
  have hK := hk |rnd binary64 (x * 10 ^ d)|
  rcases lt_or_ge x 0 with h | h
  · have hr : rnd binary64 (x * 10 ^ d) ≤ 0 := by
      have := rnd_mono (f := binary64) (mul_nonpos_of_nonpos_of_nonneg h.le hp.le)
      rwa [rnd_zero] at this
    refine ⟨-units .math |rnd binary64 (x * 10 ^ d)|, ?_, ?_⟩
    · rw [abs_of_nonpos hr] at hK ⊢
      push_cast
      rw [← abs_neg]
      convert hK using 2
      ring
    · rw [copySign_of_neg h, abs_of_nonneg hm, Int.cast_neg, neg_mul, rnd_neg]
  · have hr : 0 ≤ rnd binary64 (x * 10 ^ d) := rnd_nonneg (mul_nonneg h hp.le)
    refine ⟨units .math |rnd binary64 (x * 10 ^ d)|, ?_, ?_⟩
    · rw [abs_of_nonneg hr] at hK ⊢
      exact hK
    · rw [copySign_of_nonneg h, abs_of_nonneg hm]

/-- C153, partial: with 1 to 22 digits other than 7 the result stands for a number `k / 10^d` with `d` decimals that is nearest to the
argument up to one rounding of the scaled argument, and is within 3 roundings of it (14 roundings from 8 digits on).
Missing: 7 digits, where the table is wrong (`C56_false`), more than 22 digits, and overflow. -/
theorem C153_near_partial (x : ℚ) {d : Int} (h1 : 1 ≤ d) (h2 : d ≤ 22) (h7 : d ≠ 7) :
    ∃ (k : Int) (z : ℚ), round (rnd binary64) x d .math = .ok z ∧
      |k - x * 10 ^ d| ≤ 1 / 2 + (2 ^ (-53 : Int) * |x * 10 ^ d| + 2 ^ (-1075 : Int)) ∧
      |z - k / 10 ^ d| ≤ (betaErr d + 2) * 2 ^ (-53 : Int) * |(k : ℚ) / 10 ^ d| := by
  obtain ⟨k, hk, hr⟩ := round_int x h1 h2 h7
  refine ⟨k, _, hr, ?_, product_close h1 h2 h7 k⟩
  have he := rnd_err binary64 (x * 10 ^ d)
  have e1 : unitRoundoff binary64 = 2 ^ (-53 : Int) := rfl
  have e2 : halfTiny binary64 = 2 ^ (-1075 : Int) := rfl
  rw [e1, e2] at he
  have := abs_sub_le (k : ℚ) (rnd binary64 (x * 10 ^ d)) (x * 10 ^ d)
  generalize (2 : ℚ) ^ (-53 : Int) * |x * 10 ^ d| = a at *
  generalize (2 : ℚ) ^ (-1075 : Int) = b at *
  linarith

/-- A number within a quarter of a unit of `n` units rounds to the product of `n` and the unit. -/
theorem round_of_near {x : ℚ} {d n : Int} (h1 : 1 ≤ d) (h2 : d ≤ 22) (h7 : d ≠ 7) (hn : |n| ≤ 2 ^ 50)
    (h : |x * 10 ^ d - n| ≤ 1 / 4) :
    round (rnd binary64) x d .math = .ok (rnd binary64 (n * pow10 (rnd binary64) (-d))) := by
  have hq : ∀ j : Int, |j| ≤ 1 → Repr binary64 ((n : ℚ) + j / 4) := by
    intro j hj
    refine ⟨4 * n + j, -2, by decide, ?_, ?_⟩
    · rw [abs_le] at hn hj
      show |4 * n + j| < 2 ^ 53
      norm_num at hn ⊢
      rw [abs_lt]
      constructor <;> omega
    · push_cast
      norm_num
      ring
  rw [abs_le] at h
  have hu := rnd_le_of_repr (f := binary64) (hq 1 (by norm_num)) (x := x * 10 ^ d) (by push_cast; linarith)
  have hl := le_rnd_of_repr (f := binary64) (hq (-1) (by norm_num)) (y := x * 10 ^ d) (by push_cast; linarith)
  push_cast at hu hl
  rw [round_units (by decide) (by decide), alpha_exact h1 h2 h7]
  have hfl : units .math |rnd binary64 (x * 10 ^ d)| = |n| := by
    unfold units
    rw [if_neg (by decide), Int.floor_eq_iff]
    generalize rnd binary64 (x * 10 ^ d) = r at hu hl
    have := abs_sub_abs_le_abs_sub r n
    have h' := abs_sub_abs_le_abs_sub (n : ℚ) r
    rw [abs_sub_comm (n : ℚ) r] at h'
    have h3 : |r - n| ≤ 1 / 4 := by
      rw [abs_le]
      constructor <;> linarith
    push_cast
    constructor <;> linarith
  rw [hfl]
  have hp : (0 : ℚ) < 10 ^ d := zpow_pos (by norm_num) _
  have hβ : 0 ≤ pow10 (rnd binary64) (-d) := pow10_nonneg _ _
  congr 1
  rcases lt_trichotomy n 0 with h0 | h0 | h0
  · have hx : x < 0 := by
      have : (n : ℚ) ≤ -1 := by exact_mod_cast (by omega : n ≤ -1)
      by_contra hc
      push Not at hc
      have := mul_nonneg hc hp.le
      linarith
    rw [copySign_of_neg hx, abs_of_neg h0, Int.cast_neg, neg_mul, rnd_neg, abs_neg, abs_of_nonpos, neg_neg]
    have : 0 ≤ -(n : ℚ) := by
      have : (n : ℚ) < 0 := by exact_mod_cast h0
      linarith
    have := rnd_nonneg (f := binary64) (mul_nonneg this hβ)
    rw [neg_mul, rnd_neg] at this
    linarith
  · subst h0
    simp [copySign, abs'_eq]
  · have hx : 0 ≤ x := by
      have : (1 : ℚ) ≤ n := by exact_mod_cast h0
      by_contra hc
      push Not at hc
      have := mul_neg_of_neg_of_pos hc hp
      linarith
    rw [copySign_of_nonneg hx, abs_of_pos h0]
    exact abs_of_nonneg (rnd_nonneg (mul_nonneg (by exact_mod_cast h0.le) hβ))

/-- C153, partial: rounding the double nearest to a number with `d` decimals gives the product of its digits and the unit, within 3 roundings
of the number (14 roundings from 8 digits on): no decimal is lost or gained.
Missing: that the result is the same double, which is false (`C153_decimal`). -/
theorem C153_decimal_partial {d n : Int} (h1 : 1 ≤ d) (h2 : d ≤ 22) (h7 : d ≠ 7) (hn : |n| ≤ 2 ^ 50) :
    ∃ z, round (rnd binary64) (rnd binary64 (n / 10 ^ d)) d .math = .ok z ∧
      |z - n / 10 ^ d| ≤ (betaErr d + 2) * 2 ^ (-53 : Int) * |(n : ℚ) / 10 ^ d| := by
  refine ⟨_, round_of_near h1 h2 h7 hn ?_, product_close h1 h2 h7 n⟩
  rcases eq_or_ne n 0 with rfl | h0
  · simp
  have hp : (0 : ℚ) < 10 ^ d := zpow_pos (by norm_num) _
  have hk1 : (1 : ℚ) ≤ |(n : ℚ)| := by
    have := Int.one_le_abs h0
    exact_mod_cast this
  have hr := rnd_rel64 (x := n / 10 ^ d) (by
    rw [abs_div, abs_of_pos hp, div_le_div_iff₀ (by norm_num) hp]
    have : (10 : ℚ) ^ d ≤ 10 ^ (23 : Int) := zpow_le_zpow_right₀ (by norm_num) (by omega)
    have e : (10 : ℚ) ^ (23 : Int) = 10 ^ 23 := by norm_num
    rw [e] at this
    nlinarith)
  have e : rnd binary64 (n / 10 ^ d) * 10 ^ d - n = (rnd binary64 (n / 10 ^ d) - n / 10 ^ d) * 10 ^ d := by
    field_simp
  rw [e, abs_mul, abs_of_pos hp]
  have h3 := mul_le_mul_of_nonneg_right hr hp.le
  rw [abs_div, abs_of_pos hp, mul_assoc, div_mul_cancel₀ _ hp.ne'] at h3
  have h4 : |(n : ℚ)| ≤ 2 ^ 50 := by exact_mod_cast hn
  refine h3.trans ?_
  calc (2 : ℚ) ^ (-53 : Int) * |(n : ℚ)| ≤ 2 ^ (-53 : Int) * 2 ^ 50 := mul_le_mul_of_nonneg_left h4 (by norm_num)
    _ ≤ 1 / 4 := by norm_num

/-- C153, partial: rounding a rounded number again changes nothing.
Missing: 7 digits, more than 22 digits, and numbers of more than `2^47` units. -/
theorem C153_twice_partial {x : ℚ} {d : Int} (h1 : 1 ≤ d) (h2 : d ≤ 22) (h7 : d ≠ 7) (hx : |x| * 10 ^ d ≤ 2 ^ 47) :
    ∃ z, round (rnd binary64) x d .math = .ok z ∧ round (rnd binary64) z d .math = .ok z := by
  obtain ⟨k, hk, hr⟩ := round_int x h1 h2 h7
  refine ⟨_, hr, ?_⟩
  have hp : (0 : ℚ) < 10 ^ d := zpow_pos (by norm_num) _
  have hA : |rnd binary64 (x * 10 ^ d)| ≤ 2 ^ 47 := by
    rw [abs_rnd, abs_mul, abs_of_pos hp]
    have : Repr binary64 ((2 : ℚ) ^ 47) := ⟨2 ^ 47, 0, by decide, by decide, by norm_num⟩
    exact rnd_le_of_repr this hx
  have hk47 : |k| ≤ 2 ^ 47 := by
    have h3 := abs_sub_abs_le_abs_sub (k : ℚ) (rnd binary64 (x * 10 ^ d))
    have h4 : |(k : ℚ)| < 2 ^ 47 + 1 := by linarith
    have h5 : |k| < 2 ^ 47 + 1 := by exact_mod_cast h4
    omega
  have hz := product_close h1 h2 h7 k
  refine round_of_near h1 h2 h7 (hk47.trans (by norm_num)) ?_
  generalize rnd binary64 (k * pow10 (rnd binary64) (-d)) = z at hz
  have e : z * 10 ^ d - k = (z - k / 10 ^ d) * 10 ^ d := by
    field_simp
  rw [e, abs_mul, abs_of_pos hp]
  have h3 := mul_le_mul_of_nonneg_right hz hp.le
  rw [abs_div, abs_of_pos hp, mul_assoc, div_mul_cancel₀ _ hp.ne'] at h3
  refine h3.trans ?_
  have h4 : |(k : ℚ)| ≤ 2 ^ 47 := by exact_mod_cast hk47
  have h5 := (betaErr_bounds d).2
  calc (betaErr d + 2) * 2 ^ (-53 : Int) * |(k : ℚ)| ≤ (12 + 2) * 2 ^ (-53 : Int) * 2 ^ 47 :=
        mul_le_mul (mul_le_mul_of_nonneg_right (by linarith) (by norm_num)) h4 (abs_nonneg _) (by norm_num)
    _ ≤ 1 / 4 := by norm_num

/-- Decimals are changed: `round(0.3, 1)` is `3 * 0.1`, the double above `0.3`. -/
theorem C153_decimal :
    ∃ z, round (rnd binary64) (rnd binary64 (3 / 10)) 1 .math = .ok z ∧ rnd binary64 (3 / 10) < z :=
  ⟨rnd binary64 (3 * rnd binary64 (1 / 10)), by decide +kernel, by decide +kernel⟩

/-- The hypotheses are met: `2.675` to two digits is near `2.68` and stays there, and `0.3` to one digit keeps its decimal. -/
example : (∃ z, round (rnd binary64) (rnd binary64 (2675 / 1000)) 2 .math = .ok z ∧ round (rnd binary64) z 2 .math = .ok z) ∧
    round (rnd binary64) (rnd binary64 (2675 / 1000)) 2 .math = .ok (rnd binary64 (268 * rnd binary64 (1 / 100))) ∧
    ∃ z, round (rnd binary64) (rnd binary64 ((3 : Int) / 10 ^ (1 : Int))) 1 .math = .ok z ∧
      |z - (3 : Int) / 10 ^ (1 : Int)| ≤ (betaErr 1 + 2) * 2 ^ (-53 : Int) * |((3 : Int) : ℚ) / 10 ^ (1 : Int)| :=
  ⟨C153_twice_partial (by decide) (by decide) (by decide) (by decide +kernel), by decide +kernel,
    C153_decimal_partial (by decide) (by decide) (by decide) (by norm_num)⟩

/-- The order: `-2.5 ≤ 0.125` at one digit in single precision. -/
example : ∃ a b, round (rnd binary32) (-5 / 2) 1 .math = .ok a ∧ round (rnd binary32) (1 / 8) 1 .math = .ok b ∧ a ≤ b :=
  C153_order_partial (by decide) (by decide) 1 (by norm_num)

/-- C153 fails: `round(0.3, 1)` is not `0.3`. -/
theorem C153_false : ¬C153Claim := by
  intro h
  have := h.2.1 3 1 (by decide) (by decide) (by norm_num)
  revert this
  decide +kernel

end Verif.ScalarM
