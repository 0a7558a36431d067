import Verif.Model.MpRound
import Verif.Props.RoundFl
import Verif.Lemmas.FloatSum

/-!
# C165: rounding multi-precision numbers to decimals
-/

namespace Verif.ScalarM

open Verif.Ieee

variable {f : Fmt}

/-- `z` stands for a number `k / 10^d` with `d` decimals nearest to `x`, up to two roundings of the format on either side (and what is lost
below the normal range). -/
def NearDec (f : Fmt) (x : ℚ) (d : Int) (z : ℚ) : Prop := ∃ k : Int,
  |k - x * 10 ^ d| ≤ 1 / 2 + (((1 + unitRoundoff f) ^ 2 - 1) * |x * 10 ^ d| + ((1 + unitRoundoff f) * |x| + 1) * halfTiny f) ∧
  |z - k / 10 ^ d| ≤ ((1 + unitRoundoff f) ^ 2 - 1) * |(k : ℚ) / 10 ^ d| + ((1 + unitRoundoff f) * |(k : ℚ)| + 1) * halfTiny f

/-- A product with a rounded factor. -/
theorem rnd_mul_rnd (x t : ℚ) : |rnd f (x * rnd f t) - x * t| ≤
    ((1 + unitRoundoff f) ^ 2 - 1) * |x * t| + ((1 + unitRoundoff f) * |x| + 1) * halfTiny f := by
  have h1 := rnd_err f t
  have h2 := rnd_err f (x * rnd f t)
  have u0 := (unit_pos f).le
  generalize rnd f (x * rnd f t) = z at *
  generalize rnd f t = r at *
  generalize unitRoundoff f = u at *
  generalize halfTiny f = h at *
  rw [abs_mul] at h2 ⊢
  have hx := abs_nonneg x
  have t1 : |z - x * t| ≤ |z - x * r| + |x| * |r - t| := by
    rw [← abs_mul]
    refine le_trans (le_of_eq ?_) (abs_add_le _ _)
    ring_nf
  have t2 : |r| ≤ |t| + (u * |t| + h) := by
    have : |r| ≤ |t| + |r - t| := by
      refine le_trans (le_of_eq ?_) (abs_add_le _ _)
      ring_nf
    linarith
  have m1 := mul_le_mul_of_nonneg_left h1 hx
  have m2 := mul_le_mul_of_nonneg_left (mul_le_mul_of_nonneg_left t2 hx) u0
  nlinarith

theorem evenStepMp_of_not {mode : Mode} (h : mode.bits.testBit 2 = false) (fl : ℚ → ℚ) (y diff : ℚ) : evenStepMp fl mode y diff = y := by
  unfold evenStepMp
  rw [h]
  rfl

/-- What the specialisation computes, when ties do not go to even. -/
theorem roundNamed_units (he : f.emin ≤ 0) {mode : Mode} (hm : mode ≠ .halfEven) (x : ℚ) (d : Int) :
    roundNamed (rnd f) x d mode =
      rnd f ((if x ≥ 0 then (units mode |rnd f (x * rnd f (10 ^ d))| : ℚ) else -(units mode |rnd f (x * rnd f (10 ^ d))| : ℚ)) * rnd f (10 ^ (-d))) := by
  have hA : Repr f |rnd f (x * rnd f (10 ^ d))| := by
    rcases abs_choice (rnd f (x * rnd f (10 ^ d))) with h | h
    · rw [h]; exact repr_rnd _ _
    · rw [h]; exact repr_neg (repr_rnd _ _)
  unfold roundNamed
  simp only [abs'_eq]
  have hA0 : 0 ≤ |rnd f (x * rnd f (10 ^ d))| := abs_nonneg _
  generalize |rnd f (x * rnd f (10 ^ d))| = A at hA hA0
  obtain ⟨-, hfr, hnext⟩ := repr_parts he hA
  rw [abs_of_nonneg hA0] at hfr hnext
  rw [rnd_of_repr hfr]
  have e2 : mode.bits.testBit 2 = false := by cases mode <;> first | rfl | exact absurd rfl hm
  rw [evenStepMp_of_not e2]
  have key : (if mode.bits.testBit 0 = true ∧ A - (⌊A⌋ : ℚ) ≥ 1 / 2 then rnd f ((⌊A⌋ : ℚ) + 1) else (⌊A⌋ : ℚ)) = units mode A := by
    unfold units
    by_cases hd : mode = .down
    · subst hd
      have : Mode.down.bits.testBit 0 = false := rfl
      rw [if_pos rfl, if_neg (by rw [this]; simp)]
    · rw [if_neg hd, floor_half]
      have : mode.bits.testBit 0 = true := by cases mode <;> first | rfl | exact absurd rfl hm | exact absurd rfl hd
      simp only [this, true_and]
      split
      · rename_i h
        rw [rnd_of_repr (hnext (by intro h0; rw [h0] at h; norm_num at h))]
        push_cast
        rfl
      · rfl
  rw [key]

theorem units_near {mode : Mode} (hm : mode ≠ .down) (A : ℚ) : |(units mode A : ℚ) - A| ≤ 1 / 2 := by
  unfold units
  rw [if_neg hm, abs_le]
  have h0 := Int.floor_le (A + 1 / 2)
  have h3 := Int.lt_floor_add_one (A + 1 / 2)
  constructor <;> linarith

/-- **C165** The specialisation, where it is named, rounds to nearest at the precision of its argument: for every format, number and digit
count, of either sign. -/
theorem C165_named (he : f.emin ≤ 0) {mode : Mode} (hm : mode ≠ .halfEven) (hd : mode ≠ .down) (x : ℚ) (d : Int) :
    NearDec f x d (roundNamed (rnd f) x d mode) := by
  rw [roundNamed_units he hm]
  have hA := rnd_mul_rnd (f := f) x (10 ^ d)
  have ha : 0 ≤ rnd f ((10 : ℚ) ^ d) := rnd_nonneg (zpow_nonneg (by norm_num) _)
  have hk := units_near hd |rnd f (x * rnd f (10 ^ d))|
  have e : ∀ k : Int, (k : ℚ) / 10 ^ d = k * 10 ^ (-d) := fun k => by rw [zpow_neg, div_eq_mul_inv]
  rcases le_or_gt 0 x with h | h
  · rw [if_pos h]
    refine ⟨units mode |rnd f (x * rnd f (10 ^ d))|, ?_, ?_⟩
    · rw [abs_of_nonneg (rnd_nonneg (mul_nonneg h ha))] at hk ⊢
      refine (abs_sub_le _ (rnd f (x * rnd f (10 ^ d))) _).trans (add_le_add hk hA)
    · rw [e]
      exact rnd_mul_rnd _ _
  · rw [if_neg (not_le.mpr h)]
    have hr : rnd f (x * rnd f (10 ^ d)) ≤ 0 := by
      have := rnd_mono (f := f) (mul_nonpos_of_nonpos_of_nonneg h.le ha)
      rwa [rnd_zero] at this
    refine ⟨-units mode |rnd f (x * rnd f (10 ^ d))|, ?_, ?_⟩
    · rw [abs_of_nonpos hr] at hk ⊢
      refine (abs_sub_le _ (rnd f (x * rnd f (10 ^ d))) _).trans (add_le_add ?_ hA)
      generalize (units mode (-rnd f (x * rnd f (10 ^ d))) : Int) = k at hk ⊢
      push_cast
      rw [show -(k : ℚ) - rnd f (x * rnd f (10 ^ d)) = -((k : ℚ) - -rnd f (x * rnd f (10 ^ d))) by ring, abs_neg]
      exact hk
    · rw [e]
      push_cast
      have := rnd_mul_rnd (f := f) (-(units mode |rnd f (x * rnd f (10 ^ d))| : ℚ)) (10 ^ (-d))
      exact this

/-- **C165** The specialisation keeps the order, except in `HALF_EVEN`. -/
theorem C165_named_order (he : f.emin ≤ 0) {mode : Mode} (hm : mode ≠ .halfEven) {x y : ℚ} (d : Int) (h : x ≤ y) :
    roundNamed (rnd f) x d mode ≤ roundNamed (rnd f) y d mode := by
  rw [roundNamed_units he hm, roundNamed_units he hm]
  have ha : 0 ≤ rnd f ((10 : ℚ) ^ d) := rnd_nonneg (zpow_nonneg (by norm_num) _)
  have hb : 0 ≤ rnd f ((10 : ℚ) ^ (-d)) := rnd_nonneg (zpow_nonneg (by norm_num) _)
  refine rnd_mono (mul_le_mul_of_nonneg_right ?_ hb)
  have hxy : rnd f (x * rnd f (10 ^ d)) ≤ rnd f (y * rnd f (10 ^ d)) := rnd_mono (mul_le_mul_of_nonneg_right h ha)
  have neg : ∀ {v : ℚ}, v < 0 → rnd f (v * rnd f (10 ^ d)) ≤ 0 := fun {v} hv => by
    have := rnd_mono (f := f) (mul_nonpos_of_nonpos_of_nonneg hv.le ha)
    rwa [rnd_zero] at this
  have ux := units_nonneg mode (abs_nonneg (rnd f (x * rnd f (10 ^ d))))
  have uy := units_nonneg mode (abs_nonneg (rnd f (y * rnd f (10 ^ d))))
  split <;> split
  · rename_i h1 h2
    rw [abs_of_nonneg (rnd_nonneg (mul_nonneg h1 ha)), abs_of_nonneg (rnd_nonneg (mul_nonneg h2 ha))]
    exact_mod_cast units_mono mode hxy
  · rename_i h1 h2
    exact absurd (le_trans h1 h) h2
  · linarith
  · rename_i h1 h2
    have g := units_mono mode (neg_le_neg hxy)
    rw [abs_of_nonpos (neg (not_le.mp h1)), abs_of_nonpos (neg (not_le.mp h2))]
    have : (units mode (-rnd f (y * rnd f (10 ^ d))) : ℚ) ≤ units mode (-rnd f (x * rnd f (10 ^ d))) := by exact_mod_cast g
    linarith

/-- **C165** A call rounds in `double`: with 1 to 22 digits other than 7 the result is a number with `d` decimals nearest to the argument up to
roundings to 53 bits, whatever the precision of the argument. Missing: the precision of the argument (`C165_call`), and the digit counts
C153 misses. -/
theorem C165_call_partial (x : ℚ) {d : Int} (h1 : 1 ≤ d) (h2 : d ≤ 22) (h7 : d ≠ 7) :
    ∃ (k : Int) (z : ℚ), roundCall x d .math = .ok z ∧
      |k - x * 10 ^ d| ≤ 1 / 2 + (((1 + 2 ^ (-53 : Int)) ^ 2 - 1) * |x * 10 ^ d| + ((1 + 2 ^ (-53 : Int)) * 10 ^ d + 1) * 2 ^ (-1075 : Int)) ∧
      |z - k / 10 ^ d| ≤ (betaErr d + 2) * 2 ^ (-53 : Int) * |(k : ℚ) / 10 ^ d| := by
  obtain ⟨k, z, hz, hk, hz2⟩ := C153_near_partial (rnd binary64 x) h1 h2 h7
  refine ⟨k, z, hz, ?_, hz2⟩
  have hx := rnd_err binary64 x
  have hu : unitRoundoff binary64 = 2 ^ (-53 : Int) := rfl
  have hh : halfTiny binary64 = 2 ^ (-1075 : Int) := rfl
  rw [hu, hh] at hx
  have hp : (0 : ℚ) < 10 ^ d := zpow_pos (by norm_num) _
  have u0 : (0 : ℚ) ≤ 2 ^ (-53 : Int) := zpow_nonneg (by norm_num) _
  generalize rnd binary64 x = r at *
  generalize (2 : ℚ) ^ (-53 : Int) = u at *
  generalize (2 : ℚ) ^ (-1075 : Int) = h at *
  generalize (10 : ℚ) ^ d = P at *
  rw [abs_mul, abs_of_pos hp] at hk ⊢
  have t1 : |(k : ℚ) - x * P| ≤ |(k : ℚ) - r * P| + |r - x| * P := by
    rw [show |r - x| * P = |(r - x) * P| by rw [abs_mul, abs_of_pos hp]]
    refine le_trans (le_of_eq ?_) (abs_add_le _ _)
    ring_nf
  have t2 : |r| ≤ |x| + (u * |x| + h) := by
    have : |r| ≤ |x| + |r - x| := by
      refine le_trans (le_of_eq ?_) (abs_add_le _ _)
      ring_nf
    linarith
  have m1 := mul_le_mul_of_nonneg_right hx hp.le
  have m2 := mul_le_mul_of_nonneg_left (mul_le_mul_of_nonneg_right t2 hp.le) u0
  nlinarith

/-- A format of 100 bits. -/
def bits100 : Fmt := ⟨100, -1074, by decide⟩

/-- **C165** A number of 54 bits loses its last bit when it is rounded to an integer, and one third rounded to 20 decimals is off by
more than `10^-17`; the specialisation keeps the one and has all decimals of the other. -/
theorem C165_call : roundCall (2 ^ 53 + 1) 0 .math = .ok (2 ^ 53) ∧ roundNamed (rnd bits100) (2 ^ 53 + 1) 0 .math = 2 ^ 53 + 1 ∧
    (∃ z, roundCall (rnd bits100 (1 / 3)) 20 .math = .ok z ∧ 1 / 10 ^ 17 < |z - 33333333333333333333 / 10 ^ 20|) ∧
    |roundNamed (rnd bits100) (rnd bits100 (1 / 3)) 20 .math - 33333333333333333333 / 10 ^ 20| ≤ 1 / 10 ^ 29 := by
  refine ⟨by decide +kernel, by decide +kernel, ⟨_, rfl, by decide +kernel⟩, by decide +kernel⟩

/-- **C165** Ties in the specialisation go to even below `2^64`. -/
theorem C165_named_even {n : Nat} (h64 : n < 2 ^ 64) (hp : 66 ≤ f.p) (he : f.emin ≤ -1) :
    ∃ k : Nat, k % 2 = 0 ∧ (k = n ∨ k = n + 1) ∧ roundNamed (rnd f) (n + 1 / 2) 0 .halfEven = k := by
  have hN : ∀ q : Nat, q ≤ 2 ^ 65 → rnd f (q / 2) = q / 2 := fun q hq => by
    refine rnd_of_repr ⟨q, -1, he, ?_, by push_cast; rw [zpow_neg_one]; ring⟩
    have : (2 : ℤ) ^ 66 ≤ 2 ^ f.p := pow_le_pow_right₀ (by norm_num) hp
    have : (q : ℤ) ≤ 2 ^ 65 := by exact_mod_cast hq
    rw [abs_of_nonneg (by positivity)]
    omega
  have r1 : rnd f ((n : ℚ) + 1 / 2) = n + 1 / 2 := by
    have := hN (2 * n + 1) (by omega)
    push_cast at this
    rwa [show (2 * (n : ℚ) + 1) / 2 = n + 1 / 2 by ring] at this
  have rI : ∀ q : Nat, q ≤ 2 ^ 64 → rnd f (q : ℚ) = q := fun q hq => by
    have := hN (2 * q) (by omega)
    push_cast at this
    rwa [show (2 * (q : ℚ)) / 2 = q by ring] at this
  have r2 : rnd f (1 : ℚ) = 1 := by exact_mod_cast rI 1 (by norm_num)
  have r3 : rnd f (1 / 2 : ℚ) = 1 / 2 := by
    have := hN 1 (by norm_num)
    exact_mod_cast this
  have fl : ⌊(n : ℚ) + 1 / 2⌋ = n := by
    rw [Int.floor_eq_iff]
    push_cast
    constructor <;> linarith
  have pos : (0 : ℚ) ≤ (n : ℚ) + 1 / 2 := by positivity
  have sat : satU64 (n : ℚ) = n := by
    unfold satU64
    rw [Int.floor_natCast, Int.toNat_natCast]
    omega
  have b0 : Mode.halfEven.bits.testBit 0 = false := by decide
  have b2 : Mode.halfEven.bits.testBit 2 = true := by decide
  have b4 : Mode.halfEven.bits.testBit 4 = true := by decide
  have e : roundNamed (rnd f) (n + 1 / 2) 0 .halfEven =
      if n % 2 = 1 then ((n + 1 : Nat) : ℚ) else n := by
    unfold roundNamed evenStepMp
    simp only [abs'_eq, neg_zero, zpow_zero, r2, mul_one, r1, abs_of_nonneg pos, fl, b0, b2, b4, Bool.false_eq_true, false_and, if_false,
      Int.cast_natCast, add_sub_cancel_left, r3, sat, if_true, true_and, ge_iff_le, pos]
    split
    · rw [show (n : ℚ) + 1 = ((n + 1 : Nat) : ℚ) by push_cast; rfl, rI _ (by omega), rI _ (by omega)]
    · rw [rI _ (by omega), rI _ (by omega)]
  rw [e]
  split
  · exact ⟨n + 1, by omega, Or.inr rfl, rfl⟩
  · exact ⟨n, by omega, Or.inl rfl, rfl⟩

/-- **C165** Above, the number is cut to `2^64 - 1`, which is odd: all ties go up. -/
theorem C165_named_saturates : roundNamed (rnd bits100) (2 ^ 64 + 1 / 2) 0 .halfEven = 2 ^ 64 + 1 := by decide +kernel

/-- **C165** in full: a call rounds at the precision of its argument. -/
def C165Claim : Prop := ∀ (f : Fmt) (x : ℚ) (d : Int) (z : ℚ), 53 ≤ f.p → f.emin ≤ 0 → Repr f x → roundCall x d .math = .ok z → NearDec f x d z

theorem C165_false : ¬ C165Claim := by
  intro h
  obtain ⟨k, h1, h2⟩ := h bits100 (2 ^ 53 + 1) 0 (2 ^ 53) (by decide) (by decide)
    ⟨2 ^ 53 + 1, 0, by decide, by decide, by norm_num⟩ C165_call.1
  simp only [zpow_zero, mul_one, div_one] at h1 h2
  have c1 : 1 / 2 + (((1 + unitRoundoff bits100) ^ 2 - 1) * |(2 ^ 53 + 1 : ℚ)| + ((1 + unitRoundoff bits100) * |(2 ^ 53 + 1 : ℚ)| + 1) *
      halfTiny bits100) < 3 / 4 := by decide +kernel
  have hk := abs_le.mp (h1.trans c1.le)
  have k1 : k = 2 ^ 53 + 1 := by
    have a : (k : ℚ) < ((2 ^ 53 + 2 : Int) : ℚ) := by push_cast; linarith
    have b : ((2 ^ 53 : Int) : ℚ) < k := by push_cast; linarith
    have := Int.cast_lt.mp a
    have := Int.cast_lt.mp b
    omega
  subst k1
  have c2 : ¬ |(2 ^ 53 : ℚ) - ((2 ^ 53 + 1 : Int) : ℚ)| ≤ ((1 + unitRoundoff bits100) ^ 2 - 1) * |((2 ^ 53 + 1 : Int) : ℚ)| +
      ((1 + unitRoundoff bits100) * |((2 ^ 53 + 1 : Int) : ℚ)| + 1) * halfTiny bits100 := by decide +kernel
  exact c2 h2

/-- The hypotheses are met: `-2.5` at 100 bits, in the default mode, and a tie. -/
example : NearDec bits100 (-5 / 2) 0 (roundNamed (rnd bits100) (-5 / 2) 0 .math) ∧ roundNamed (rnd bits100) (-5 / 2) 0 .math = -3 ∧
    roundNamed (rnd bits100) (-5 / 2) 0 .down = -2 ∧ roundNamed (rnd bits100) (5 / 2) 0 .halfEven = 2 :=
  ⟨C165_named (by decide) (by decide) (by decide) _ _, by decide +kernel, by decide +kernel, by decide +kernel⟩

end Verif.ScalarM
