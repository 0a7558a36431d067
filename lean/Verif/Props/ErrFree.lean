import Verif.Model.ErrFree
import Verif.Lemmas.ErrFree

/-!
# Sums and squares of twice the precision (C87, C88)

Documented in complex.hpp 36-52, 67-83, 138-147, 193-199.
-/

namespace Verif.ErrFree

open Verif.Ieee

variable {f : Fmt} {x y : ℚ}

theorem fast (hx : Repr f x) (hy : Repr f y) (h : Mult (ulpExp f y) x) :
    addSmallX2 f x y = ⟨rnd f (x + y), x + y - rnd f (x + y)⟩ := by
  have h1 := rnd_of_repr (repr_sum_sub hx hy h)
  have h2 := rnd_of_repr (repr_sum_err hx hy h)
  simp only [addSmallX2]
  rw [h1, show y - (rnd f (x + y) - x) = x + y - rnd f (x + y) by ring, h2]

theorem two_same (hx : Repr f x) (hy : Repr f y) (h : Mult (ulpExp f y) x) :
    addX2 f x y = ⟨rnd f (x + y), x + y - rnd f (x + y)⟩ := by
  have h1 := rnd_of_repr (repr_sum_sub hx hy h)
  have h2 := rnd_of_repr (repr_sum_err hx hy h)
  simp only [addX2]
  rw [h1, show rnd f (x + y) - (rnd f (x + y) - x) = x by ring, rnd_of_repr hx, sub_self, rnd_zero, zero_add,
    show y - (rnd f (x + y) - x) = x + y - rnd f (x + y) by ring, h2, h2]

theorem zpow_succ (k : Int) : (2 : ℚ) ^ (k + 1) = 2 * 2 ^ k := by rw [zpow_add₀ (by norm_num), zpow_one, mul_comm]

theorem abs_le_rnd (hx : Repr f y) (h : |y| ≤ |x|) : |y| ≤ |rnd f x| := by
  have hy : Repr f |y| := by
    rcases abs_choice y with h | h <;> rw [h]
    · exact hx
    · exact repr_neg hx
  rcases le_total 0 x with h0 | h0
  · rw [abs_of_nonneg h0] at h
    exact (le_rnd_of_repr hy h).trans (le_abs_self _)
  · rw [abs_of_nonpos h0] at h
    have := le_rnd_of_repr hy h
    rw [rnd_neg] at this
    exact this.trans (neg_le_abs _)

theorem two_diff (hp : 3 ≤ f.p) (hx : Repr f x) (hy : Repr f y) (hx0 : x ≠ 0) (hlt : |x| < |y|) :
    Repr f (y - rnd f (rnd f (x + y) - x)) := by
  have he := ulpExp_ge f y
  have h0 : x + y ≠ 0 := by
    intro h0
    rw [show y = -x by linarith, abs_neg] at hlt
    exact lt_irrefl _ hlt
  have hy1 := abs_lt_ulp f y
  have hE : ulpExp f (x + y) ≤ ulpExp f y + 1 := ulpExp_le h0 (by omega) (by
    have := abs_add_le x y
    rw [show ulpExp f y + 1 + f.p = ulpExp f y + f.p + 1 by ring, zpow_succ]
    linarith)
  have hc := rnd_close f (x + y)
  have hn := rnd_nearest (x := rnd f (x + y) - x) hy
  have hE' : (2 : ℚ) ^ ulpExp f (x + y) ≤ 2 ^ (ulpExp f y + 1) := zpow_le_zpow.2 hE
  have hd : |y - rnd f (rnd f (x + y) - x)| ≤ 2 ^ (ulpExp f y + 1) := by
    have e1 : |y - (rnd f (x + y) - x)| = |rnd f (x + y) - (x + y)| := by rw [← abs_neg]; congr 1; ring
    have := abs_sub_le y (rnd f (x + y) - x) (rnd f (rnd f (x + y) - x))
    rw [abs_sub_comm (rnd f (x + y) - x)] at this
    rw [e1] at this hn
    linarith
  by_cases hm : ulpExp f y = f.emin
  · have mx := (mult_repr hx).mono (ulpExp_ge f x)
    have my := (mult_repr hy).mono he
    have ms := mult_of_rnd (mx.add my) le_rfl
    refine repr_of_mult (my.sub (mult_of_rnd (ms.sub mx) le_rfl)) le_rfl (hd.trans ?_)
    rw [hm]
    exact zpow_le_zpow.2 (by omega)
  · have hy2 := (ulp_cases f (x := y) (by rintro rfl; simp at hlt; linarith [abs_nonneg x])).resolve_left hm
    have hb : (2 : ℚ) ^ (ulpExp f y - 1 + f.p - 1) ≤ |rnd f (rnd f (x + y) - x)| := by
      have h1 := abs_sub_abs_le_abs_sub y (rnd f (rnd f (x + y) - x))
      have h2 : (2 : ℚ) ^ (ulpExp f y + 1) ≤ 2 ^ (ulpExp f y - 1 + f.p - 1) := zpow_le_zpow.2 (by omega)
      have h3 : (2 : ℚ) ^ (ulpExp f y + f.p - 1) = 2 * 2 ^ (ulpExp f y - 1 + f.p - 1) := by
        rw [← zpow_succ]; congr 1; ring
      linarith
    have mb : Mult (ulpExp f y - 1) (rnd f (rnd f (x + y) - x)) := (mult_repr (repr_rnd f _)).mono (le_ulpExp hb)
    exact repr_of_mult (((mult_repr hy).mono (by omega)).sub mb) (by omega) (hd.trans (zpow_le_zpow.2 (by omega)))

theorem two_sum (hp : 3 ≤ f.p) (hx : Repr f x) (hy : Repr f y) :
    addX2 f x y = ⟨rnd f (x + y), x + y - rnd f (x + y)⟩ := by
  by_cases hy0 : y = 0
  · subst hy0
    simp only [addX2, add_zero, rnd_of_repr hx, sub_self, rnd_zero, sub_zero]
  by_cases hx0 : x = 0
  · exact two_same hx hy (by rw [hx0]; exact mult_zero)
  by_cases hle : |y| ≤ |x|
  · exact two_same hx hy (mult_of_le hx hy0 hle)
  push Not at hle
  have herr := repr_sum_err hy hx (mult_of_le hy hx0 hle.le)
  rw [add_comm y x] at herr
  by_cases hs : |x| ≤ |rnd f (x + y)|
  · have hr := repr_rnd f (x + y)
    have hm : Mult (ulpExp f (-x)) (rnd f (x + y)) := mult_of_le hr (neg_ne_zero.2 hx0) (by rwa [abs_neg])
    have h1 := repr_sum_sub hr (repr_neg hx) hm
    have h2 := repr_sum_err hr (repr_neg hx) hm
    rw [← sub_eq_add_neg] at h1 h2
    have h3 := two_diff hp hx hy hx0 hle
    simp only [addX2]
    generalize hb : rnd f (rnd f (x + y) - x) = bv at *
    generalize rnd f (x + y) = s at *
    have h4 := repr_neg h1
    have h5 := repr_neg h2
    rw [neg_sub] at h4 h5
    rw [rnd_of_repr h3, rnd_of_repr h4, show x - (s - bv) = bv - (s - x) by ring, rnd_of_repr h5,
      show bv - (s - x) + (y - bv) = x + y - s by ring, rnd_of_repr herr]
  · have hex : Repr f (x + y) := by
      have hm := (mult_of_le hy hx0 hle.le).add (mult_repr hx)
      rw [add_comm] at hm
      refine repr_of_mult hm (ulpExp_ge f x) ?_
      by_contra hc
      push Not at hc
      have hpw : Repr f ((2 : ℚ) ^ (ulpExp f x + f.p)) := repr_two_zpow (by have := ulpExp_ge f x; omega)
      have h1 := abs_le_rnd (x := x + y) hpw (by rw [abs_of_pos (two_zpow_pos _)]; exact hc.le)
      rw [abs_of_pos (two_zpow_pos _)] at h1
      exact hs ((abs_lt_ulp f x).le.trans h1)
    simp only [addX2, rnd_of_repr hex, add_sub_cancel_left, rnd_of_repr hy, add_sub_cancel_right, rnd_of_repr hx, sub_self, rnd_zero,
      add_zero]

/-- **C87** `addX2`: the first part is the rounded sum and the two parts add up to the exact sum, for all numbers, also in the range of
gradual underflow. -/
theorem C87_addX2 (hp : 3 ≤ f.p) (hx : Repr f x) (hy : Repr f y) :
    (addX2 f x y).val0 = rnd f (x + y) ∧ (addX2 f x y).val0 + (addX2 f x y).val1 = x + y := by
  rw [two_sum hp hx hy]
  exact ⟨rfl, by simp⟩

/-- `y` is a multiple of a power of two of which it has fewer than `2 ^ p`, and `x` is a multiple of that power: what the documentation of
`addSmallX2` requires. -/
def Aligned (f : Fmt) (x y : ℚ) : Prop := ∃ e : Int, f.emin ≤ e ∧ Mult e x ∧ Mult e y ∧ |y| < 2 ^ (e + f.p)
theorem fast' (hx : Repr f x) (hy : Repr f y) (h : Aligned f x y) :
    addSmallX2 f x y = ⟨rnd f (x + y), x + y - rnd f (x + y)⟩ := by
  obtain ⟨e, he, mx, my, hb⟩ := h
  by_cases hy0 : y = 0
  · subst hy0
    simp only [addSmallX2, add_zero, rnd_of_repr hx, sub_self, rnd_zero]
  · exact fast hx hy (mx.mono (ulpExp_le hy0 he hb))

theorem aligned_of_le (hx : Repr f x) (hy : Repr f y) (h : |y| ≤ |x|) : Aligned f x y := by
  by_cases hy0 : y = 0
  · exact ⟨ulpExp f x, ulpExp_ge f x, mult_repr hx, by rw [hy0]; exact mult_zero, lt_of_le_of_lt h (abs_lt_ulp f x)⟩
  · exact ⟨ulpExp f y, ulpExp_ge f y, mult_of_le hx hy0 h, mult_repr hy, abs_lt_ulp f y⟩

/-- **C87** `addSmallX2`: the same with fewer operations, if `x` is zero or a multiple of the unit in the last place of `y`; this holds
for `|y| ≤ |x|`. -/
theorem C87_addSmallX2 (hx : Repr f x) (hy : Repr f y) (h : Aligned f x y ∨ |y| ≤ |x|) :
    (addSmallX2 f x y).val0 = rnd f (x + y) ∧ (addSmallX2 f x y).val0 + (addSmallX2 f x y).val1 = x + y := by
  rw [fast' hx hy (h.elim id (aligned_of_le hx hy))]
  exact ⟨rfl, by simp⟩

/-! Halves of a `double`. -/

theorem mag_grid (n : Nat) (k : Nat) (hn : expo n ≠ 2047) (hk : k ≤ 2 ^ 52) (h63 : n < 2 ^ 63) :
    mag (n / 2 ^ 52 * 2 ^ 52 + k) = (((if expo n = 0 then 0 else 2 ^ 52) + k : Nat) : ℚ) * 2 ^ ((max (expo n) 1 : Nat) - 1075 : Int) := by
  have hE : expo n = n / 2 ^ 52 := by unfold expo; omega
  rcases hk.lt_or_eq with hk | hk
  · have h1 : expo (n / 2 ^ 52 * 2 ^ 52 + k) = expo n := by unfold expo; omega
    have h2 : (n / 2 ^ 52 * 2 ^ 52 + k) % 2 ^ 52 = k := by omega
    unfold mag
    rw [h1, h2]
    split
    · rename_i h; rw [h]; norm_num
    · rename_i h; rw [max_eq_left (by omega)]
  · subst hk
    have h1 : expo (n / 2 ^ 52 * 2 ^ 52 + 2 ^ 52) = expo n + 1 := by unfold expo at hn ⊢; omega
    have h2 : (n / 2 ^ 52 * 2 ^ 52 + 2 ^ 52) % 2 ^ 52 = 0 := by omega
    unfold mag
    rw [h1, h2, if_neg (by omega)]
    split
    · rename_i h; rw [h]; norm_num
    · rename_i h
      rw [max_eq_left (by omega)]
      rw [show ((expo n + 1 : Nat) : Int) - 1075 = (expo n : Int) - 1075 + 1 by push_cast; ring, zpow_succ]
      push_cast; ring

theorem and_mask (n : Nat) (hn : n < 2 ^ 64) : n &&& 0xfffffffff8000000 = n / 2 ^ 27 * 2 ^ 27 := by
  rw [show 0xfffffffff8000000 = (2 ^ 37 - 1) <<< 27 by decide, ← Nat.shiftRight_eq_div_pow, ← Nat.shiftLeft_eq]
  refine Nat.eq_of_testBit_eq fun i => ?_
  rw [Nat.testBit_and, Nat.testBit_shiftLeft, Nat.testBit_shiftLeft, Nat.testBit_shiftRight, Nat.testBit_two_pow_sub_one]
  by_cases h : 27 ≤ i
  · rw [show 27 + (i - 27) = i by omega]
    by_cases h2 : i - 27 < 37
    · simp [h, h2]
    · have : n.testBit i = false := Nat.testBit_lt_two_pow (lt_of_lt_of_le hn (Nat.pow_le_pow_right (by norm_num) (by omega)))
      simp [this]
  · simp [h]

theorem high_toNat (b : BitVec 64) (hb : Fin b) :
    (highHalf b).toNat = (b.toNat + 0x3ffffff) / 2 ^ 27 * 2 ^ 27 := by
  have h1 : b.toNat + 0x3ffffff < 2 ^ 64 := by
    have := b.isLt
    unfold Fin expo at hb
    omega
  unfold highHalf
  rw [BitVec.toNat_and, BitVec.toNat_add]
  change (b.toNat + 0x3ffffff) % 2 ^ 64 &&& 0xfffffffff8000000 = _
  rw [Nat.mod_eq_of_lt h1, and_mask _ h1]

theorem mag_sub (n : Nat) (h : 2 ^ 63 ≤ n) (h2 : n < 2 ^ 64) : mag n = mag (n - 2 ^ 63) := by
  have h1 : expo n = expo (n - 2 ^ 63) := by unfold expo; omega
  have h2 : n % 2 ^ 52 = (n - 2 ^ 63) % 2 ^ 52 := by omega
  unfold mag
  rw [h1, h2]

theorem mag_spec (n : Nat) (hn : expo n ≠ 2047) (h63 : n < 2 ^ 63) : ∃ (s h : Nat) (e : Int), -1074 ≤ e ∧ mag n = s * 2 ^ e ∧
    mag ((n + 0x3ffffff) / 2 ^ 27 * 2 ^ 27) = (h * 2 ^ 27 : Nat) * 2 ^ e ∧ s < 2 ^ 53 ∧ h ≤ 2 ^ 26 ∧
    s ≤ h * 2 ^ 27 + 2 ^ 26 ∧ h * 2 ^ 27 ≤ s + 2 ^ 26 ∧ (e = -1074 ∨ 2 ^ 52 ≤ s) := by
  have g1 := mag_grid n (n % 2 ^ 52) hn (by omega) h63
  have g2 := mag_grid n ((n % 2 ^ 52 + 0x3ffffff) / 2 ^ 27 * 2 ^ 27) hn (by omega) h63
  rw [show n / 2 ^ 52 * 2 ^ 52 + n % 2 ^ 52 = n by omega] at g1
  rw [show n / 2 ^ 52 * 2 ^ 52 + (n % 2 ^ 52 + 0x3ffffff) / 2 ^ 27 * 2 ^ 27 = (n + 0x3ffffff) / 2 ^ 27 * 2 ^ 27 by omega] at g2
  refine ⟨_, (if expo n = 0 then 0 else 2 ^ 25) + (n % 2 ^ 52 + 0x3ffffff) / 2 ^ 27, _, ?_, g1, ?_, ?_, ?_, ?_, ?_, ?_⟩
  · omega
  · rw [g2]
    congr 2
    split <;> omega
  · split <;> omega
  · split <;> omega
  · split <;> omega
  · split <;> omega
  · by_cases h : expo n = 0
    · left; rw [h]; norm_num
    · right; rw [if_neg h]; omega

/-- What `highHalf` does: with the number `s * 2 ^ e` it is a multiple of `2 ^ (e + 27)` that differs by at most `2 ^ (e + 26)`. -/
theorem high_spec (b : BitVec 64) (hb : Fin b) : ∃ s h e : Int, -1074 ≤ e ∧ val b = s * 2 ^ e ∧ val (highHalf b) = (h * 2 ^ 27 : Int) * 2 ^ e ∧
    |s| < 2 ^ 53 ∧ |h| ≤ 2 ^ 26 ∧ |s - h * 2 ^ 27| ≤ 2 ^ 26 ∧ (e = -1074 ∨ 2 ^ 52 ≤ |s|) := by
  have hlt := b.isLt
  have ht := high_toNat b hb
  unfold Fin at hb
  unfold val
  rw [ht]
  by_cases h63 : b.toNat < 2 ^ 63
  · obtain ⟨s, h, e, h1, h2, h3, h4, h5, h6, h7, h8⟩ := mag_spec b.toNat hb h63
    refine ⟨s, h, e, h1, ?_, ?_, ?_, ?_, ?_, ?_⟩
    · rw [if_pos h63, h2]; rfl
    · rw [if_pos (by unfold expo at hb; omega), h3]; push_cast; ring
    · rw [abs_of_nonneg (by omega)]; omega
    · rw [abs_of_nonneg (by omega)]; omega
    · rw [abs_le]; omega
    · rw [abs_of_nonneg (by omega)]; omega
  · have h0 : expo (b.toNat - 2 ^ 63) ≠ 2047 := by unfold expo at hb ⊢; omega
    obtain ⟨s, h, e, h1, h2, h3, h4, h5, h6, h7, h8⟩ := mag_spec (b.toNat - 2 ^ 63) h0 (by omega)
    have hge : ¬(b.toNat + 0x3ffffff) / 2 ^ 27 * 2 ^ 27 < 2 ^ 63 := by omega
    refine ⟨-s, -h, e, h1, ?_, ?_, ?_, ?_, ?_, ?_⟩
    · rw [if_neg h63, mag_sub _ (by omega) hlt, h2]; push_cast; ring
    · rw [if_neg hge, mag_sub _ (by omega) (by unfold expo at hb; omega),
        show (b.toNat + 0x3ffffff) / 2 ^ 27 * 2 ^ 27 - 2 ^ 63 = (b.toNat - 2 ^ 63 + 0x3ffffff) / 2 ^ 27 * 2 ^ 27 by omega, h3]
      push_cast; ring
    · rw [abs_neg, abs_of_nonneg (by omega)]; omega
    · rw [abs_neg, abs_of_nonneg (by omega)]; omega
    · rw [abs_le]; omega
    · rw [abs_neg, abs_of_nonneg (by omega)]; omega

theorem repr_mul {n e : Int} {x : ℚ} (hx : x = n * 2 ^ e) (he : -1074 ≤ e) (hn : |n| ≤ 2 ^ 53) : Repr binary64 x := by
  refine repr_of_mult ⟨n, hx⟩ he ?_
  rw [hx, abs_mul, abs_of_pos (two_zpow_pos e), add_comm, ← zpow_mul, ← Int.cast_abs]
  refine mul_le_mul_of_nonneg_right ?_ (two_zpow_pos e).le
  change ((|n| : Int) : ℚ) ≤ 2 ^ ((53 : Nat) : Int)
  rw [zpow_natCast]
  exact_mod_cast hn

theorem repr_val {b : BitVec 64} (hb : Fin b) : Repr binary64 (val b) := by
  obtain ⟨s, h, e, h1, h2, -, h3, -⟩ := high_spec b hb
  exact repr_mul h2 h1 h3.le

/-- The error of a square, all operations of `sqrError` are exact. -/
theorem sqr_err (fma : Bool) {b : BitVec 64} (hb : Fin b) (hu : val b = 0 ∨ (2 : ℚ) ^ (-485 : Int) ≤ |val b|) :
    sqrX2 binary64 fma b = ⟨rnd binary64 (val b * val b), val b * val b - rnd binary64 (val b * val b)⟩ := by
  obtain ⟨s, h, e, he, hx, hh, hs, hhb, hl, hd⟩ := high_spec b hb
  have h2e := two_zpow_pos e
  by_cases h0 : val b = 0
  · have hs0 : s = 0 := by
      rw [h0] at hx
      have := (mul_eq_zero.1 hx.symm).resolve_right h2e.ne'
      exact_mod_cast this
    have hh0 : h = 0 := by
      rw [hs0, abs_le] at hl
      omega
    rw [hh0] at hh
    simp only [sqrX2, sqrError, sqrErrorFma, h0, hh]
    cases fma <;> simp
  replace hu := hu.resolve_left h0
  have hxb : |val b| < 2 ^ (53 + e) := by
    rw [hx, abs_mul, abs_of_pos h2e, ← zpow_mul, ← Int.cast_abs]
    refine mul_lt_mul_of_pos_right ?_ h2e
    rw [show (2 : ℚ) ^ (53 : Int) = ((2 ^ 53 : Int) : ℚ) by norm_num]
    exact_mod_cast hs
  have he2 : -537 ≤ e := by
    have := zpow_lt_zpow.1 (lt_of_le_of_lt hu hxb)
    omega
  have hs52 := hd.resolve_left (by omega)
  generalize hX : val b = X at *
  generalize hH : val (highHalf b) = H at *
  obtain ⟨l, hl'⟩ : ∃ l, l = s - h * 2 ^ 27 := ⟨_, rfl⟩
  rw [← hl'] at hl
  have hL : X - H = l * 2 ^ e := by rw [hx, hh, hl']; push_cast; ring
  have hsum : X = H + (X - H) := by ring
  generalize hLd : X - H = L at *
  have mulE : ∀ (a c : ℚ) (d k : Int), (a * 2 ^ d) * (c * 2 ^ k) = a * c * 2 ^ (d + k) := by
    intro a c d k
    rw [← Ieee.zpow_mul]; ring
  have rH : Repr binary64 H := by
    refine repr_mul hh he ?_
    rw [abs_mul]
    norm_num
    omega
  have rL : Repr binary64 L := repr_mul hL he (by omega)
  have rHH : Repr binary64 (H * H) := by
    refine repr_mul (n := h * h) (e := 54 + (e + e)) ?_ (by omega) ?_
    · rw [hh, mulE, ← Ieee.zpow_mul (54 : Int)]; push_cast; ring
    · rw [abs_mul]; have := abs_nonneg h; nlinarith
  have r2H : Repr binary64 (2 * H) := by
    refine repr_mul (n := h * 2 ^ 27) (e := 1 + e) ?_ (by omega) ?_
    · rw [hh, ← Ieee.zpow_mul]; push_cast; ring
    · rw [abs_mul]; norm_num; omega
  have r2HL : Repr binary64 (2 * H * L) := by
    refine repr_mul (n := h * l) (e := 28 + (e + e)) ?_ (by omega) ?_
    · rw [hh, hL, mul_assoc, mulE, ← Ieee.zpow_mul (28 : Int)]; push_cast; ring
    · rw [abs_mul]; have := abs_nonneg h; have := abs_nonneg l; nlinarith
  have rLL : Repr binary64 (L * L) := by
    refine repr_mul (n := l * l) (e := e + e) ?_ (by omega) ?_
    · rw [hL, mulE]; push_cast; ring
    · rw [abs_mul]; have := abs_nonneg l; nlinarith
  have hXX : X * X = (s * s : Int) * 2 ^ (e + e) := by rw [hx, mulE]; push_cast; ring
  have h2ee := two_zpow_pos (e + e)
  have habs : |X * X| = (|s| * |s| : Int) * 2 ^ (e + e) := by
    rw [hXX, abs_mul, abs_of_pos h2ee, ← Int.cast_abs, abs_mul]
  have hss : |s| * |s| < 2 ^ 106 := by have := abs_nonneg s; nlinarith
  have hss2 : 2 ^ 104 ≤ |s| * |s| := by have := abs_nonneg s; nlinarith
  have uE : ulpExp binary64 (X * X) ≤ e + e + 53 := by
    refine ulpExp_le (mul_ne_zero h0 h0) (by change -1074 ≤ _; omega) ?_
    rw [habs, show e + e + 53 + (binary64.p : Int) = 106 + (e + e) by change e + e + 53 + 53 = _; ring, ← Ieee.zpow_mul (106 : Int)]
    refine mul_lt_mul_of_pos_right ?_ h2ee
    rw [show (2 : ℚ) ^ (106 : Int) = ((2 ^ 106 : Int) : ℚ) by norm_num]
    exact_mod_cast hss
  have uL : e + e + 52 ≤ ulpExp binary64 (X * X) := by
    refine le_ulpExp ?_
    rw [habs, show e + e + 52 + (binary64.p : Int) - 1 = 104 + (e + e) by change e + e + 52 + 53 - 1 = _; ring, ← Ieee.zpow_mul (104 : Int)]
    refine mul_le_mul_of_nonneg_right ?_ h2ee.le
    rw [show (2 : ℚ) ^ (104 : Int) = ((2 ^ 104 : Int) : ℚ) by norm_num]
    exact_mod_cast hss2
  have hP := (mult_rnd binary64 (X * X)).mono uL
  have hc := rnd_close binary64 (X * X)
  have hc2 : |rnd binary64 (X * X) - X * X| ≤ 2 ^ (52 + (e + e)) := by
    refine hc.trans ?_
    have h1 : (2 : ℚ) ^ ulpExp binary64 (X * X) ≤ 2 ^ (52 + (e + e) + 1) := zpow_le_zpow.2 (by omega)
    rw [zpow_succ] at h1
    linarith
  generalize hPd : rnd binary64 (X * X) = P at *
  have hmX : Mult (e + e) (X * X) := ⟨_, hXX⟩
  have hmHH : Mult (e + e + 54) (H * H) := ⟨h * h, by rw [hh, mulE, show e + e + 54 = 54 + (e + e) by ring, ← Ieee.zpow_mul (54 : Int)]; push_cast; ring⟩
  have hm2HL : Mult (e + e + 28) (2 * H * L) :=
    ⟨h * l, by rw [hh, hL, mul_assoc, mulE, show e + e + 28 = 28 + (e + e) by ring, ← Ieee.zpow_mul (28 : Int)]; push_cast; ring⟩
  have b2HL : |2 * H * L| ≤ 2 ^ (80 + (e + e)) := by
    have e1 : 2 * H * L = (h * l * 2 ^ 28 : Int) * 2 ^ (e + e) := by rw [hh, hL, mul_assoc, mulE]; push_cast; ring
    rw [e1, abs_mul, abs_of_pos h2ee, ← Ieee.zpow_mul (80 : Int)]
    refine mul_le_mul_of_nonneg_right ?_ h2ee.le
    rw [← Int.cast_abs, show (2 : ℚ) ^ (80 : Int) = ((2 ^ 80 : Int) : ℚ) by norm_num]
    have : |h * l * 2 ^ 28| ≤ 2 ^ 80 := by
      rw [abs_mul, abs_mul]; have := abs_nonneg h; have := abs_nonneg l; norm_num; nlinarith
    exact_mod_cast this
  have bLL : |L * L| ≤ 2 ^ (52 + (e + e)) := by
    have e1 : L * L = (l * l : Int) * 2 ^ (e + e) := by rw [hL, mulE]; push_cast; ring
    rw [e1, abs_mul, abs_of_pos h2ee, ← Ieee.zpow_mul (52 : Int)]
    refine mul_le_mul_of_nonneg_right ?_ h2ee.le
    rw [← Int.cast_abs, show (2 : ℚ) ^ (52 : Int) = ((2 ^ 52 : Int) : ℚ) by norm_num]
    have : |l * l| ≤ 2 ^ 52 := by rw [abs_mul]; have := abs_nonneg l; nlinarith
    exact_mod_cast this
  have rA : Repr binary64 (H * H - P) := by
    refine repr_of_mult (e := e + e + 52) ((hmHH.mono (by omega)).sub hP) (by change -1074 ≤ _; omega) ?_
    have e1 : H * H - P = -(2 * H * L) + -(L * L) + -(P - X * X) := by rw [hsum]; ring
    have h1 := (abs_add_le (-(2 * H * L) + -(L * L)) (-(P - X * X)))
    have h2 := abs_add_le (-(2 * H * L)) (-(L * L))
    rw [← e1, abs_neg] at h1
    rw [abs_neg, abs_neg] at h2
    have h3 : (2 : ℚ) ^ (52 + (e + e)) ≤ 2 ^ (79 + (e + e)) := zpow_le_zpow.2 (by omega)
    have h4 : (2 : ℚ) ^ (80 + (e + e)) = 2 * 2 ^ (79 + (e + e)) := by rw [← zpow_succ]; congr 1; ring
    have h5 : (2 : ℚ) ^ (81 + (e + e)) = 2 * 2 ^ (80 + (e + e)) := by rw [← zpow_succ]; congr 1; ring
    have h6 : (2 : ℚ) ^ (81 + (e + e)) ≤ 2 ^ (e + e + 52 + binary64.p) := zpow_le_zpow.2 (by change _ ≤ e + e + 52 + 53; omega)
    linarith
  have rB : Repr binary64 (H * H - P + 2 * H * L) := by
    refine repr_of_mult (e := e + e + 28) (((hmHH.mono (by omega)).sub (hP.mono (by omega))).add hm2HL) (by change -1074 ≤ _; omega) ?_
    have e1 : H * H - P + 2 * H * L = -(L * L) + -(P - X * X) := by rw [hsum]; ring
    have h1 := abs_add_le (-(L * L)) (-(P - X * X))
    rw [← e1, abs_neg, abs_neg] at h1
    have h4 : (2 : ℚ) ^ (53 + (e + e)) = 2 * 2 ^ (52 + (e + e)) := by rw [← zpow_succ]; congr 1; ring
    have h6 : (2 : ℚ) ^ (53 + (e + e)) ≤ 2 ^ (e + e + 28 + binary64.p) := zpow_le_zpow.2 (by change _ ≤ e + e + 28 + 53; omega)
    linarith
  have rC : Repr binary64 (X * X - P) := by
    refine repr_of_mult (e := e + e) (hmX.sub (hP.mono (by omega))) (by change -1074 ≤ _; omega) ?_
    rw [abs_sub_comm]
    exact hc2.trans (zpow_le_zpow.2 (by change _ ≤ e + e + 53; omega))
  have e3 : H * H - P + 2 * H * L + L * L = X * X - P := by rw [hsum]; ring
  simp only [sqrX2, sqrError, sqrErrorFma, hX, hH, rnd_of_repr rH, hLd, rnd_of_repr rL, rnd_of_repr rHH, rnd_of_repr r2H, rnd_of_repr r2HL,
    rnd_of_repr rLL, hPd]
  have e4 : rnd binary64 (H * H - P) = H * H - P := rnd_of_repr rA
  have e5 : rnd binary64 (H * H - P + 2 * H * L) = H * H - P + 2 * H * L := rnd_of_repr rB
  have e6 : rnd binary64 (X * X - P) = X * X - P := rnd_of_repr rC
  cases fma
  · simp only [Bool.false_eq_true, if_false, e4, e5, e3, e6]
  · simp only [if_true, e6]

/-- **C87** `sqrX2` for `double`, with and without the fused operation: the first part is the rounded square and the two parts add up to
the exact square, unless the square is so small that its last digit underflows. -/
theorem C87_sqrX2 (fma : Bool) {b : BitVec 64} (hb : Fin b) (hu : val b = 0 ∨ (2 : ℚ) ^ (-485 : Int) ≤ |val b|) :
    (sqrX2 binary64 fma b).val0 = rnd binary64 (val b * val b) ∧
    (sqrX2 binary64 fma b).val0 + (sqrX2 binary64 fma b).val1 = val b * val b := by
  rw [sqr_err fma hb hu]
  exact ⟨rfl, by simp⟩

/-- A `float` has no lower half in the sense of `highHalf`, which splits a `double`. -/
theorem high_float {b : BitVec 64} (hb : Fin b) (hf : Repr binary32 (val b)) : val (highHalf b) = val b := by
  obtain ⟨s, h, e, he, hx, hh, hs, hhb, hl, hd⟩ := high_spec b hb
  have h2e := two_zpow_pos e
  have key : s = h * 2 ^ 27 := by
    by_cases h0 : s = 0
    · rw [h0, abs_le] at hl
      omega
    have hx0 : val b ≠ 0 := by
      rw [hx]
      exact mul_ne_zero (by exact_mod_cast h0) h2e.ne'
    have hxb : |val b| < 2 ^ (53 + e) := by
      rw [hx, abs_mul, abs_of_pos h2e, ← Ieee.zpow_mul, ← Int.cast_abs]
      refine mul_lt_mul_of_pos_right ?_ h2e
      rw [show (2 : ℚ) ^ (53 : Int) = ((2 ^ 53 : Int) : ℚ) by norm_num]
      exact_mod_cast hs
    have hx149 : (2 : ℚ) ^ (-149 : Int) ≤ |val b| := by
      by_contra hc
      push Not at hc
      refine hx0 (mult_eq ((mult_repr hf).mono (ulpExp_ge binary32 _)) mult_zero ?_)
      rw [sub_zero]
      exact hc
    have he2 := zpow_lt_zpow.1 (lt_of_le_of_lt hx149 hxb)
    have hs52 := hd.resolve_left (by omega)
    have hx52 : (2 : ℚ) ^ (52 + e) ≤ |val b| := by
      rw [hx, abs_mul, abs_of_pos h2e, ← Ieee.zpow_mul, ← Int.cast_abs]
      refine mul_le_mul_of_nonneg_right ?_ h2e.le
      rw [show (2 : ℚ) ^ (52 : Int) = ((2 ^ 52 : Int) : ℚ) by norm_num]
      exact_mod_cast hs52
    have hu : e + 29 ≤ ulpExp binary32 (val b) := le_ulpExp (by
      rw [show e + 29 + (binary32.p : Int) - 1 = 52 + e by change e + 29 + 24 - 1 = _; ring]
      exact hx52)
    obtain ⟨n, hn⟩ := (mult_repr hf).mono hu
    rw [hx, show e + 29 = 29 + e by ring, ← Ieee.zpow_mul, ← mul_assoc] at hn
    have hn2 := mul_right_cancel₀ h2e.ne' hn
    rw [show (2 : ℚ) ^ (29 : Int) = ((2 ^ 29 : Int) : ℚ) by norm_num] at hn2
    have hn3 : s = n * 2 ^ 29 := by exact_mod_cast hn2
    rw [abs_le] at hl
    omega
  rw [hh, ← key, hx]

/-- **C87** For `float` the second part of the square is always zero: the error is lost. -/
theorem C87_sqrX2_float {b : BitVec 64} (hb : Fin b) (hf : Repr binary32 (val b)) : (sqrX2 binary32 false b).val1 = 0 := by
  simp only [sqrX2, sqrError, high_float hb hf, rnd_of_repr hf, sub_self, rnd_zero, mul_zero, add_zero, Bool.false_eq_true, if_false]

/-- **C87** as documented for `sqrX2` of any type. -/
def C87Claim (f : Fmt) : Prop :=
  ∀ b : BitVec 64, Fin b → Repr f (val b) → (2 : ℚ) ^ (f.emin / 2 + f.p) ≤ |val b| →
    (sqrX2 f false b).val0 + (sqrX2 f false b).val1 = val b * val b

/-- **C87** It holds for `double`. -/
theorem C87_sqrX2_double : C87Claim binary64 := fun b hb _ hu =>
  (C87_sqrX2 false hb (.inr (le_trans (zpow_le_zpow.2 (by decide)) hu))).2

/-- `1 + 2 ^ -12` -/
def exOne : BitVec 64 := 0x3FF0010000000000#64

theorem exOne_val : val exOne = 4097 / 4096 := by
  norm_num [val, mag, expo, exOne]

theorem repr32 {x : ℚ} (n : Int) (e : Int) (hx : x = n * 2 ^ e) (he : -149 ≤ e) (hn : |n| ≤ 2 ^ 24) : Repr binary32 x := by
  refine repr_of_mult ⟨n, hx⟩ he ?_
  rw [hx, abs_mul, abs_of_pos (two_zpow_pos e), add_comm, ← Ieee.zpow_mul, ← Int.cast_abs]
  refine mul_le_mul_of_nonneg_right ?_ (two_zpow_pos e).le
  change ((|n| : Int) : ℚ) ≤ 2 ^ ((24 : Nat) : Int)
  rw [zpow_natCast]
  exact_mod_cast hn

/-- **C87** It is false for `float`: the parts for `1 + 2^-12` do not add up to `1 + 2^-11 + 2^-24`. -/
theorem C87_false : ¬C87Claim binary32 := by
  intro h
  have hf : Repr binary32 (val exOne) := repr32 4097 (-12) (by rw [exOne_val]; norm_num) (by norm_num) (by norm_num)
  have h1 := h exOne (by decide) hf (by rw [exOne_val]; norm_num [binary32])
  rw [C87_sqrX2_float (by decide) hf, add_zero] at h1
  have h2 : Repr binary32 (val exOne * val exOne) := by
    rw [← h1]; exact repr_rnd _ _
  rw [exOne_val] at h2
  obtain ⟨n, hn⟩ := (mult_repr h2).mono (e' := -23) (le_ulpExp (by norm_num [binary32]))
  have h3 : (4097 * 4097 : ℚ) = 2 * n := by
    have : (2 : ℚ) ^ (-23 : Int) = 1 / 8388608 := by norm_num
    rw [this] at hn
    linarith
  have h4 : (4097 * 4097 : Int) = 2 * n := by exact_mod_cast h3
  omega

/-! Squares of the absolute value near 1. -/

theorem rnd_err (x : ℚ) : |rnd binary64 x - x| ≤ |x| / 2 ^ 53 + 1 / 2 ^ 1000 := by
  by_cases h0 : x = 0
  · rw [h0, rnd_zero, sub_zero, abs_zero]; positivity
  have h1 := rnd_close binary64 x
  rcases ulp_cases binary64 h0 with h | h
  · rw [h] at h1
    refine h1.trans (le_add_of_nonneg_of_le (by positivity) ?_)
    have h2 : (2 : ℚ) ^ binary64.emin ≤ 2 ^ (-((1000 : Nat) : Int)) := zpow_le_zpow.2 (by decide)
    rw [zpow_neg, zpow_natCast] at h2
    rw [one_div]
    have := two_zpow_pos binary64.emin
    linarith
  · refine h1.trans (le_add_of_le_of_nonneg ?_ (by positivity))
    rw [show ulpExp binary64 x + (binary64.p : Int) - 1 = ulpExp binary64 x + ((52 : Nat) : Int) by change _ + 53 - 1 = _; push_cast; ring,
      ← Ieee.zpow_mul, zpow_natCast] at h
    rw [le_div_iff₀ (by positivity)]
    rw [show (2 : ℚ) ^ 53 = 2 ^ 52 * 2 by norm_num]
    linarith

theorem rnd_bound {x : ℚ} {k : Int} (hk : -1074 ≤ k) (h : |x| ≤ 2 ^ k) : |rnd binary64 x| ≤ 2 ^ k := by
  have hr : Repr binary64 ((2 : ℚ) ^ k) := repr_two_zpow hk
  rw [abs_le] at h ⊢
  refine ⟨?_, rnd_le_of_repr hr h.2⟩
  exact le_rnd_of_repr (repr_neg hr) h.1

/-- The square of a tiny number. -/
theorem sqr_small (fma : Bool) {b : BitVec 64} (hb : Fin b) (hu : |val b| ≤ (2 : ℚ) ^ (-485 : Int)) :
    |(sqrX2 binary64 fma b).val0| ≤ 2 ^ (-970 : Int) ∧ |(sqrX2 binary64 fma b).val1| ≤ 2 ^ (-965 : Int) := by
  obtain ⟨s, h, e, he, hx, hh, hs, hhb, hl, hd⟩ := high_spec b hb
  have h2e := two_zpow_pos e
  have hm : ∀ {a c : ℚ} {i j : Int}, |a| ≤ 2 ^ i → |c| ≤ 2 ^ j → |a * c| ≤ 2 ^ (i + j) := by
    intro a c i j ha hc
    rw [abs_mul, ← Ieee.zpow_mul]
    exact mul_le_mul ha hc (abs_nonneg _) (two_zpow_pos _).le
  have ha : ∀ {a c : ℚ} {i : Int}, |a| ≤ 2 ^ i → |c| ≤ 2 ^ i → |a + c| ≤ 2 ^ (i + 1) := by
    intro a c i ha hc
    rw [zpow_succ]
    have := abs_add_le a c
    linarith
  have hmono : ∀ {a : ℚ} {i j : Int}, |a| ≤ 2 ^ i → i ≤ j → |a| ≤ 2 ^ j := fun h hij => h.trans (zpow_le_zpow.2 hij)
  have hL : |val b - val (highHalf b)| ≤ 2 ^ (-485 : Int) := by
    have e1 : val b - val (highHalf b) = (s - h * 2 ^ 27 : Int) * 2 ^ e := by rw [hx, hh]; push_cast; ring
    rw [e1, abs_mul, abs_of_pos h2e, ← Int.cast_abs]
    rcases hd with hd | hd
    · have h1 : ((|s - h * 2 ^ 27| : Int) : ℚ) ≤ 2 ^ (26 : Int) := by
        rw [show (2 : ℚ) ^ (26 : Int) = ((2 ^ 26 : Int) : ℚ) by norm_num]; exact_mod_cast hl
      calc _ ≤ (2 : ℚ) ^ (26 : Int) * 2 ^ e := mul_le_mul_of_nonneg_right h1 h2e.le
        _ = 2 ^ (26 + e) := Ieee.zpow_mul _ _
        _ ≤ _ := zpow_le_zpow.2 (by omega)
    · have h1 : ((|s - h * 2 ^ 27| : Int) : ℚ) ≤ (|s| : Int) := by
        have : |s - h * 2 ^ 27| ≤ |s| := by omega
        exact_mod_cast this
      calc _ ≤ ((|s| : Int) : ℚ) * 2 ^ e := mul_le_mul_of_nonneg_right h1 h2e.le
        _ = |val b| := by rw [hx, abs_mul, abs_of_pos h2e, Int.cast_abs]
        _ ≤ _ := hu
  have hH : |val (highHalf b)| ≤ 2 ^ (-484 : Int) := by
    have e1 : val (highHalf b) = val b + -(val b - val (highHalf b)) := by ring
    rw [e1]
    exact ha hu (by rwa [abs_neg])
  have rH : Repr binary64 (val (highHalf b)) := by
    refine repr_mul hh he ?_
    rw [abs_mul]
    norm_num
    omega
  have hP := rnd_bound (by norm_num) (hm hu hu)
  refine ⟨hP, ?_⟩
  simp only [sqrX2, sqrError, sqrErrorFma, rnd_of_repr rH]
  cases fma
  · simp only [Bool.false_eq_true, if_false]
    have hL' := rnd_bound (by norm_num) hL
    generalize rnd binary64 (val b - val (highHalf b)) = L at *
    generalize val (highHalf b) = H at *
    have h1 := rnd_bound (by norm_num) (hm hH hH)
    have h2 := rnd_bound (x := 2 * H) (k := -483) (by norm_num) (by
      have := hm (a := 2) (i := 1) (by norm_num) hH
      exact hmono this (by norm_num))
    have h3 := rnd_bound (by norm_num) (hm h2 hL')
    have h4 := rnd_bound (by norm_num) (hm hL' hL')
    have h5 := rnd_bound (x := rnd binary64 (H * H) - rnd binary64 (val b * val b)) (k := -967) (by norm_num) (by
      rw [sub_eq_add_neg]
      exact hmono (ha h1 (by rw [abs_neg]; exact hmono hP (by norm_num))) (by norm_num))
    have h6 := rnd_bound (by norm_num) (ha h5 (hmono h3 (by norm_num)))
    have h7 := rnd_bound (by norm_num) (ha h6 (hmono h4 (by norm_num)))
    exact hmono h7 (by norm_num)
  · simp only [if_true]
    refine hmono (rnd_bound (k := -969) (by norm_num) ?_) (by norm_num)
    rw [sub_eq_add_neg]
    exact ha (hm hu hu) (by rwa [abs_neg])

/-- **C88** `normMinusOne` for `double`: the result differs from `x² + y² - 1` by at most half a unit in its last place and an absolute
error of `2 ^ -100`, although the sum may cancel all the digits of `x²`. -/
theorem C88_normMinusOne (fma : Bool) {bx bY : BitVec 64} (hx : Fin bx) (hy : Fin bY) (h1 : 1 / 2 ≤ |val bx|) (h2 : |val bx| ≤ 2)
    (h3 : |val bY| ≤ |val bx|) :
    |normMinusOne binary64 fma bx bY - (val bx ^ 2 + val bY ^ 2 - 1)| ≤ |val bx ^ 2 + val bY ^ 2 - 1| / 2 ^ 53 + 1 / 2 ^ 100 := by
  have two485 : (2 : ℚ) ^ (-485 : Int) ≤ 1 / 2 := by
    rw [show (1 / 2 : ℚ) = 2 ^ (-1 : Int) by norm_num]; exact zpow_le_zpow.2 (by norm_num)
  have hX := sqr_err fma hx (.inr (two485.trans h1))
  -- the square of y
  obtain ⟨q, d, hY, hqr, hq, hd, hqd⟩ : ∃ q d, sqrX2 binary64 fma bY = ⟨q, d⟩ ∧ Repr binary64 q ∧ |q| ≤ 4 ∧ |d| ≤ 5 / 2 ^ 53 ∧
      |q + d - val bY * val bY| ≤ 1 / 2 ^ 900 := by
    have hYY : |val bY * val bY| ≤ 4 := by
      rw [abs_mul]; have := abs_nonneg (val bY); nlinarith
    have hc : ∀ k : Nat, (2 : ℚ) ^ (-(k : Int)) = 1 / 2 ^ k := fun k => by rw [zpow_neg, zpow_natCast, one_div]
    have hdiv : ∀ {i j : Nat}, j ≤ i → (1 : ℚ) / 2 ^ i ≤ 1 / 2 ^ j := fun h =>
      one_div_le_one_div_of_le (by positivity) (pow_le_pow_right₀ (by norm_num) h)
    by_cases hu : |val bY| ≤ (2 : ℚ) ^ (-485 : Int)
    · obtain ⟨g1, g2⟩ := sqr_small fma hy hu
      rw [show (-970 : Int) = -((970 : Nat) : Int) from rfl, hc] at g1
      rw [show (-965 : Int) = -((965 : Nat) : Int) from rfl, hc] at g2
      rw [show (-485 : Int) = -((485 : Nat) : Int) from rfl, hc] at hu
      have g3 : |val bY * val bY| ≤ 1 / 2 ^ 970 := by
        rw [abs_mul, show (970 : Nat) = 485 + 485 from rfl, pow_add, ← one_div_mul_one_div]
        exact mul_le_mul hu hu (abs_nonneg _) (by positivity)
      refine ⟨(sqrX2 binary64 fma bY).val0, (sqrX2 binary64 fma bY).val1, rfl, repr_rnd _ _, g1.trans ((hdiv (j := 0) (by norm_num)).trans (by norm_num)), g2.trans ((hdiv (j := 53) (by norm_num)).trans ?_), ?_⟩
      · exact div_le_div_of_nonneg_right (by norm_num) (by positivity)
      · have h10 := abs_sub ((sqrX2 binary64 fma bY).val0 + (sqrX2 binary64 fma bY).val1) (val bY * val bY)
        have h11 := abs_add_le (sqrX2 binary64 fma bY).val0 (sqrX2 binary64 fma bY).val1
        have h12 := g1.trans (hdiv (j := 902) (by norm_num))
        have h13 := g2.trans (hdiv (j := 902) (by norm_num))
        have h16 := g3.trans (hdiv (j := 902) (by norm_num))
        have h14 : (1 : ℚ) / 2 ^ 900 = 4 * (1 / 2 ^ 902) := by
          rw [show (902 : Nat) = 900 + 2 from rfl, pow_add]; field_simp; norm_num
        have h15 : (0 : ℚ) < 1 / 2 ^ 902 := by positivity
        rw [h14]
        generalize (1 : ℚ) / 2 ^ 902 = t at h12 h13 h16 h15 ⊢
        linarith only [h10, h11, h12, h13, h16, h15]
    · rw [sqr_err fma hy (.inr (le_of_lt (not_le.1 hu)))]
      refine ⟨_, _, rfl, repr_rnd _ _, ?_, ?_, ?_⟩
      · have := rnd_bound (x := val bY * val bY) (k := 2) (by norm_num) (by rw [show (2 : ℚ) ^ (2 : Int) = 4 by norm_num]; exact hYY)
        rw [show (2 : ℚ) ^ (2 : Int) = 4 by norm_num] at this
        exact this
      · have := rnd_err (val bY * val bY)
        rw [abs_sub_comm] at this
        have h12 : (1 : ℚ) / 2 ^ 1000 ≤ 1 / 2 ^ 53 := hdiv (by norm_num)
        refine this.trans ?_
        have h13 : |val bY * val bY| / 2 ^ 53 ≤ 4 / 2 ^ 53 := div_le_div_of_nonneg_right hYY (by positivity)
        have h14 : (5 : ℚ) / 2 ^ 53 = 4 / 2 ^ 53 + 1 / 2 ^ 53 := by ring
        linarith
      · rw [add_sub_cancel, sub_self, abs_zero]; positivity
  simp only [normMinusOne, hX, hY, addSmallX2', addX1]
  have rX := repr_val hx
  have rE : Repr binary64 (val bx * val bx - rnd binary64 (val bx * val bx)) := by
    have h10 : rnd binary64 (val bx * val bx - rnd binary64 (val bx * val bx)) = _ :=
      congrArg Fmp.val1 (sqr_err true hx (.inr (two485.trans h1)))
    have h11 := repr_rnd binary64 (val bx * val bx - rnd binary64 (val bx * val bx))
    rwa [h10] at h11
  generalize val bx = X at *
  generalize val bY = Y at *
  have hXX1 : 1 / 4 ≤ X * X := by
    rcases abs_choice X with h | h <;> rw [h] at h1 <;> nlinarith
  have hXX2 : X * X ≤ 4 := by
    rw [← abs_mul_abs_self]; nlinarith [abs_nonneg X]
  obtain ⟨tiny, ht⟩ : ∃ t : ℚ, t = 1 / 2 ^ 900 := ⟨_, rfl⟩
  obtain ⟨E, hE⟩ : ∃ t : ℚ, t = 1 / 2 ^ 53 := ⟨_, rfl⟩
  have hE0 : 0 < E := by rw [hE]; positivity
  have hE1 : E ≤ 1 / 1024 := by rw [hE]; norm_num
  have ht0 : 0 < tiny := by rw [ht]; positivity
  have hdiv : ∀ {i j : Nat}, j ≤ i → (1 : ℚ) / 2 ^ i ≤ 1 / 2 ^ j := fun h =>
    one_div_le_one_div_of_le (by positivity) (pow_le_pow_right₀ (by norm_num) h)
  have htE : tiny ≤ E * E / 1024 := by
    rw [hE, ht]
    exact (hdiv (j := 116) (by norm_num)).trans (by norm_num)
  have htE2 : E * E ≤ E / 1024 := by nlinarith
  have err : ∀ (x c : ℚ), |x| ≤ c → |rnd binary64 x - x| ≤ c * E + tiny := fun x c hc => by
    refine (rnd_err x).trans (add_le_add ?_ ?_)
    · rw [hE, mul_one_div]; exact div_le_div_of_nonneg_right hc (by positivity)
    · rw [ht]; exact hdiv (by norm_num)
  rw [show (5 : ℚ) / 2 ^ 53 = 5 * E by rw [hE]; ring] at hd
  rw [← ht] at hqd
  rw [show |X ^ 2 + Y ^ 2 - 1| / 2 ^ 53 = |X ^ 2 + Y ^ 2 - 1| * E by rw [hE]; ring, show (1 : ℚ) / 2 ^ 100 = 64 * (E * E) by rw [hE]; norm_num]
  -- the rounded square of x
  have hXX : |X * X| ≤ 4 := by rw [abs_of_nonneg (by linarith)]; exact hXX2
  have eP := err _ 4 hXX
  have pr := repr_rnd binary64 (X * X)
  have p4 : rnd binary64 (X * X) ≤ 4 := by
    have : Repr binary64 (4 : ℚ) := by rw [show (4 : ℚ) = 2 ^ (2 : Int) by norm_num]; exact repr_two_zpow (by decide)
    exact rnd_le_of_repr this hXX2
  have p1 : 1 / 4 ≤ rnd binary64 (X * X) := by
    have : Repr binary64 (1 / 4 : ℚ) := by rw [show (1 / 4 : ℚ) = 2 ^ (-2 : Int) by norm_num]; exact repr_two_zpow (by decide)
    exact le_rnd_of_repr this hXX1
  have pm := mult_rnd binary64 (X * X)
  have pc := rnd_close binary64 (X * X)
  have ul : -54 ≤ ulpExp binary64 (X * X) := le_ulpExp (by
    change (2 : ℚ) ^ (-54 + 53 - 1 : Int) ≤ _
    rw [abs_of_nonneg (by linarith), show (2 : ℚ) ^ (-54 + 53 - 1 : Int) = 1 / 4 by norm_num]
    exact hXX1)
  have uh : ulpExp binary64 (X * X) ≤ 0 := ulpExp_le (by linarith) (by decide) (by
    change _ < (2 : ℚ) ^ (0 + 53 : Int)
    refine lt_of_le_of_lt hXX (by norm_num))
  have r1 : Repr binary64 (-1) := by
    have := repr_neg (repr_two_zpow (f := binary64) (e := 0) (by decide))
    simpa using this
  have m1 : ∀ k ≤ 0, Mult k (-1) := fun k hk => Mult.mono (e := 0) ⟨-1, by norm_num⟩ hk
  generalize hUd : ulpExp binary64 (X * X) = U at *
  generalize rnd binary64 (X * X) = P at *
  rw [fast r1 pr (m1 _ (ulpExp_le (by linarith) (by decide) (by
    change _ < (2 : ℚ) ^ (0 + 53 : Int)
    rw [abs_of_nonneg (by linarith)]
    exact lt_of_le_of_lt p4 (by norm_num))))]
  -- the sum with -1
  have hPm : |-1 + P| ≤ 3 := by rw [abs_le]; constructor <;> linarith
  have eA := err _ 3 hPm
  have ar := repr_rnd binary64 (-1 + P)
  generalize hAd : rnd binary64 (-1 + P) = A at *
  dsimp only
  have hbe : |-1 + P - A + (X * X - P)| ≤ 8 * E := by
    have h10 := abs_add_le (-1 + P - A) (X * X - P)
    rw [abs_sub_comm (-1 + P), abs_sub_comm (X * X)] at h10
    linarith
  have eT := err _ _ hbe
  have tr := repr_rnd binary64 (-1 + P - A + (X * X - P))
  have hal : Aligned binary64 A (rnd binary64 (-1 + P - A + (X * X - P))) := by
    have mP : Mult U (-1 + P) := (m1 U uh).add pm
    by_cases hsm : |-1 + P| ≤ 2 ^ (U + 53)
    · have hA : A = -1 + P := by
        rw [← hAd]
        exact rnd_of_repr (repr_of_mult mP (by change -1074 ≤ _; omega) hsm)
      rw [hA, sub_self, zero_add, rnd_of_repr rE]
      by_cases h0 : -1 + P = 0
      · rw [h0]
        exact ⟨_, ulpExp_ge binary64 _, mult_zero, mult_repr rE, abs_lt_ulp binary64 _⟩
      · refine aligned_of_le (hA ▸ ar) rE ?_
        have h10 : (2 : ℚ) ^ U ≤ |-1 + P| := by
          by_contra hc
          push Not at hc
          exact h0 (mult_eq mP mult_zero (by rwa [sub_zero]))
        rw [abs_sub_comm]
        have := two_zpow_pos U
        linarith
    · push Not at hsm
      have h10 : (1 / 2 : ℚ) ≤ 2 ^ (U + 53) := by
        rw [show (1 / 2 : ℚ) = 2 ^ (-1 : Int) by norm_num]
        exact zpow_le_zpow.2 (by omega)
      refine aligned_of_le ar tr ?_
      have h11 := abs_sub_abs_le_abs_sub (-1 + P) A
      rw [abs_sub_comm] at h11
      have h12 := abs_sub_abs_le_abs_sub (rnd binary64 (-1 + P - A + (X * X - P))) (-1 + P - A + (X * X - P))
      linarith
  generalize rnd binary64 (-1 + P - A + (X * X - P)) = t at *
  rw [fast' ar tr hal]
  dsimp only
  have hA3 : |A| ≤ 3 + 4 * E := by
    have := abs_sub_abs_le_abs_sub A (-1 + P)
    linarith
  have htT : |t| ≤ 9 * E := by
    have := abs_sub_abs_le_abs_sub t (-1 + P - A + (X * X - P))
    linarith
  have hAt : |A + t| ≤ 4 := by
    have := abs_add_le A t
    linarith
  have eU := err _ _ hAt
  have ur := repr_rnd binary64 (A + t)
  generalize rnd binary64 (A + t) = u at *
  rw [two_sum (by decide) ur hqr]
  dsimp only
  have hu5 : |u| ≤ 5 := by
    have := abs_sub_abs_le_abs_sub u (A + t)
    linarith
  have huq : |u + q| ≤ 9 := by
    have := abs_add_le u q
    linarith
  have eW := err _ _ huq
  generalize rnd binary64 (u + q) = w at *
  have hVd : |A + t - u + d| ≤ 10 * E := by
    have := abs_add_le (A + t - u) d
    rw [abs_sub_comm (A + t)] at this
    linarith
  have eR := err _ _ hVd
  generalize rnd binary64 (A + t - u + d) = r at *
  have hr : |r| ≤ 11 * E := by
    have := abs_sub_abs_le_abs_sub r (A + t - u + d)
    linarith
  have hzr : |u + q - w + r| ≤ 21 * E := by
    have := abs_add_le (u + q - w) r
    rw [abs_sub_comm (u + q)] at this
    linarith
  have eS := err _ _ hzr
  generalize rnd binary64 (u + q - w + r) = z at *
  have htot : |w + z - (X ^ 2 + Y ^ 2 - 1)| ≤ 43 * (E * E) := by
    have e1 : w + z - (X ^ 2 + Y ^ 2 - 1) = (z - (u + q - w + r)) + ((r - (A + t - u + d)) + ((t - (-1 + P - A + (X * X - P))) + (q + d - Y * Y))) := by
      ring
    rw [e1]
    have g1 := abs_add_le (z - (u + q - w + r)) ((r - (A + t - u + d)) + ((t - (-1 + P - A + (X * X - P))) + (q + d - Y * Y)))
    have g2 := abs_add_le (r - (A + t - u + d)) ((t - (-1 + P - A + (X * X - P))) + (q + d - Y * Y))
    have g3 := abs_add_le (t - (-1 + P - A + (X * X - P))) (q + d - Y * Y)
    linarith
  have hle : |w + z| ≤ |X ^ 2 + Y ^ 2 - 1| + 43 * (E * E) := by
    have := abs_sub_abs_le_abs_sub (w + z) (X ^ 2 + Y ^ 2 - 1)
    linarith
  have eF := err _ _ hle
  have h10 := abs_sub_le (rnd binary64 (w + z)) (w + z) (X ^ 2 + Y ^ 2 - 1)
  have h11 : 43 * (E * E) * E ≤ E * E := by have := mul_le_mul_of_nonneg_left hE1 (mul_pos hE0 hE0).le; linarith
  linarith

/-- **C88** `logP1`, 310-311, splits `1 + x` without an error. -/
theorem C88_logP1 (he : f.emin ≤ 0) (hx : Repr f x) (h : |x| < 2) :
    (addSmallX2 f 1 x).val0 = rnd f (1 + x) ∧ (addSmallX2 f 1 x).val0 + (addSmallX2 f 1 x).val1 = 1 + x := by
  have hp := f.hp
  have r1 : Repr f 1 := by simpa using repr_two_zpow (f := f) he
  by_cases h0 : x = 0
  · exact C87_addSmallX2 r1 hx (.inr (by rw [h0]; simp))
  · refine C87_addSmallX2 r1 hx (.inl ⟨ulpExp f x, ulpExp_ge f x, ?_, mult_repr hx, abs_lt_ulp f x⟩)
    refine Mult.mono (e := 0) ⟨1, by simp⟩ (ulpExp_le h0 he (lt_of_lt_of_le h ?_))
    rw [show (2 : ℚ) = 2 ^ (1 : Int) by norm_num]
    exact zpow_le_zpow.2 (by omega)

/-- **C88** as one expects it of any type. -/
def C88Claim (f : Fmt) : Prop :=
  ∀ bx bY : BitVec 64, Fin bx → Fin bY → Repr f (val bx) → Repr f (val bY) → 1 / 2 ≤ |val bx| → |val bx| ≤ 2 → |val bY| ≤ |val bx| →
    |normMinusOne f false bx bY - (val bx ^ 2 + val bY ^ 2 - 1)| ≤ |val bx ^ 2 + val bY ^ 2 - 1| / 2 ^ f.p + 64 / 2 ^ (2 * f.p)

/-- **C88** It holds for `double`. -/
theorem C88_double : C88Claim binary64 := fun bx bY h1 h2 _ _ h3 h4 h5 => by
  have := C88_normMinusOne false h1 h2 h3 h4 h5
  rw [show (1 : ℚ) / 2 ^ 100 = 64 / 2 ^ (2 * binary64.p) by norm_num [binary64]] at this
  exact this

/-- `2 ^ -30` -/
def exTiny : BitVec 64 := 0x3E10000000000000#64

theorem exTiny_val : val exTiny = 1 / 2 ^ 30 := by
  norm_num [val, mag, expo, exTiny]

theorem rnd32 (x : ℚ) (E n : Int) (h1 : (2 : ℚ) ^ (E + 23) ≤ x) (h2 : x < 2 ^ (E + 24)) (hE : -149 ≤ E) (hn : rne (x / 2 ^ E) = n) :
    rnd binary32 x = n * 2 ^ E := by
  have hx : 0 < x := lt_of_lt_of_le (two_zpow_pos _) h1
  have : ulpExp binary32 x = E := by
    refine le_antisymm (ulpExp_le hx.ne' hE ?_) (le_ulpExp ?_)
    · rw [abs_of_pos hx]; exact h2
    · rw [abs_of_pos hx]
      rwa [show E + (binary32.p : Int) - 1 = E + 23 by change E + 24 - 1 = _; ring]
  rw [rnd, this, hn]

/-- **C88** It is false for `float`: near the unit circle half of the digits are lost. -/
theorem C88_false : ¬C88Claim binary32 := by
  intro h
  have hf : Repr binary32 (val exOne) := repr32 4097 (-12) (by rw [exOne_val]; norm_num) (by norm_num) (by norm_num)
  have hg : Repr binary32 (val exTiny) := repr32 1 (-30) (by rw [exTiny_val]; norm_num) (by norm_num) (by norm_num)
  have h1 := h exOne exTiny (by decide) (by decide) hf hg (by rw [exOne_val]; norm_num [abs_of_pos]) (by rw [exOne_val]; norm_num [abs_of_pos])
    (by rw [exOne_val, exTiny_val]; norm_num [abs_of_pos])
  have e1 : rnd binary32 (val exOne * val exOne) = 4098 / 4096 := by
    rw [exOne_val, rnd32 _ (-23) 8392704 (by norm_num) (by norm_num) (by norm_num) (by norm_num [rne])]
    norm_num
  have e2 : rnd binary32 (val exTiny * val exTiny) = 1 / 2 ^ 60 := by
    rw [exTiny_val, rnd_of_repr (repr32 1 (-60) (by norm_num) (by norm_num) (by norm_num))]
    norm_num
  have e3 : sqrX2 binary32 false exOne = ⟨4098 / 4096, 0⟩ := by
    rw [← e1, ← C87_sqrX2_float (b := exOne) (by decide) hf]; rfl
  have e4 : sqrX2 binary32 false exTiny = ⟨1 / 2 ^ 60, 0⟩ := by
    rw [← e2, ← C87_sqrX2_float (b := exTiny) (by decide) hg]; rfl
  have e5 : rnd binary32 (-1 + 4098 / 4096) = 1 / 2048 := by
    rw [rnd_of_repr (repr32 1 (-11) (by norm_num) (by norm_num) (by norm_num))]; norm_num
  have e6 : rnd binary32 (1 / 2048 - -1) = 4098 / 4096 := by
    rw [rnd_of_repr (repr32 4098 (-12) (by norm_num) (by norm_num) (by norm_num))]; norm_num
  have r5 : Repr binary32 (1 / 2048) := repr32 1 (-11) (by norm_num) (by norm_num) (by norm_num)
  have r6 : Repr binary32 (1 / 2 ^ 60) := repr32 1 (-60) (by norm_num) (by norm_num) (by norm_num)
  have e7 : rnd binary32 (1 / 2048 + 1 / 2 ^ 60) = 1 / 2048 := by
    rw [rnd32 _ (-34) 8388608 (by norm_num) (by norm_num) (by norm_num) (by norm_num [rne])]
    norm_num
  have e8 : normMinusOne binary32 false exOne exTiny = 1 / 2048 := by
    simp only [normMinusOne, e3, e4, addSmallX2', addSmallX2, addX1, e5, e6, sub_self, rnd_zero, add_zero, rnd_of_repr r5,
      two_sum (f := binary32) (by decide) r5 r6, e7]
    rw [show (1 / 2048 + 1 / 2 ^ 60 - 1 / 2048 : ℚ) = 1 / 2 ^ 60 by ring, rnd_of_repr r6, e7]
  rw [e8, exOne_val, exTiny_val] at h1
  norm_num [binary32, abs_of_neg, abs_of_pos] at h1

/-- The hypotheses hold for a point near the unit circle: `x = 1 + 2^-12`, `y = 2^-30`. -/
example : Fin exOne ∧ Fin exTiny ∧ 1 / 2 ≤ |val exOne| ∧ |val exOne| ≤ 2 ∧ |val exTiny| ≤ |val exOne| := by
  refine ⟨by decide, by decide, ?_⟩
  rw [exOne_val, exTiny_val]
  norm_num [abs_of_pos]

/-- Large and small numbers together: neither `|y| ≤ |x|` nor `|x| ≤ |y| / 2 ^ p` is needed for `addX2`. -/
example : Repr binary64 3 ∧ Repr binary64 (1 / 2 ^ 60) ∧ Repr binary64 (2 ^ 60) ∧ 3 ≤ binary64.p :=
  ⟨repr_mul (n := 3) (e := 0) (by norm_num) (by norm_num) (by norm_num), repr_mul (n := 1) (e := -60) (by norm_num) (by norm_num) (by norm_num),
    repr_mul (n := 1) (e := 60) (by norm_num) (by norm_num) (by norm_num), by decide⟩

/-- `1` and a number with a last place not above 1, as in `normMinusOne`. -/
example : Aligned binary64 (-1) (3 / 4) := ⟨-2, by decide, ⟨-4, by norm_num⟩, ⟨3, by norm_num⟩, by norm_num [binary64, abs_of_pos]⟩

end Verif.ErrFree
