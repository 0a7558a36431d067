import Verif.Lemmas.FloatSum
import Verif.Spec.FloatComplex
import Mathlib.Tactic.FieldSimp
import Mathlib.Tactic.Positivity
import Mathlib.Tactic.LinearCombination

/-! Rounding errors of the operations on complex numbers, component by component. -/

namespace Verif.Cx

open Ieee

variable {f : Fmt}

theorem normal_err {x : ℚ} (h : Normal f x) : |rnd f x - x| ≤ unitRoundoff f * |x| := by
  rcases h with h | h
  · simp [h]
  · exact rnd_rel h

/-- A relative error as a factor. -/
theorem factor {x y u : ℚ} (hu : 0 ≤ u) (h : |y - x| ≤ u * |x|) : ∃ d : ℚ, 1 - u ≤ d ∧ d ≤ 1 + u ∧ y = x * d := by
  by_cases h0 : x = 0
  · refine ⟨1, by linarith, by linarith, ?_⟩
    rw [h0, abs_zero, mul_zero, sub_zero] at h
    have := abs_nonpos_iff.1 h
    rw [this, h0, zero_mul]
  · refine ⟨y / x, ?_, ?_, (mul_div_cancel₀ y h0).symm⟩
    all_goals
      have e : y - x = x * (y / x - 1) := by field_simp
      rw [e, abs_mul, mul_comm] at h
      have := abs_le.1 (le_of_mul_le_mul_right h (abs_pos.2 h0))
      linarith [this.1, this.2]

theorem mul_between {a b x y l l' m m' : ℚ} (hl : 0 ≤ l) (hm : 0 ≤ m) (h1 : l ≤ x) (h2 : x ≤ l') (h3 : m ≤ y) (h4 : y ≤ m')
    (ha : a = l * m) (hb : b = l' * m') : a ≤ x * y ∧ x * y ≤ b := by
  subst ha hb
  exact ⟨mul_le_mul h1 h3 hm (le_trans hl h1), mul_le_mul h2 h4 (le_trans hm h3) (le_trans (le_trans hl h1) h2)⟩

/-- What seven roundings amount to. -/
def smithConst (u : ℚ) : ℚ := (1 + u) ^ 4 / (1 - u) ^ 3 - 1

theorem smithConst_nonneg {u : ℚ} (h0 : 0 ≤ u) (h1 : u < 1) : 0 ≤ smithConst u := by
  have : (1 - u) ^ 3 ≤ (1 + u) ^ 4 := by
    have a1 : (1 - u) ^ 3 ≤ 1 := pow_le_one₀ (by linarith) (by linarith)
    have a2 : 1 ≤ (1 + u) ^ 4 := one_le_pow₀ (by linarith)
    linarith
  unfold smithConst
  have h3 : 0 < (1 - u) ^ 3 := by have : 0 < 1 - u := by linarith
                                  positivity
  have := (one_le_div h3).2 this
  linarith

/-- A product of factors near one and a quotient near one. -/
theorem near_one {u p g : ℚ} (h0 : 0 ≤ u) (h1 : u < 1) (hp0 : (1 - u) ^ 4 ≤ p) (hp1 : p ≤ (1 + u) ^ 4) (hg0 : (1 - u) ^ 3 ≤ g)
    (hg1 : g ≤ (1 + u) ^ 3) : |p / g - 1| ≤ smithConst u := by
  have hu : 0 < 1 - u := by linarith
  have h3 : 0 < (1 - u) ^ 3 := by positivity
  have hg : 0 < g := lt_of_lt_of_le h3 hg0
  have h4 : 0 ≤ p := le_trans (by positivity) hp0
  rw [abs_le]
  unfold smithConst
  constructor
  · have a1 : (1 - u) ^ 4 / (1 + u) ^ 3 ≤ p / g := div_le_div₀ h4 hp0 hg hg1
    have a2 : 2 ≤ (1 - u) ^ 4 / (1 + u) ^ 3 + (1 + u) ^ 4 / (1 - u) ^ 3 := by
      rw [div_add_div _ _ (by positivity) h3.ne', le_div_iff₀ (by positivity)]
      have e : (1 - u) ^ 4 * (1 - u) ^ 3 + (1 + u) ^ 3 * (1 + u) ^ 4 - 2 * ((1 + u) ^ 3 * (1 - u) ^ 3) =
          48 * u ^ 2 + 64 * u ^ 4 + 16 * u ^ 6 := by ring
      have : 0 ≤ 48 * u ^ 2 + 64 * u ^ 4 + 16 * u ^ 6 := by positivity
      linarith
    linarith
  · have : p / g ≤ (1 + u) ^ 4 / (1 - u) ^ 3 := div_le_div₀ (by positivity) hp1 h3 hg0
    linarith

/-- One component of a quotient by Smith's method. -/
theorem smith {a b c d u r w1 w p n q : ℚ} (hu0 : 0 ≤ u) (hu1 : u < 1) (hc : c ≠ 0) (hr : |r - d / c| ≤ u * |d / c|)
    (hw1 : |w1 - r * d| ≤ u * |r * d|) (hw : |w - (c + w1)| ≤ u * |c + w1|) (hp : |p - b * r| ≤ u * |b * r|)
    (hn : |n - (a + p)| ≤ u * |a + p|) (hq : |q - n / w| ≤ u * |n / w|) :
    w ≠ 0 ∧ |q - (a + b * (d / c)) / (c + d / c * d)| ≤ smithConst u * ((|a| + |b * (d / c)|) / |c + d / c * d|) := by
  obtain ⟨d1, p1, q1, rfl⟩ := factor hu0 hr
  obtain ⟨d2, p2, q2, rfl⟩ := factor hu0 hw1
  obtain ⟨d3, p3, q3, rfl⟩ := factor hu0 hw
  obtain ⟨d4, p4, q4, rfl⟩ := factor hu0 hp
  obtain ⟨d5, p5, q5, rfl⟩ := factor hu0 hn
  obtain ⟨d6, p6, q6, rfl⟩ := factor hu0 hq
  clear hr hw1 hw hp hn hq
  have hv : 0 < 1 - u := by linarith
  have l12 := mul_between hv.le hv.le p1 q1 p2 q2 rfl rfl
  have l14 := mul_between hv.le hv.le p1 q1 p4 q4 rfl rfl
  have l56 := mul_between hv.le hv.le p5 q5 p6 q6 rfl rfl
  have l1456 := mul_between (mul_nonneg hv.le hv.le) (mul_nonneg hv.le hv.le) l14.1 l14.2 l56.1 l56.2 rfl rfl
  have ht : 0 ≤ (d / c) ^ 2 := by positivity
  have hW : c + d / c * d = c * (1 + (d / c) ^ 2) := by field_simp
  have hw : (c + d / c * d1 * d * d2) * d3 = c * (1 + (d / c) ^ 2) * ((1 + (d / c) ^ 2 * (d1 * d2)) / (1 + (d / c) ^ 2) * d3) := by
    field_simp
  generalize ht' : (d / c) ^ 2 = t at *
  have hg : (1 - u) ^ 3 ≤ (1 + t * (d1 * d2)) / (1 + t) * d3 ∧ (1 + t * (d1 * d2)) / (1 + t) * d3 ≤ (1 + u) ^ 3 := by
    have m0 : (1 - u) * (1 - u) ≤ 1 := by
      have := mul_nonneg hu0 hv.le
      nlinarith
    have m1 : 1 ≤ (1 + u) * (1 + u) := by nlinarith
    refine mul_between (l := (1 - u) ^ 2) (l' := (1 + u) ^ 2) (by positivity) hv.le ?_ ?_ p3 q3 (by ring) (by ring)
    · rw [le_div_iff₀ (by linarith)]
      have := mul_le_mul_of_nonneg_left l12.1 ht
      nlinarith
    · rw [div_le_iff₀ (by linarith)]
      have := mul_le_mul_of_nonneg_left l12.2 ht
      nlinarith
  generalize hg' : (1 + t * (d1 * d2)) / (1 + t) * d3 = g at *
  have h3 : 0 < (1 - u) ^ 3 := by positivity
  have g0 : 0 < g := lt_of_lt_of_le h3 hg.1
  have t0 : 0 < 1 + t := by linarith
  rw [hw, hW]
  refine ⟨mul_ne_zero (mul_ne_zero hc t0.ne') g0.ne', ?_⟩
  have e : (a + b * (d / c * d1) * d4) * d5 / (c * (1 + t) * g) * d6 - (a + b * (d / c)) / (c * (1 + t)) =
      (a * (d5 * d6 / g - 1) + b * (d / c) * (d1 * d4 * (d5 * d6) / g - 1)) / (c * (1 + t)) := by
    field_simp
    ring
  have b1 : |d5 * d6 / g - 1| ≤ smithConst u := by
    refine near_one hu0 hu1 (le_trans ?_ l56.1) (le_trans l56.2 ?_) hg.1 hg.2
    · have : (1 - u) ^ 4 ≤ (1 - u) ^ 2 := pow_le_pow_of_le_one hv.le (by linarith) (by norm_num)
      linarith [show (1 - u) ^ 2 = (1 - u) * (1 - u) by ring]
    · have : (1 + u) ^ 2 ≤ (1 + u) ^ 4 := pow_le_pow_right₀ (by linarith) (by norm_num)
      linarith [show (1 + u) ^ 2 = (1 + u) * (1 + u) by ring]
  have b2 : |d1 * d4 * (d5 * d6) / g - 1| ≤ smithConst u :=
    near_one hu0 hu1 (le_trans (le_of_eq (by ring)) l1456.1) (le_trans l1456.2 (le_of_eq (by ring))) hg.1 hg.2
  have key : |a * (d5 * d6 / g - 1) + b * (d / c) * (d1 * d4 * (d5 * d6) / g - 1)| ≤ smithConst u * (|a| + |b * (d / c)|) := by
    refine le_trans (abs_add_le _ _) ?_
    rw [abs_mul a, abs_mul (b * (d / c)), mul_add, mul_comm (smithConst u), mul_comm (smithConst u)]
    exact add_le_add (mul_le_mul_of_nonneg_left b1 (abs_nonneg _)) (mul_le_mul_of_nonneg_left b2 (abs_nonneg _))
  rw [e, abs_div]
  exact le_trans (div_le_div_of_nonneg_right key (abs_nonneg (c * (1 + t)))) (le_of_eq (mul_div_assoc _ _ _))

/-- The magnitude is zero or between `2 ^ -k` and `2 ^ k`. -/
def InRange (k : Nat) (x : ℚ) : Prop := x = 0 ∨ ((2 : ℚ) ^ (-(k : Int)) ≤ |x| ∧ |x| ≤ 2 ^ (k : Int))

theorem InRange.neg {k : Nat} {x : ℚ} (h : InRange k x) : InRange k (-x) := by
  unfold InRange at *
  simpa using h

/-- Rounding keeps a number above a power of two. -/
theorem rnd_ge {x : ℚ} {e : Int} (he : f.emin ≤ e) (h : (2 : ℚ) ^ e ≤ |x|) : (2 : ℚ) ^ e ≤ |rnd f x| := by
  rcases le_total 0 x with h0 | h0
  · rw [abs_of_nonneg h0] at h
    exact le_trans (le_rnd_of_repr (repr_two_zpow he) h) (le_abs_self _)
  · rw [abs_of_nonpos h0] at h
    have := le_rnd_of_repr (f := f) (repr_two_zpow he) h
    rw [rnd_neg] at this
    exact le_trans this (neg_le_abs _)

theorem mult_of_ge {x : ℚ} (hx : Repr f x) {e : Int} (h : x = 0 ∨ (2 : ℚ) ^ e ≤ |x|) : Mult (e - f.p + 1) x := by
  rcases h with h | h
  · exact ⟨0, by simp [h]⟩
  · exact (mult_repr hx).mono (le_ulpExp (by
      have : e - f.p + 1 + f.p - 1 = e := by ring
      rwa [this]))

theorem ge_of_mult {x : ℚ} {e : Int} (h : Mult e x) (h0 : x ≠ 0) : (2 : ℚ) ^ e ≤ |x| := by
  obtain ⟨m, hm⟩ := h
  have : m ≠ 0 := by
    rintro rfl
    exact h0 (by simp [hm])
  have h1 : (1 : ℚ) ≤ |(m : ℚ)| := by
    rw [← Int.cast_abs]
    exact_mod_cast Int.one_le_abs this
  rw [hm, abs_mul, abs_of_pos (two_zpow_pos e)]
  nlinarith [two_zpow_pos e]

/-- The same for the operations of the format, when nothing underflows. -/
theorem smith_rnd {a b c d : ℚ} {k : Nat} (ha : Repr f a) (hc : Repr f c) (hk : 4 * k + 2 * f.p ≤ -f.emin)
    (ra : InRange k a) (rb : InRange k b) (rc : InRange k c) (rd : InRange k d) (hc0 : c ≠ 0) (hdc : |d| ≤ |c|) :
    rnd f (c + rnd f (rnd f (d / c) * d)) ≠ 0 ∧
    |rnd f (rnd f (a + rnd f (b * rnd f (d / c))) / rnd f (c + rnd f (rnd f (d / c) * d))) - (a + b * (d / c)) / (c + d / c * d)| ≤
      smithConst (unitRoundoff f) * ((|a| + |b * (d / c)|) / |c + d / c * d|) := by
  have hp := f.hp
  have hu0 := (unit_pos f).le
  have hu4 := unit_le_quarter f
  have rc' : (2 : ℚ) ^ (-(k : Int)) ≤ |c| ∧ |c| ≤ 2 ^ (k : Int) := rc.resolve_left hc0
  have cpos : 0 < |c| := abs_pos.2 hc0
  -- the quotient of the components
  have g1 : d / c = 0 ∨ (2 : ℚ) ^ (-(2 * k : Int)) ≤ |d / c| := by
    rcases rd with rd | rd
    · exact .inl (by simp [rd])
    · right
      rw [abs_div, le_div_iff₀ cpos]
      have : (2 : ℚ) ^ (-(2 * k : Int)) * |c| ≤ 2 ^ (-(2 * k : Int)) * 2 ^ (k : Int) :=
        mul_le_mul_of_nonneg_left rc'.2 (two_zpow_pos _).le
      rw [Ieee.zpow_mul, show -(2 * k : Int) + k = -k by ring] at this
      exact le_trans this rd.1
  have r1 := normal_err (f := f) (g1.imp id fun h => le_trans (zpow_le_zpow.2 (by omega)) h)
  have g2 : rnd f (d / c) = 0 ∨ (2 : ℚ) ^ (-(2 * k : Int)) ≤ |rnd f (d / c)| := by
    rcases g1 with h | h
    · exact .inl (by rw [h, rnd_zero])
    · exact .inr (rnd_ge (by omega) h)
  -- products with it
  have g3 : ∀ y, InRange k y → y * rnd f (d / c) = 0 ∨ (2 : ℚ) ^ (-(3 * k : Int)) ≤ |y * rnd f (d / c)| := by
    intro y hy
    rcases g2 with h | h
    · exact .inl (by rw [h, mul_zero])
    rcases hy with hy | hy
    · exact .inl (by rw [hy, zero_mul])
    · right
      rw [abs_mul, show -(3 * k : Int) = -k + -(2 * k) by ring, ← Ieee.zpow_mul]
      exact mul_le_mul hy.1 h (two_zpow_pos _).le (abs_nonneg _)
  have r2 := normal_err (f := f) ((g3 d rd).imp id fun h => le_trans (zpow_le_zpow.2 (by omega)) h)
  have r4 := normal_err (f := f) ((g3 b rb).imp id fun h => le_trans (zpow_le_zpow.2 (by omega)) h)
  rw [mul_comm d] at r2
  have r3 := rnd_add_err (f := f) hc (repr_rnd f (rnd f (d / c) * d))
  have r5 := rnd_add_err (f := f) ha (repr_rnd f (b * rnd f (d / c)))
  -- the numerator
  have g5 : rnd f (a + rnd f (b * rnd f (d / c))) = 0 ∨ (2 : ℚ) ^ (-(3 * k : Int) - f.p + 1) ≤ |rnd f (a + rnd f (b * rnd f (d / c)))| := by
    have m1 : Mult (-(3 * k : Int) - f.p + 1) a := by
      refine (mult_of_ge ha (e := -(k : Int)) (ra.imp id And.left)).mono ?_
      omega
    have m2 : Mult (-(3 * k : Int) - f.p + 1) (rnd f (b * rnd f (d / c))) := by
      refine mult_of_ge (repr_rnd f _) ?_
      rcases g3 b rb with h | h
      · exact .inl (by rw [h, rnd_zero])
      · exact .inr (rnd_ge (by omega) h)
    by_cases h0 : a + rnd f (b * rnd f (d / c)) = 0
    · exact .inl (by rw [h0, rnd_zero])
    · exact .inr (rnd_ge (by omega) (ge_of_mult (m1.add m2) h0))
  -- the denominator
  have hq : |d / c| ≤ 1 := by
    rw [abs_div, div_le_one cpos]
    exact hdc
  have hrq : |rnd f (d / c)| ≤ 5 / 4 := by
    have := abs_le.1 (le_trans r1 (mul_le_mul hu4 hq (abs_nonneg _) (by norm_num)))
    have := abs_le.1 hq
    rw [abs_le]
    constructor <;> linarith
  have hw1 : |rnd f (rnd f (d / c) * d)| ≤ 25 / 16 * |c| := by
    have h1 : |rnd f (d / c) * d| ≤ 5 / 4 * |c| := by
      rw [abs_mul]
      exact mul_le_mul hrq hdc (abs_nonneg _) (by norm_num)
    have h2 := abs_add_le (rnd f (rnd f (d / c) * d) - rnd f (d / c) * d) (rnd f (d / c) * d)
    rw [sub_add_cancel] at h2
    have h3 := mul_le_mul hu4 h1 (abs_nonneg _) (by norm_num)
    linarith
  have hw : |rnd f (c + rnd f (rnd f (d / c) * d))| ≤ 4 * |c| := by
    have h1 := abs_add_le c (rnd f (rnd f (d / c) * d))
    have h2 := abs_add_le (rnd f (c + rnd f (rnd f (d / c) * d)) - (c + rnd f (rnd f (d / c) * d))) (c + rnd f (rnd f (d / c) * d))
    rw [sub_add_cancel] at h2
    have h3 := mul_le_mul hu4 (le_trans h1 (add_le_add_right hw1 |c|)) (abs_nonneg _) (by norm_num)
    linarith
  have g6 : Normal f (rnd f (a + rnd f (b * rnd f (d / c))) / rnd f (c + rnd f (rnd f (d / c) * d))) := by
    by_cases hw0 : rnd f (c + rnd f (rnd f (d / c) * d)) = 0
    · exact .inl (by rw [hw0, div_zero])
    rcases g5 with h | h
    · exact .inl (by rw [h, zero_div])
    · right
      rw [abs_div, le_div_iff₀ (abs_pos.2 hw0)]
      have h1 : |rnd f (c + rnd f (rnd f (d / c) * d))| ≤ 2 ^ (k + 2 : Int) := by
        rw [← Ieee.zpow_mul, show (2 : ℚ) ^ (2 : Int) = 4 by norm_num]
        linarith [rc'.2]
      have h2 : (2 : ℚ) ^ (f.emin + f.p - 1) * |rnd f (c + rnd f (rnd f (d / c) * d))| ≤ 2 ^ (f.emin + f.p - 1) * 2 ^ (k + 2 : Int) :=
        mul_le_mul_of_nonneg_left h1 (two_zpow_pos _).le
      rw [Ieee.zpow_mul] at h2
      exact le_trans h2 (le_trans (zpow_le_zpow.2 (by omega)) h)
  exact smith hu0 (by linarith) hc0 r1 r2 r3 r4 r5 (normal_err g6)

end Verif.Cx
