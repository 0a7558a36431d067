import Verif.Model.Constants
import Verif.Lemmas.ErrFree
import Mathlib.Analysis.Real.Pi.Bounds
import Mathlib.Analysis.SpecialFunctions.Log.Deriv
import Mathlib.Analysis.SpecialFunctions.Pow.Real

/-! Rational bounds of real numbers, for the constants of the library. -/

namespace Verif.Constants

open Verif.Ieee

/-- `c` is a double, and no double is nearer to the real number `x`. -/
def Nearest (c : ℚ) (x : ℝ) : Prop :=
  Ieee.Repr binary64 c ∧ ∀ y : ℚ, Ieee.Repr binary64 y → |(c : ℝ) - x| ≤ |(y : ℝ) - x|

/-- `x` lies between two rational numbers. -/
def Btw (lo hi : ℚ) (x : ℝ) : Prop := (lo : ℝ) ≤ x ∧ x ≤ hi

/-- A real number between two rationals that round to one double is nearest to that double. -/
theorem nearest_of_btw {lo hi c : ℚ} {x : ℝ} (h : Btw lo hi x) (h1 : rnd binary64 lo = c) (h2 : rnd binary64 hi = c) :
    Nearest c x := by
  refine ⟨h1 ▸ repr_rnd _ _, fun y hy => ?_⟩
  obtain ⟨ha, hb⟩ := h
  have n1 : |c - lo| ≤ |y - lo| := by rw [← h1]; exact rnd_nearest hy
  have n2 : |c - hi| ≤ |y - hi| := by rw [← h2]; exact rnd_nearest hy
  rcases lt_trichotomy y c with hlt | rfl | hlt
  · have hm : (y + c) / 2 ≤ lo := by
      by_contra hc
      push Not at hc
      have : |y - lo| < |c - lo| := by
        rw [abs_lt]
        have : lo < c := by linarith
        rw [abs_of_pos (by linarith)]
        constructor <;> linarith
      linarith
    have hm' : ((y : ℝ) + c) / 2 ≤ lo := by exact_mod_cast hm
    have hlt' : (y : ℝ) < c := by exact_mod_cast hlt
    rw [abs_le]
    have : |(y : ℝ) - x| = x - y := by rw [abs_of_nonpos (by linarith)]; ring
    rw [this]
    constructor <;> linarith
  · exact le_refl _
  · have hm : hi ≤ (y + c) / 2 := by
      by_contra hc
      push Not at hc
      have : |y - hi| < |c - hi| := by
        rw [abs_lt]
        have : c < hi := by linarith
        rw [abs_of_neg (by linarith)]
        constructor <;> linarith
      linarith
    have hm' : (hi : ℝ) ≤ ((y : ℝ) + c) / 2 := by exact_mod_cast hm
    have hlt' : (c : ℝ) < y := by exact_mod_cast hlt
    rw [abs_le]
    have : |(y : ℝ) - x| = y - x := by rw [abs_of_nonneg (by linarith)]
    rw [this]
    constructor <;> linarith

/-! ### Interval arithmetic -/

variable {a b c d : ℚ} {x y : ℝ}

theorem Btw.widen (h : Btw a b x) (h1 : c ≤ a) (h2 : b ≤ d) : Btw c d x :=
  ⟨le_trans (by exact_mod_cast h1) h.1, le_trans h.2 (by exact_mod_cast h2)⟩

theorem Btw.add (h : Btw a b x) (h' : Btw c d y) : Btw (a + c) (b + d) (x + y) :=
  ⟨by push_cast; exact add_le_add h.1 h'.1, by push_cast; exact add_le_add h.2 h'.2⟩

theorem Btw.sub (h : Btw a b x) (h' : Btw c d y) : Btw (a - d) (b - c) (x - y) :=
  ⟨by push_cast; exact sub_le_sub h.1 h'.2, by push_cast; exact sub_le_sub h.2 h'.1⟩

theorem Btw.mul (h : Btw a b x) (h' : Btw c d y) (ha : 0 ≤ a) (hc : 0 ≤ c) : Btw (a * c) (b * d) (x * y) := by
  have ha' : (0 : ℝ) ≤ a := by exact_mod_cast ha
  have hc' : (0 : ℝ) ≤ c := by exact_mod_cast hc
  exact ⟨by push_cast; exact mul_le_mul h.1 h'.1 hc' (ha'.trans h.1),
    by push_cast; exact mul_le_mul h.2 h'.2 (hc'.trans h'.1) ((ha'.trans h.1).trans h.2)⟩

theorem Btw.rat (q : ℚ) : Btw q q (q : ℝ) := ⟨le_refl _, le_refl _⟩

theorem Btw.inv (h : Btw a b x) (ha : 0 < a) : Btw b⁻¹ a⁻¹ x⁻¹ := by
  have ha' : (0 : ℝ) < a := by exact_mod_cast ha
  have hx := lt_of_lt_of_le ha' h.1
  exact ⟨by push_cast; exact inv_anti₀ hx h.2, by push_cast; exact inv_anti₀ ha' h.1⟩

theorem Btw.div (h : Btw a b x) (h' : Btw c d y) (ha : 0 ≤ a) (hc : 0 < c) (hd : 0 ≤ d) : Btw (a / d) (b / c) (x / y) := by
  simp only [div_eq_mul_inv]
  exact h.mul (h'.inv hc) ha (inv_nonneg.2 hd)

theorem Btw.sqrt (h : Btw a b x) (hc : 0 ≤ c) (hd : 0 ≤ d) (h1 : c ^ 2 ≤ a) (h2 : b ≤ d ^ 2) : Btw c d (Real.sqrt x) := by
  have hc' : (0 : ℝ) ≤ c := by exact_mod_cast hc
  have hd' : (0 : ℝ) ≤ d := by exact_mod_cast hd
  have e1 : (c : ℝ) ^ 2 ≤ a := by exact_mod_cast h1
  have e2 : (b : ℝ) ≤ (d : ℝ) ^ 2 := by exact_mod_cast h2
  exact ⟨Real.le_sqrt_of_sq_le (e1.trans h.1), (Real.sqrt_le_left hd').2 (h.2.trans e2)⟩

theorem Btw.pow (h : Btw a b x) (ha : 0 ≤ a) (n : ℕ) : Btw (a ^ n) (b ^ n) (x ^ n) := by
  have ha' : (0 : ℝ) ≤ a := by exact_mod_cast ha
  exact ⟨by push_cast; exact pow_le_pow_left₀ ha' h.1 n, by push_cast; exact pow_le_pow_left₀ (ha'.trans h.1) h.2 n⟩

/-- Partial sums of the exponential series. -/
def expSum (q : ℚ) : ℕ → ℚ
  | 0 => 0
  | n + 1 => expSum q n + q ^ n / n.factorial

theorem expSum_cast (q : ℚ) (n : ℕ) : ((expSum q n : ℚ) : ℝ) = ∑ m ∈ Finset.range n, (q : ℝ) ^ m / m.factorial := by
  induction n with
  | zero => simp [expSum]
  | succ n ih => rw [Finset.sum_range_succ, ← ih, expSum]; push_cast; rfl

theorem Btw.exp (h : Btw a b x) (ha : 0 ≤ a) (hb : b ≤ 1) (n : ℕ) (hn : 0 < n) :
    Btw (expSum a n) (expSum b n + b ^ n * (n + 1) / (n.factorial * n)) (Real.exp x) := by
  have ha' : (0 : ℝ) ≤ a := by exact_mod_cast ha
  have hb' : (b : ℝ) ≤ 1 := by exact_mod_cast hb
  have hb0 : (0 : ℝ) ≤ b := ha'.trans (h.1.trans h.2)
  constructor
  · rw [expSum_cast]
    exact (Real.sum_le_exp_of_nonneg ha' n).trans (Real.exp_le_exp.2 h.1)
  · refine (Real.exp_le_exp.2 h.2).trans ((Real.exp_bound' hb0 hb' hn).trans ?_)
    push_cast
    rw [expSum_cast]

/-- Partial sums of the series of `-log (1 - q)`. -/
def logSum (q : ℚ) : ℕ → ℚ
  | 0 => 0
  | n + 1 => logSum q n + q ^ (n + 1) / (n + 1)

theorem logSum_cast (q : ℚ) (n : ℕ) : ((logSum q n : ℚ) : ℝ) = ∑ i ∈ Finset.range n, (q : ℝ) ^ (i + 1) / (i + 1) := by
  induction n with
  | zero => simp [logSum]
  | succ n ih => rw [Finset.sum_range_succ, ← ih, logSum]; push_cast; rfl

theorem logSum_bound (q : ℚ) (h0 : 0 ≤ q) (h1 : q < 1) (n : ℕ) :
    Btw (logSum q n - q ^ (n + 1) / (1 - q)) (logSum q n + q ^ (n + 1) / (1 - q)) (-Real.log (1 - q)) := by
  have h0' : (0 : ℝ) ≤ q := by exact_mod_cast h0
  have h1' : (q : ℝ) < 1 := by exact_mod_cast h1
  have := Real.abs_log_sub_add_sum_range_le (x := (q : ℝ)) (by rw [abs_of_nonneg h0']; exact h1') n
  rw [abs_of_nonneg h0', ← logSum_cast] at this
  have h2 := abs_le.1 this
  constructor
  · push_cast; linarith [h2.2]
  · push_cast; linarith [h2.1]

/-- Bounds of `-log (1 - x)`. -/
theorem Btw.logInv (h : Btw a b x) (ha : 0 ≤ a) (hb : b < 1) (n : ℕ) :
    Btw (logSum a n - a ^ (n + 1) / (1 - a)) (logSum b n + b ^ (n + 1) / (1 - b)) (-Real.log (1 - x)) := by
  have hb' : (b : ℝ) < 1 := by exact_mod_cast hb
  have hab : a ≤ b := by exact_mod_cast h.1.trans h.2
  have hxb := h.2
  have hax := h.1
  have h1 := (logSum_bound a ha (lt_of_le_of_lt hab hb) n).1
  have h2 := (logSum_bound b (ha.trans hab) hb n).2
  constructor
  · refine h1.trans ?_
    have := Real.log_le_log (x := 1 - x) (y := 1 - a) (by linarith) (by linarith)
    linarith
  · refine le_trans ?_ h2
    have := Real.log_le_log (x := 1 - (b : ℝ)) (y := 1 - x) (by linarith) (by linarith)
    linarith

end Verif.Constants
