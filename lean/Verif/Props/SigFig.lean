import Verif.Props.Round
import Mathlib.Algebra.Order.Archimedean.Basic

/-!
# C89: rounding to significant figures
-/

namespace Verif.ScalarM

open Verif.ScalarS Verif.Ieee

/-! ## The loops -/

/-- The first loop ends, at most 10, and not below 1 when it has run. -/
theorem down_end {fl : ℚ → ℚ} {P : ℚ → Prop} (h : ∀ t, P t → 10 < t → P (fl (t / 10)) ∧ 1 ≤ fl (t / 10) ∧ fl (t / 10) ≤ t / 2) (k : Nat) :
    ∀ (t : ℚ) (n : Int), P t → t ≤ 10 * 2 ^ k → ∃ t' n', P t' ∧ t' ≤ 10 ∧ (t' = t ∨ 1 ≤ t') ∧
      ∀ fuel, k < fuel → downLoop fl fuel t n = some (t', n') := by
  induction k with
  | zero =>
    intro t n hP ht
    refine ⟨t, n, hP, by linarith, .inl rfl, fun fuel hf => ?_⟩
    obtain ⟨m, rfl⟩ : ∃ m, fuel = m + 1 := ⟨fuel - 1, by omega⟩
    rw [downLoop, if_neg (by linarith)]
  | succ k ih =>
    intro t n hP ht
    by_cases h10 : 10 < t
    · obtain ⟨a, b, c⟩ := h t hP h10
      obtain ⟨t', n', p1, p2, p3, p4⟩ := ih (fl (t / 10)) (n + 1) a (by rw [pow_succ] at ht; linarith)
      refine ⟨t', n', p1, p2, .inr ?_, fun fuel hf => ?_⟩
      · rcases p3 with rfl | p3
        · exact b
        · exact p3
      · obtain ⟨m, rfl⟩ : ∃ m, fuel = m + 1 := ⟨fuel - 1, by omega⟩
        rw [downLoop, if_pos h10, p4 m (by omega)]
    · refine ⟨t, n, hP, by linarith, .inl rfl, fun fuel hf => ?_⟩
      obtain ⟨m, rfl⟩ : ∃ m, fuel = m + 1 := ⟨fuel - 1, by omega⟩
      rw [downLoop, if_neg h10]

/-- The second loop ends between 1 and 10. -/
theorem up_end {fl : ℚ → ℚ} {P : ℚ → Prop} (h : ∀ t, P t → t < 1 → P (fl (t * 10)) ∧ fl (t * 10) ≤ 10 ∧ 2 * t ≤ fl (t * 10)) (k : Nat) :
    ∀ (t : ℚ) (n : Int), P t → t ≤ 10 → 1 ≤ t * 2 ^ k → ∃ t' n', P t' ∧ t' ≤ 10 ∧ 1 ≤ t' ∧
      ∀ fuel, k < fuel → upLoop fl fuel t n = some (t', n') := by
  induction k with
  | zero =>
    intro t n hP h10 ht
    refine ⟨t, n, hP, h10, by linarith, fun fuel hf => ?_⟩
    obtain ⟨m, rfl⟩ : ∃ m, fuel = m + 1 := ⟨fuel - 1, by omega⟩
    rw [upLoop, if_neg (by linarith)]
  | succ k ih =>
    intro t n hP h10 ht
    by_cases h1 : t < 1
    · obtain ⟨a, b, c⟩ := h t hP h1
      obtain ⟨t', n', p1, p2, p3, p4⟩ := ih (fl (t * 10)) (n - 1) a b (by
        have : (0 : ℚ) < 2 ^ k := by positivity
        rw [pow_succ] at ht
        nlinarith)
      refine ⟨t', n', p1, p2, p3, fun fuel hf => ?_⟩
      obtain ⟨m, rfl⟩ : ∃ m, fuel = m + 1 := ⟨fuel - 1, by omega⟩
      rw [upLoop, if_pos h1, p4 m (by omega)]
    · refine ⟨t, n, hP, h10, by linarith, fun fuel hf => ?_⟩
      obtain ⟨m, rfl⟩ : ∃ m, fuel = m + 1 := ⟨fuel - 1, by omega⟩
      rw [upLoop, if_neg h1]

theorem down_value (fuel : Nat) : ∀ (t : ℚ) (n : Int) (t' : ℚ) (n' : Int), downLoop id fuel t n = some (t', n') →
    t' * 10 ^ n' = t * 10 ^ n := by
  induction fuel with
  | zero => intro t n t' n' h; simp [downLoop] at h
  | succ m ih =>
    intro t n t' n' h
    rw [downLoop] at h
    split at h
    · rw [ih _ _ _ _ h, zpow_add_one₀ (by norm_num), id]
      ring
    · cases h; rfl

theorem down_gt (fuel : Nat) : ∀ (t : ℚ) (n : Int) (t' : ℚ) (n' : Int), downLoop id fuel t n = some (t', n') →
    (t' = t ∧ n' = n) ∨ 1 < t' := by
  induction fuel with
  | zero => intro t n t' n' h; simp [downLoop] at h
  | succ m ih =>
    intro t n t' n' h
    rw [downLoop] at h
    split at h
    · rcases ih _ _ _ _ h with ⟨rfl, rfl⟩ | h
      · right; simp only [id]; linarith
      · exact .inr h
    · cases h; exact .inl ⟨rfl, rfl⟩

theorem up_le (fuel : Nat) : ∀ (t : ℚ) (n : Int) (t' : ℚ) (n' : Int), upLoop id fuel t n = some (t', n') →
    n' ≤ n ∧ (1 ≤ t → t' = t) := by
  induction fuel with
  | zero => intro t n t' n' h; simp [upLoop] at h
  | succ m ih =>
    intro t n t' n' h
    rw [upLoop] at h
    split at h
    · have := (ih _ _ _ _ h).1
      exact ⟨by omega, fun _ => by linarith⟩
    · cases h; exact ⟨le_rfl, fun _ => rfl⟩

theorem up_value (fuel : Nat) : ∀ (t : ℚ) (n : Int) (t' : ℚ) (n' : Int), upLoop id fuel t n = some (t', n') →
    t' * 10 ^ n' = t * 10 ^ n := by
  induction fuel with
  | zero => intro t n t' n' h; simp [upLoop] at h
  | succ m ih =>
    intro t n t' n' h
    rw [upLoop] at h
    split at h
    · rw [ih _ _ _ _ h, zpow_sub_one₀ (by norm_num), id]
      ring
    · cases h; rfl

/-- Both loops, in any arithmetic that satisfies the two conditions: they end and leave a number from 1 to 10. -/
theorem loops_end {fl : ℚ → ℚ} {P : ℚ → Prop} (h1 : ∀ t, P t → 10 < t → P (fl (t / 10)) ∧ 1 ≤ fl (t / 10) ∧ fl (t / 10) ≤ t / 2)
    (h2 : ∀ t, P t → t < 1 → P (fl (t * 10)) ∧ fl (t * 10) ≤ 10 ∧ 2 * t ≤ fl (t * 10)) (hP : ∀ t, P t → 0 < t) {x : ℚ} (hx : P |x|)
    {figs : Int} (hf : 0 < figs) (asserts : Bool) :
    ∃ F t n, P t ∧ 1 ≤ t ∧ t ≤ 10 ∧ ∀ fuel, F ≤ fuel → roundSigFig fl asserts fuel x figs = some (sigFinish fl x t n figs) ∧
      ∃ t' n', downLoop fl fuel |x| 0 = some (t', n') ∧ upLoop fl fuel t' n' = some (t, n) := by
  obtain ⟨k, hk⟩ := pow_unbounded_of_one_lt |x| (by norm_num : (1 : ℚ) < 2)
  obtain ⟨t', n', a1, a2, -, a4⟩ := down_end h1 k |x| 0 hx (by linarith [show (0 : ℚ) < 2 ^ k by positivity])
  have hp := hP _ a1
  obtain ⟨l, hl⟩ := pow_unbounded_of_one_lt (1 / t') (by norm_num : (1 : ℚ) < 2)
  rw [div_lt_iff₀ hp] at hl
  obtain ⟨t, n, b1, b2, b3, b4⟩ := up_end h2 l t' n' a1 a2 (by linarith)
  refine ⟨k + l + 1, t, n, b1, b3, b2, fun fuel hfu => ⟨?_, t', n', a4 _ (by omega), b4 _ (by omega)⟩⟩
  have h0 : x ≠ 0 := by
    rintro rfl
    have := hP _ hx
    simp at this
  have ha : Out.assert asserts (decide (0 < figs)) = .ok () := by simp [Out.assert, hf]
  unfold roundSigFig
  rw [ha, abs'_eq, a4 _ (by omega)]
  simp only [if_neg h0, Option.bind_eq_bind, Option.bind_some, b4 fuel (by omega)]
  rfl

/-! ## C89 -/

/-- C89 in full, in exact arithmetic: with `10 ^ E` the leading power of ten of `x`, the result is the nearest number with `figs`
digits from that power on, ties away from zero; zero stays zero. -/
def C89Claim : Prop :=
  ∀ (asserts : Bool) (figs : Int), 0 < figs →
    (∀ fuel, roundSigFig id asserts fuel 0 figs = some (.ok 0)) ∧
    ∀ (x : ℚ) (E : Int), (10 : ℚ) ^ E ≤ |x| → |x| < 10 ^ (E + 1) →
      ∃ F, ∀ fuel, F ≤ fuel → ∃ z, roundSigFig id asserts fuel x figs = some (.ok z) ∧ NearestAway (10 ^ (E - figs + 1)) x z

theorem zero_sig (fl : ℚ → ℚ) (asserts : Bool) (fuel : Nat) {figs : Int} (hf : 0 < figs) :
    roundSigFig fl asserts fuel 0 figs = some (.ok 0) := by
  have ha : Out.assert asserts (decide (0 < figs)) = .ok () := by simp [Out.assert, hf]
  unfold roundSigFig
  rw [ha]
  simp

/-- What the loops leave in exact arithmetic. -/
theorem exact_sig {x : ℚ} (hx : x ≠ 0) {figs : Int} (hf : 0 < figs) (asserts : Bool) :
    ∃ F t n, 1 ≤ t ∧ t ≤ 10 ∧ |x| = t * 10 ^ n ∧ (1 < t ∨ n ≤ 0) ∧ ∀ fuel, F ≤ fuel →
      roundSigFig id asserts fuel x figs = some (sigFinish id x t n figs) := by
  obtain ⟨F, t, n, hp, h1, h2, h⟩ := loops_end (fl := id) (P := fun t => 0 < t) (x := x)
    (fun t ht h10 => ⟨by simp only [id]; linarith, by simp only [id]; linarith, by simp only [id]; linarith⟩)
    (fun t ht h10 => ⟨by simp only [id]; linarith, by simp only [id]; linarith, by simp only [id]; linarith⟩) (fun t ht => ht)
    (abs_pos.2 hx) hf asserts
  obtain ⟨-, t', n', e1, e2⟩ := h F le_rfl
  refine ⟨F, t, n, h1, h2, ?_, ?_, fun fuel hfu => (h fuel hfu).1⟩
  · rw [up_value _ _ _ _ _ e2, down_value _ _ _ _ _ e1, zpow_zero, mul_one]
  · have u := up_le _ _ _ _ _ e2
    rcases down_gt _ _ _ _ _ e1 with ⟨-, rfl⟩ | hg
    · exact .inr u.1
    · rw [u.2 hg.le]; exact .inl hg

theorem nearestAway_scale {u v q z : ℚ} (hv : 0 < v) (h : NearestAway u q z) : NearestAway (u * v) (q * v) (z * v) := by
  obtain ⟨⟨n, hn⟩, hw⟩ := h
  refine ⟨⟨n, by rw [hn]; ring⟩, ?_⟩
  rintro w ⟨k, rfl⟩
  have e1 : |z * v - q * v| = |z - q| * v := by rw [← sub_mul, abs_mul, abs_of_pos hv]
  have e2 : |k * (u * v) - q * v| = |k * u - q| * v := by rw [← mul_assoc, ← sub_mul, abs_mul, abs_of_pos hv]
  have e3 : |k * (u * v)| = |(k : ℚ) * u| * v := by rw [← mul_assoc, abs_mul, abs_of_pos hv]
  have e4 : |z * v| = |z| * v := by rw [abs_mul, abs_of_pos hv]
  rw [e1, e2, e3, e4]
  rcases hw (k * u) ⟨k, rfl⟩ with h | ⟨h, h'⟩
  · exact .inl (by nlinarith)
  · exact .inr ⟨by rw [h], by nlinarith⟩

theorem nearestAway_nonneg {u q z : ℚ} (hq : 0 < q) (h : NearestAway u q z) : 0 ≤ z := by
  by_contra hz
  push Not at hz
  have hm : Mult u (-z) := mult_neg h.1
  have a : |z - q| = q - z := by rw [abs_of_neg (by linarith)]; ring
  have b : |-z - q| < q - z := abs_lt.2 ⟨by linarith, by linarith⟩
  rcases h.2 _ hm with c | ⟨c, -⟩ <;> rw [a] at c <;> linarith

theorem nearestAway_self {u x : ℚ} (h : Mult u x) : NearestAway u x x := by
  refine ⟨h, fun w _ => ?_⟩
  by_cases hw : w = x
  · subst hw; exact .inr ⟨rfl, le_rfl⟩
  · refine .inl ?_
    rw [sub_self, abs_zero]
    exact abs_pos.2 (sub_ne_zero.2 hw)

/-- The sign is put back. -/
theorem nearestAway_sign {u x y : ℚ} (hy : 0 ≤ y) (h : NearestAway u |x| y) : NearestAway u x (copySign y x) := by
  rcases le_or_gt 0 x with hx | hx
  · rw [copySign_of_nonneg hx, abs_of_nonneg hy]
    rwa [abs_of_nonneg hx] at h
  · rw [copySign_of_neg hx, abs_of_nonneg hy]
    rw [abs_of_neg hx] at h
    have := NearestAway.neg h
    rwa [neg_neg] at this

theorem mult_ten {x : ℚ} {a b : Int} (h : a ≤ b) (hx : |x| = 10 ^ b) : Mult (10 ^ a) x := by
  have e : (10 : ℚ) ^ b = (10 ^ (b - a).toNat : Int) * 10 ^ a := by
    push_cast
    rw [← zpow_natCast, ← zpow_add₀ (by norm_num)]
    congr 1
    omega
  rcases le_or_gt 0 x with h0 | h0
  · rw [abs_of_nonneg h0] at hx
    exact ⟨_, hx.trans e⟩
  · rw [abs_of_neg h0] at hx
    have := mult_neg (u := 10 ^ a) ⟨_, hx.trans e⟩
    rwa [neg_neg] at this

theorem ten_lt {a b : Int} (h : (10 : ℚ) ^ a < 10 ^ b) : a < b := (zpow_lt_zpow_iff_right₀ (by norm_num)).1 h

/-- The exponent that the loops find is the leading power of ten, or one below for a power of ten itself. -/
theorem exponent {t X : ℚ} {n E : Int} (h1 : 1 ≤ t) (h2 : t ≤ 10) (he : X = t * 10 ^ n) (hE : (10 : ℚ) ^ E ≤ X) (hE' : X < 10 ^ (E + 1)) :
    n = E ∨ (n = E - 1 ∧ X = 10 ^ E) := by
  have hn := pos10 n
  have a1 : (10 : ℚ) ^ n ≤ X := by rw [he]; nlinarith
  have a2 : X ≤ 10 ^ (n + 1) := by rw [he, zpow_add_one₀ (by norm_num)]; nlinarith
  have b1 := ten_lt (a1.trans_lt hE')
  rcases (hE.trans a2).lt_or_eq with h | h
  · have := ten_lt h
    left; omega
  · have : E = n + 1 := zpow_right_injective₀ (by norm_num) (by norm_num) h
    right
    exact ⟨by omega, le_antisymm (by rw [this]; exact a2) hE⟩

/-- **C89**, partial: in exact arithmetic `roundSigFig` ends and returns the nearest number with `figs` significant figures, ties away
from zero. Missing: eight figures, and magnitudes above `10 ^ 7` up to `10 ^ 8`, where `pow10` is wrong (`C89_wrong`, `C89_figs_wrong`). -/
theorem C89_partial (asserts : Bool) {figs : Int} (hf : 0 < figs) (h8 : figs ≠ 8) {x : ℚ} {E : Int} (hE : (10 : ℚ) ^ E ≤ |x|)
    (hE' : |x| < 10 ^ (E + 1)) (h7 : ¬(10 ^ 7 < |x| ∧ |x| ≤ 10 ^ 8)) :
    ∃ F, ∀ fuel, F ≤ fuel → ∃ z, roundSigFig id asserts fuel x figs = some (.ok z) ∧ NearestAway (10 ^ (E - figs + 1)) x z := by
  have hx : x ≠ 0 := by
    rintro rfl
    rw [abs_zero] at hE
    exact absurd hE (by have := pos10 E; linarith)
  obtain ⟨F, t, n, h1, h2, he, h0, h⟩ := exact_sig hx hf asserts
  have hn := pos10 n
  obtain ⟨w, hw, hN⟩ := C40_math_partial t (figs - 1) (by omega) (by omega)
  -- the exponent is not 7 unless the magnitude is the excluded one or a power of ten
  have hcase := exponent h1 h2 he hE hE'
  have hw0 : 0 ≤ w := nearestAway_nonneg (by linarith) hN
  by_cases hn7 : n = 7
  · -- then |x| = 10 ^ 7 exactly
    subst hn7
    have e7 : (10 : ℚ) ^ (7 : Int) = 10 ^ 7 := by norm_cast
    rw [e7] at he
    have h0 : 1 < t := h0.resolve_right (by norm_num)
    exact absurd ⟨by rw [he]; linarith, by rw [he]; linarith⟩ h7
  · refine ⟨F, fun fuel hfu => ⟨copySign (w * 10 ^ n) x, ?_, ?_⟩⟩
    · rw [h fuel hfu, sigFinish, hw]
      simp only [Out.bind, pow10_exact hn7, id]
    · have hs : NearestAway (10 ^ (-(figs - 1)) * 10 ^ n) x (copySign (w * 10 ^ n) x) := by
        refine nearestAway_sign (mul_nonneg hw0 hn.le) ?_
        rw [he]
        exact nearestAway_scale hn hN
      rw [← zpow_add₀ (by norm_num)] at hs
      rcases hcase with rfl | ⟨rfl, hX⟩
      · rwa [show n - figs + 1 = -(figs - 1) + n by ring]
      · -- a power of ten is returned as it is
        have hm : Mult (10 ^ (-(figs - 1) + (E - 1))) x := mult_ten (b := E) (by omega) hX
        have hz : copySign (w * 10 ^ (E - 1)) x = x := by
          rcases hs.2 x hm with q | ⟨q, -⟩
          · rw [sub_self, abs_zero] at q
            exact absurd q (not_lt.2 (abs_nonneg _))
          · rw [sub_self, abs_zero, abs_eq_zero] at q
            exact sub_eq_zero.1 q
        rw [hz]
        exact nearestAway_self (mult_ten (b := E) (by omega) hX)

/-- **C89** What happens above `10 ^ 7` up to `10 ^ 8`: the right result divided by ten. -/
theorem C89_wrong (asserts : Bool) {figs : Int} (hf : 0 < figs) (h8 : figs ≠ 8) {x : ℚ} (h7 : 10 ^ 7 < |x|) (h7' : |x| < 10 ^ 8) :
    ∃ F, ∀ fuel, F ≤ fuel → ∃ z, roundSigFig id asserts fuel x figs = some (.ok (z / 10)) ∧ NearestAway (10 ^ (8 - figs)) x z := by
  have hx : x ≠ 0 := by
    rintro rfl
    rw [abs_zero] at h7
    norm_num at h7
  have e7 : (10 : ℚ) ^ (7 : Int) = 10 ^ 7 := by norm_cast
  obtain ⟨F, t, n, h1, h2, he, h0, h⟩ := exact_sig hx hf asserts
  obtain ⟨w, hw, hN⟩ := C40_math_partial t (figs - 1) (by omega) (by omega)
  have hw0 : 0 ≤ w := nearestAway_nonneg (by linarith) hN
  have hn : n = 7 := by
    rcases exponent (E := 7) h1 h2 he (by rw [e7]; exact h7.le) (by norm_num; linarith) with h | ⟨-, h⟩
    · exact h
    · rw [e7] at h; linarith
  subst hn
  refine ⟨F, fun fuel hfu => ⟨copySign (w * 10 ^ (7 : Int)) x, ?_, ?_⟩⟩
  · rw [h fuel hfu, sigFinish, hw]
    have hp : pow10 id 7 = 1000000 := by decide +kernel
    simp only [Out.bind, hp, id]
    congr 2
    rcases le_or_gt 0 x with hx | hx
    · rw [copySign_of_nonneg hx, copySign_of_nonneg hx, abs_of_nonneg (by positivity), abs_of_nonneg (by positivity), e7]; ring
    · rw [copySign_of_neg hx, copySign_of_neg hx, abs_of_nonneg (by positivity), abs_of_nonneg (by positivity), e7]; ring
  · have hs : NearestAway (10 ^ (-(figs - 1)) * 10 ^ (7 : Int)) x (copySign (w * 10 ^ (7 : Int)) x) := by
      refine nearestAway_sign (by positivity) ?_
      rw [he]
      exact nearestAway_scale (by positivity) hN
    rw [← zpow_add₀ (by norm_num)] at hs
    rwa [show 8 - figs = -(figs - 1) + 7 by ring]

/-- **C89** With eight figures the integers from 1 to 9 come out divided by ten. -/
theorem C89_figs_wrong (asserts : Bool) {k : Int} (h1 : 1 ≤ k) (h9 : k ≤ 9) (fuel : Nat) :
    roundSigFig id asserts (fuel + 1) k 8 = some (.ok (k / 10)) := by
  have h1q : (1 : ℚ) ≤ k := by exact_mod_cast h1
  have h9q : (k : ℚ) ≤ 9 := by exact_mod_cast h9
  have ha : Out.assert asserts (decide ((0 : Int) < 8)) = .ok () := by simp [Out.assert]
  have hp : pow10 id 0 = 1 := rfl
  have hd : downLoop id (fuel + 1) (k : ℚ) 0 = some ((k : ℚ), 0) := by rw [downLoop, if_neg (by linarith)]
  have hu : upLoop id (fuel + 1) (k : ℚ) 0 = some ((k : ℚ), 0) := by rw [upLoop, if_neg (by linarith)]
  unfold roundSigFig
  rw [ha, abs'_eq, abs_of_nonneg (by linarith), hd]
  simp only [if_neg (by linarith : ¬(k : ℚ) = 0), Option.bind_eq_bind, Option.bind_some, hu]
  have := C40_digits_false k
  simp only [sigFinish, show (8 : Int) - 1 = 7 by norm_num, this, Out.bind, hp, id, mul_one]
  rw [copySign_of_nonneg (by linarith), abs_of_nonneg (by positivity)]
  rfl

/-- **C89** fails: 20000000 to three figures is 2000000, in exact arithmetic. -/
theorem C89_false : ¬C89Claim := by
  intro h
  obtain ⟨F, hF⟩ := (h true 3 (by norm_num)).2 20000000 7 (by norm_num) (by norm_num)
  obtain ⟨F', hF'⟩ := C89_wrong true (figs := 3) (by norm_num) (by norm_num) (x := 20000000) (by norm_num) (by norm_num)
  obtain ⟨z, hz, hn⟩ := hF (max F F') (le_max_left _ _)
  obtain ⟨z', hz', hn'⟩ := hF' (max F F') (le_max_right _ _)
  rw [hz] at hz'
  simp only [Option.some.injEq, Out.ok.injEq] at hz'
  have m : Mult ((10 : ℚ) ^ ((8 : Int) - 3)) 20000000 := ⟨200, by norm_num⟩
  have e : z' = 20000000 := by
    rcases hn'.2 _ m with q | ⟨q, -⟩
    · rw [sub_self, abs_zero] at q
      exact absurd q (not_lt.2 (abs_nonneg _))
    · rw [sub_self, abs_zero, abs_eq_zero] at q
      exact sub_eq_zero.1 q
  have e2 : z = 20000000 := by
    rcases hn.2 20000000 ⟨200, by norm_num⟩ with q | ⟨q, -⟩
    · rw [sub_self, abs_zero] at q
      exact absurd q (not_lt.2 (abs_nonneg _))
    · rw [sub_self, abs_zero, abs_eq_zero] at q
      exact sub_eq_zero.1 q
  rw [e, e2] at hz'
  norm_num at hz'

/-- **C89** The same on the machine: `roundSigFig(20000000.0)` is `2000000`. -/
theorem C89_double_false : roundSigFig (rnd binary64) true 20 20000000 3 = some (.ok 2000000) := by decide +kernel

/-- **C89** The arguments that the assertion rejects. -/
theorem C89_assert (fl : ℚ → ℚ) (fuel : Nat) (x : ℚ) {figs : Int} (h : figs ≤ 0) :
    ∃ e, roundSigFig fl true fuel x figs = some (.throw e) := by
  have : Out.assert true (decide (0 < figs)) = .throw .assertion := by simp [Out.assert, h]
  exact ⟨_, by unfold roundSigFig; rw [this]⟩

/-- **C89** Zero stays zero, in any arithmetic. -/
theorem C89_zero (fl : ℚ → ℚ) (asserts : Bool) (fuel : Nat) {figs : Int} (hf : 0 < figs) :
    roundSigFig fl asserts fuel 0 figs = some (.ok 0) := zero_sig fl asserts fuel hf

/-- The loops on the machine. -/
theorem machine_loops (f : Fmt) (he : f.emin ≤ -1) (hp : 4 ≤ f.p) {x : ℚ} (hx : Repr f x) (h0 : x ≠ 0) {figs : Int} (hf : 0 < figs)
    (asserts : Bool) : ∃ F t n, (Repr f t ∧ 0 < t) ∧ 1 ≤ t ∧ t ≤ 10 ∧
      ∀ fuel, F ≤ fuel → roundSigFig (rnd f) asserts fuel x figs = some (sigFinish (rnd f) x t n figs) ∧
      ∃ t' n', downLoop (rnd f) fuel |x| 0 = some (t', n') ∧ upLoop (rnd f) fuel t' n' = some (t, n) := by
  have h10 : Repr f 10 := by
    have := repr_int (f := f) (n := 10) (by omega) (by
      have : (2 : Int) ^ 4 ≤ 2 ^ f.p := pow_le_pow_right₀ (by norm_num) hp
      norm_num at this ⊢
      linarith)
    simpa using this
  have h1 : Repr f 1 := by simpa using repr_two_zpow (f := f) (e := 0) (by omega)
  exact loops_end (fl := rnd f) (P := fun t => Repr f t ∧ 0 < t) (x := x)
    (fun t ht ht10 => by
      have c1 : 1 ≤ rnd f (t / 10) := le_rnd_of_repr h1 (by linarith)
      refine ⟨⟨repr_rnd _ _, by linarith⟩, c1, ?_⟩
      obtain ⟨j, hj1, hj2⟩ := exists_mem_Ico_zpow (y := (2 : ℚ)) ht.2 (by norm_num)
      have hj0 : 0 < j := by
        by_contra hj
        have : (2 : ℚ) ^ (j + 1) ≤ 2 ^ (1 : Int) := (zpow_le_zpow_iff_right₀ (by norm_num)).2 (by omega)
        rw [zpow_one] at this
        linarith
      have e1 : (2 : ℚ) ^ j = 2 * 2 ^ (j - 1) := by
        rw [← zpow_one_add₀ (by norm_num)]; congr 1; ring
      rw [zpow_add_one₀ (by norm_num)] at hj2
      have := rnd_le_of_repr (f := f) (x := t / 10) (repr_two_zpow (e := j - 1) (by omega)) (by linarith)
      linarith)
    (fun t ht ht1 => by
      have c1 : 2 * t ≤ rnd f (t * 10) := le_rnd_of_repr (by
        obtain ⟨m, e, h1, h2, h3⟩ := ht.1
        exact ⟨m, e + 1, by omega, h2, by rw [h3, zpow_add_one₀ (by norm_num)]; ring⟩) (by linarith)
      exact ⟨⟨repr_rnd _ _, by linarith [ht.2]⟩, rnd_le_of_repr h10 (by linarith), c1⟩)
    (fun t ht => ht.2) ⟨by rcases abs_choice x with e | e <;> rw [e]; exacts [hx, repr_neg hx], abs_pos.2 h0⟩ hf asserts

/-- **C89** On the machine the loops end for every finite number other than zero, with a number from 1 to 10, in every binary format
that represents 10. -/
theorem C89_ends (f : Fmt) (he : f.emin ≤ -1) (hp : 4 ≤ f.p) {x : ℚ} (hx : Repr f x) (h0 : x ≠ 0) {figs : Int} (hf : 0 < figs)
    (asserts : Bool) : ∃ F t n, 1 ≤ t ∧ t ≤ 10 ∧
      ∀ fuel, F ≤ fuel → roundSigFig (rnd f) asserts fuel x figs = some (sigFinish (rnd f) x t n figs) := by
  obtain ⟨F, t, n, -, a, b, h⟩ := machine_loops f he hp hx h0 hf asserts
  exact ⟨F, t, n, a, b, fun fuel hfu => (h fuel hfu).1⟩

/-- The hypotheses are met on both sides of 1, by a negative number and by a tie. -/
example : roundSigFig id true 9 (-123456) 3 = some (.ok (-123000)) ∧ roundSigFig id true 9 (1235 / 1000000) 3 = some (.ok (124 / 100000)) ∧
    roundSigFig id true 9 1000 2 = some (.ok 1000) ∧ (10 : ℚ) ^ (-3 : Int) ≤ |1235 / 1000000| ∧
    roundSigFig (rnd binary64) true 9 (-123456) 3 = some (.ok (-123000)) := by
  refine ⟨by decide +kernel, by decide +kernel, by decide +kernel, by norm_num [abs_of_pos], by decide +kernel⟩

end Verif.ScalarM
