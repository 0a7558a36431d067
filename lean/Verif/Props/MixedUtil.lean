import Verif.Model.MixedUtil
import Verif.Props.LerpFl
import Verif.Props.MinMax

/-!
# C163: `clamp`, `lerp` and `smoothStep` with arguments of several types
-/

namespace Verif.Num

open Verif.Ieee

/-- C163, partial: `clamp` of numbers of one group, with limits that the type of the first argument can hold, gives the nearest number of the
interval, unchanged.
Missing: limits that the type cannot hold (`C163_clamp_narrow`), signed with unsigned arguments (`C163_clamp_sign`), integers with
floating-point numbers (`C163_clamp_float`). -/
theorem C163_clamp_partial (asserts : Bool) (g : Group) {x l u : Ty × Val} (hx : Good g x) (hl : Good g l) (hu : Good g u)
    (hl' : Good g (x.1, l.2)) (hu' : Good g (x.1, u.2)) :
    ∃ a b c, x.2.key = some a ∧ l.2.key = some b ∧ u.2.key = some c ∧
      (b < c → ∃ v, clampT asserts x l u = .ok v ∧ v.key = some (Max.max b (Min.min a c))) := by
  obtain ⟨b, c, kb, kc, h1⟩ := less_good hl hu
  obtain ⟨a, b', ka, kb', h2⟩ := less_good hx hl
  obtain ⟨c', a', kc', ka', h3⟩ := less_good hu hx
  obtain rfl : b = b' := Option.some.inj (kb ▸ kb')
  obtain rfl : c = c' := Option.some.inj (kc ▸ kc')
  obtain rfl : a = a' := Option.some.inj (ka ▸ ka')
  refine ⟨a, b, c, ka, kb, kc, fun hbc => ?_⟩
  have e : clampT asserts x l u = if a < b then cast x.1 l.2 else if c < a then cast x.1 u.2 else .ok x.2 := by
    simp only [clampT, h1, h2, h3, Out.ok_bind, hbc, decide_true, Out.assert_true, decide_eq_true_eq]
  rw [e, cast_self hl', cast_self hu']
  split_ifs with g1 g2
  · exact ⟨_, rfl, by rw [kb, min_eq_left (g1.trans hbc).le, max_eq_left g1.le]⟩
  · exact ⟨_, rfl, by rw [kc, min_eq_right g2.le, max_eq_right hbc.le]⟩
  · exact ⟨_, rfl, by rw [ka, min_eq_left (not_lt.1 g2), max_eq_right (not_lt.1 g1)]⟩

/-- **C163** fails for an `int` between unsigned limits: every negative number is taken to be above the upper limit, so `clamp(-1, 0u, 10u)` is
10. -/
theorem C163_clamp_sign (asserts : Bool) {z l u : Int} (hz : InR true 32 z) (h : z < 0) (hl : 0 ≤ l) (hlu : l < u) (hu : u < 2147483648) :
    clampT asserts (.int true 32, .i z) (.int false 32, .i l) (.int false 32, .i u) = .ok (.i u) := by
  have hz1 : -2147483648 ≤ z := by simpa [lo] using hz.1
  have w0 : wrap false 32 l = l := wrap_eq (by decide) ⟨by simpa [lo] using hl, by simp [hi]; omega⟩
  have w1 : wrap false 32 u = u := wrap_eq (by decide) ⟨by simp [lo]; omega, by simp [hi]; omega⟩
  have w2 : wrap true 32 u = u := wrap_eq (by decide) ⟨by simp [lo]; omega, by simp [hi]; omega⟩
  have wz : wrap false 32 z = z + 4294967296 := by
    unfold wrap
    simp only [Bool.false_eq_true, false_and, if_false]
    omega
  have c1 : common (.int true 32) (.int false 32) = .int false 32 := by decide
  have c2 : common (.int false 32) (.int true 32) = .int false 32 := by decide
  have c3 : common (.int false 32) (.int false 32) = .int false 32 := by decide
  have a1 : ¬z + 4294967296 < l := by omega
  have a2 : u < z + 4294967296 := by omega
  simp [clampT, less, cast, c1, c2, c3, w0, w1, w2, wz, ltVal, a1, a2, hlu]

/-- **C163** fails for limits that the type of the first argument cannot hold: `clamp(int8_t(5), 300, 400)` is 44, below both limits. -/
theorem C163_clamp_narrow (asserts : Bool) :
    clampT asserts (.int true 8, .i 5) (.int true 32, .i 300) (.int true 32, .i 400) = .ok (.i 44) := by
  cases asserts <;> decide +kernel

/-- **C163** fails for an `int` between floating-point limits: `clamp(5, 0.0, 2.5)` is 2, and `clamp(0, 0.5, 2.5)` is 0, which is below the lower
limit. -/
theorem C163_clamp_float (asserts : Bool) :
    clampT asserts (.int true 32, .i 5) (.fp .dbl, .f (.fin false 0)) (.fp .dbl, .f (.fin false (5 / 2))) = .ok (.i 2) ∧
    clampT asserts (.int true 32, .i 0) (.fp .dbl, .f (.fin false (1 / 2))) (.fp .dbl, .f (.fin false (5 / 2))) = .ok (.i 0) := by
  cases asserts <;> decide +kernel

theorem promote_one (sg : Bool) (w : Nat) (hw : 1 ≤ w) : 1 ≤ (promote sg w).2 := by
  unfold promote
  split_ifs <;> simp [hw]

/-- C163, partial: `lerp` of three integers of a signed type is exact when the results of its three operations can be held.
Missing: floating-point limits (`C163_lerp_float`), overflow (`C163_lerp_overflow`). -/
theorem C163_lerp_partial {w : Nat} (hw : 1 ≤ w) {t l u : Int} (hl : InR true w l) (hu : InR true w u)
    (h1 : InR true (promote true w).2 (u - l)) (h2 : InR true (promote true w).2 ((u - l) * t)) (h3 : InR true w (l + (u - l) * t)) :
    lerpI true w t (.i l) (.i u) = .ok (l + t * (u - l)) := by
  have h3' : InR true (promote true w).2 (l + (u - l) * t) := by
    refine inR_mono h3 ?_
    unfold promote
    split_ifs <;> omega
  have hp : (promote true w).1 = true := by
    unfold promote
    split_ifs <;> rfl
  simp only [lerpI, cast, wrap_eq hw hl, wrap_eq hw hu, Out.ok_bind, arith, hp, if_true, h1, h2, h3', Out.pure_eq, wrap_eq hw h3]
  rw [mul_comm t]

theorem wrap_cong {w : Nat} (z : Int) : ∃ k : Int, wrap false w z = z + k * 2 ^ w := by
  refine ⟨-(z / 2 ^ w), ?_⟩
  unfold wrap
  simp only [Bool.false_eq_true, false_and, if_false]
  have := Int.mul_ediv_add_emod z (2 ^ w)
  linarith

/-- C163, partial: `lerp` of three integers of an unsigned type of at least 32 bits never fails, and is exact whenever the result can be held, also
for a descending interval, where the difference wraps around. -/
theorem C163_lerp_unsigned_partial {w : Nat} (hw : 32 ≤ w) {t l u : Int} (hl : InR false w l) (hu : InR false w u) :
    ∃ r, lerpI false w t (.i l) (.i u) = .ok r ∧ (InR false w (l + t * (u - l)) → r = l + t * (u - l)) := by
  have hw1 : 1 ≤ w := by omega
  have hp : promote false w = (false, w) := if_neg (by omega)
  obtain ⟨k1, e1⟩ := wrap_cong (w := w) (u - l)
  obtain ⟨k2, e2⟩ := wrap_cong (w := w) ((u - l + k1 * 2 ^ w) * t)
  obtain ⟨k3, e3⟩ := wrap_cong (w := w) (l + ((u - l + k1 * 2 ^ w) * t + k2 * 2 ^ w))
  refine ⟨wrap false w (l + t * (u - l)), ?_, fun h => wrap_eq hw1 h⟩
  simp only [lerpI, cast, wrap_eq hw1 hl, wrap_eq hw1 hu, Out.ok_bind, arith, hp, Bool.false_eq_true, if_false, Out.pure_eq, e1, e2, e3]
  congr 1
  rw [← wrap_mod false w (l + t * (u - l)) (k1 * t + k2 + k3)]
  congr 1
  ring

/-- **C163** fails for an integer `t` with floating-point limits: they are truncated, so `lerp(1, 0.25, 0.75)` is 0 and `lerp(0, 1.5, 2.5)` is 1. -/
theorem C163_lerp_float :
    lerpI true 32 1 (.f (.fin false (1 / 4))) (.f (.fin false (3 / 4))) = .ok 0 ∧
    lerpI true 32 0 (.f (.fin false (3 / 2))) (.f (.fin false (5 / 2))) = .ok 1 := by
  constructor <;> decide +kernel

/-- **C163** fails by overflow: `lerp(1, -2147483648, 2147483647)` is undefined, and so is the product of two large `uint16_t`, which is computed
in `int`. -/
theorem C163_lerp_overflow :
    lerpI true 32 1 (.i (-2147483648)) (.i 2147483647) = .ub ∧ lerpI false 16 65535 (.i 0) (.i 65535) = .ub := by
  constructor <;> decide +kernel

theorem tdiv_nonpos {a b : Int} (ha : a ≤ 0) (hb : 0 ≤ b) : a.tdiv b ≤ 0 := by
  have := Int.tdiv_nonneg (by omega : 0 ≤ -a) hb
  rw [Int.neg_tdiv] at this
  omega

/-- **C163** fails for `smoothStep` of integers: it is 0 below the upper edge and 1 from there on, nothing between. -/
theorem C163_smooth (asserts : Bool) {t l u : Int} (h : l < u) (h1 : InR true 32 (t - l)) (h2 : InR true 32 (u - l)) :
    smoothI asserts t l u = .ok (if t < u then 0 else 1) := by
  have l32 : ∀ z, InR true 32 z ↔ -2147483648 ≤ z ∧ z ≤ 2147483647 := fun z => by
    unfold InR lo hi
    norm_num
  have hd : u - l ≠ 0 := by omega
  have hq : InR true 32 ((t - l).tdiv (u - l)) := by
    rw [l32] at *
    have := Int.natAbs_tdiv_le_natAbs (t - l) (u - l)
    rcases le_or_gt 0 (t - l) with g | g
    · have := Int.tdiv_nonneg g (by omega : 0 ≤ u - l)
      omega
    · have := tdiv_nonpos g.le (by omega : 0 ≤ u - l)
      omega
  have c1 : common (.int true 32) (.fp .dbl) = .fp .dbl := rfl
  have c2 : common (.fp .dbl) (.int true 32) = .fp .dbl := rfl
  have c3 : common (.fp .dbl) (.fp .dbl) = .fp .dbl := rfl
  have z0 : convFp .dbl (.fin false 0) = .fin false 0 := by decide +kernel
  have z1 : convFp .dbl (.fin false 1) = .fin false 1 := by decide +kernel
  have t0 : truncTo true 32 (.fin false 0) = .ok 0 := by decide +kernel
  have t1 : truncTo true 32 (.fin false 1) = .ok 1 := by decide +kernel
  have a0 : arith (true, 32) 0 = .ok 0 := by decide
  have a1 : arith (true, 32) 1 = .ok 1 := by decide
  have n01 : Fp.lt (.fin false 0) (.fin false 1) = true := by decide +kernel
  generalize hQ : (t - l).tdiv (u - l) = q at *
  have hqa : |q| ≤ 2 ^ 53 := by
    rw [l32] at hq
    rw [abs_le]
    omega
  have sg : Fp.signed (decide (q < 0)) |(q : ℚ)| = q := by
    by_cases g : q < 0
    · have : (q : ℚ) < 0 := by exact_mod_cast g
      rw [decide_eq_true g, abs_of_neg this]
      simp [Fp.signed]
    · have : (0 : ℚ) ≤ q := by exact_mod_cast not_lt.1 g
      rw [decide_eq_false g, abs_of_nonneg this]
      simp [Fp.signed]
  have f1 : Fp.lt (.fin (decide (q < 0)) |(q : ℚ)|) (.fin false 0) = decide (q < 0) := by
    simp only [Fp.lt, Fp.key, sg]
    simp [Fp.signed]
  have f2 : Fp.lt (.fin false 1) (.fin (decide (q < 0)) |(q : ℚ)|) = decide (1 < q) := by
    simp only [Fp.lt, Fp.key, sg]
    simp [Fp.signed]
    norm_cast
  have hc : clampT asserts (.int true 32, .i q) (.fp .dbl, .f (.fin false 0)) (.fp .dbl, .f (.fin false 1)) =
      .ok (.i (if q < 0 then 0 else if 1 < q then 1 else q)) := by
    simp only [clampT, less, cast, c1, c2, c3, z0, z1, ofInt_exact hqa, Out.ok_bind, Out.pure_eq, ltVal, n01, f1, f2, Out.assert_true, t0, t1]
    by_cases g : q < 0
    · simp [g]
    · by_cases g' : 1 < q <;> simp [g, g']
  have hv : (if q < 0 then 0 else if 1 < q then 1 else q) = if t < u then 0 else 1 := by
    subst hQ
    by_cases g : t < u
    · rw [if_pos g]
      rcases le_or_gt 0 (t - l) with k | k
      · rw [Int.tdiv_eq_zero_of_lt k (by omega)]
        rfl
      · have := tdiv_nonpos k.le (by omega : 0 ≤ u - l)
        split_ifs <;> omega
    · rw [if_neg g]
      have : 1 ≤ (t - l).tdiv (u - l) := by
        have := Int.tdiv_le_tdiv (c := u - l) (by omega) (by omega : u - l ≤ t - l)
        rwa [Int.tdiv_self hd] at this
      split_ifs <;> omega
  have ar : ∀ z, InR true 32 z → arith (true, 32) z = .ok z := fun z hz => by
    unfold arith
    rw [if_pos rfl, if_pos hz]
  simp only [smoothI, ar _ h1, ar _ h2, Out.ok_bind, if_neg hd, hQ, ar _ hq, hc, hv]
  split_ifs <;> decide

end Verif.Num

namespace Verif.ScalarM

open Verif.ScalarS Verif.Ieee

variable {fl : ℚ → ℚ} {R : ℚ → Prop} {a b t t' : ℚ}

theorem mixed_step (a b t : ℚ) : lerpMixed fl t a b = step fl t a b := by
  unfold lerpMixed step
  rw [mul_comm]

/-- C163, partial: for a `double` `t` with integers among the limits, which are converted to `double`, the order is kept for all `t`, the lower end
is exact, and between 0 and 1 the result is within a few roundings of the documented one.
Missing: the upper end (`C163_mixed_end`). -/
theorem C163_mixed_partial (ra : Repr binary64 a) (rb : Repr binary64 b) :
    lerpMixed (rnd binary64) 0 a b = a ∧
    (t ≤ t' → (a ≤ b → lerpMixed (rnd binary64) t a b ≤ lerpMixed (rnd binary64) t' a b) ∧
      (b ≤ a → lerpMixed (rnd binary64) t' a b ≤ lerpMixed (rnd binary64) t a b)) ∧
    (0 ≤ t → t ≤ 1 →
      |lerpMixed (rnd binary64) t a b - (a + t * (b - a))| ≤ 6 * unitRoundoff binary64 * (|a| + |b|) + 3 * halfTiny binary64) := by
  have hfl := isRounding_rnd binary64 (by decide)
  simp only [mixed_step]
  exact ⟨step_zero hfl ra, fun h => ⟨fun g => step_mono hfl g h, fun g => step_anti hfl g h⟩,
    fun h0 h1 => step_near (by decide +kernel) ra rb h0 h1⟩

/-- **C163** fails at the upper end: `lerp(1.0, 1152921504606846976, 1)` is 0. -/
theorem C163_mixed_end : lerpMixed (rnd binary64) 1 (2 ^ 60) 1 = 0 := by decide +kernel

end Verif.ScalarM

namespace Verif.Num

open Verif.Ieee

/-- The whole property, for `clamp`: the result is the nearest number of the interval, whatever types the arguments have. -/
def C163Claim : Prop :=
  ∀ (asserts : Bool) (x l u : Ty × Val), Proper x → Proper l → Proper u → ∀ a b c, x.2.key = some a → l.2.key = some b →
    u.2.key = some c → b < c → ∃ v, clampT asserts x l u = .ok v ∧ v.key = some (Max.max b (Min.min a c))

theorem C163_false : ¬C163Claim := by
  intro h
  obtain ⟨v, hv, hk⟩ := h true (.int true 32, .i (-1)) (.int false 32, .i 0) (.int false 32, .i 10) ⟨by simp, by decide⟩ ⟨by simp, by decide⟩
    ⟨by simp, by decide⟩ _ _ _ rfl rfl rfl (by simp)
  rw [C163_clamp_sign true (by decide) (by decide) (by decide) (by decide) (by decide)] at hv
  cases hv
  rw [min_eq_left (WithBot.coe_le_coe.2 (WithTop.coe_le_coe.2 (by norm_num))),
    max_eq_left (WithBot.coe_le_coe.2 (WithTop.coe_le_coe.2 (by norm_num)))] at hk
  simp [Val.key] at hk

/-- The hypotheses are met: arguments of three signed types, a descending unsigned interval, and integers between the edges. -/
example : Good .signed (.int true 16, .i 500) ∧ Good .signed (.int true 32, .i 0) ∧ Good .signed (.int true 64, .i 255) ∧
    Good .signed (.int true 16, .i 255) ∧
    clampT true (.int true 16, .i 500) (.int true 32, .i 0) (.int true 64, .i 255) = .ok (.i 255) ∧
    lerpI false 32 2 (.i 5) (.i 3) = .ok 1 ∧ lerpI true 16 3 (.i 5) (.i 7) = .ok 11 ∧ smoothI true 5 0 10 = .ok 0 := by
  refine ⟨⟨rfl, by decide, by decide⟩, ⟨rfl, by decide, by decide⟩, ⟨rfl, by decide, by decide⟩, ⟨rfl, by decide, by decide⟩, ?_⟩
  refine ⟨?_, ?_, ?_, ?_⟩ <;> decide +kernel

end Verif.Num
