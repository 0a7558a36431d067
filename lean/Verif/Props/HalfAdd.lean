import Mathlib.Tactic.NormNum
import Verif.Lemmas.HalfSumTop
import Verif.Props.Half

/-!
# C50, C63: sums of halves and increments

`math/half.hpp`: `halfAdd` 232-353, `halfSub` 474-476, `operator+=` and `operator-=` 579-587, `++` and `--` 599-619. `Wide` says
what the processor does when a shift count reaches the width of the type (undefined in C++, `none`).
-/

namespace Verif.HalfM

open HalfS

/-! ## C63: the sum of two halves -/

/-- What `r` has to be, by IEEE 754 (up to the choice among two equally near halves and among NaNs). -/
def SumIs (r : Nat) (a b : FV) : Prop :=
  match a, b with
  | .nan, _ => halfVal r = .nan
  | _, .nan => halfVal r = .nan
  | .inf s, .inf t => halfVal r = if s = t then .inf s else .nan
  | .inf s, .fin _ _ => halfVal r = .inf s
  | .fin _ _, .inf s => halfVal r = .inf s
  | .fin s p, .fin t q => NearestHalf r ((if s then -p else p) + (if t then -q else q))

/-- The whole property. -/
def C63Claim (W : Wide) : Prop :=
  ∀ x < 2 ^ 16, ∀ y < 2 ^ 16, ∃ r < 2 ^ 16, halfAdd W x y = .ok r ∧ SumIs r (halfVal x) (halfVal y)

theorem exp_eq {s e m : Nat} (hs : s < 2) (he : e < 32) (hm : m < 2 ^ 10) : exp (s * 2 ^ 15 + e * 2 ^ 10 + m) = e :=
  exp_field hs he hm

theorem pack_lt {s e m : Nat} (hs : s < 2) (he : e < 32) (hm : m < 2 ^ 10) : s * 2 ^ 15 + e * 2 ^ 10 + m < 2 ^ 16 := by
  have : s = 0 ∨ s = 1 := by omega
  rcases this with rfl | rfl <;> omega

/-- `halfAdd` works on the operand of larger exponent first. -/
theorem halfAdd_order (W : Wide) {s e m s' e' m' : Nat} (hs : s < 2) (he : e < 32) (hm : m < 2 ^ 10) (hs' : s' < 2)
    (he' : e' < 32) (hm' : m' < 2 ^ 10) :
    halfAdd W (s * 2 ^ 15 + e * 2 ^ 10 + m) (s' * 2 ^ 15 + e' * 2 ^ 10 + m') =
      if e < e' then addCore W (s' * 2 ^ 15 + e' * 2 ^ 10 + m') (s * 2 ^ 15 + e * 2 ^ 10 + m)
      else addCore W (s * 2 ^ 15 + e * 2 ^ 10 + m) (s' * 2 ^ 15 + e' * 2 ^ 10 + m') := by
  rw [halfAdd_core, expBits_eq hs he hm, expBits_eq hs' he' hm', sels16, sels16, Nat.mod_eq_of_lt (pack_lt hs he hm),
    Nat.mod_eq_of_lt (pack_lt hs' he' hm')]
  by_cases h : e < e'
  · have hlt : 2 ^ 15 ≤ sub16 (e * 2 ^ 10) (e' * 2 ^ 10) := by unfold sub16; omega
    rw [if_pos hlt, if_pos hlt, if_pos h]
  · have hlt : ¬ 2 ^ 15 ≤ sub16 (e * 2 ^ 10) (e' * 2 ^ 10) := by unfold sub16; omega
    rw [if_neg hlt, if_neg hlt, if_neg h]

/-- **C63 (where the sum is undefined).** Exactly when both operands are zero or subnormal: a shift count is then 65535. -/
theorem C63_undefined_iff (x y : Nat) (hx : x < 2 ^ 16) (hy : y < 2 ^ 16) :
    halfAdd none x y = .ub ↔ exp x = 0 ∧ exp y = 0 := by
  obtain ⟨s, e, m, hs, he, hm, rfl⟩ := half_fields x hx
  obtain ⟨s', e', m', hs', he', hm', rfl⟩ := half_fields y hy
  clear hx hy
  rw [exp_eq hs he hm, exp_eq hs' he' hm', halfAdd_order none hs he hm hs' he' hm']
  constructor
  · intro h
    by_contra hc
    split at h
    · by_cases h31 : e' = 31
      · subst h31
        rw [addCore_top hs' hm' hs he hm none _ _ rfl rfl] at h
        cases h
      · obtain ⟨r, hr, -⟩ := addCore_eq (W := none) (e := e') (e' := e) hs' (by omega) hm' hs (by omega) hm (Or.inr (by omega)) _ _ rfl rfl
        rw [hr] at h
        cases h
    · by_cases h31 : e = 31
      · subst h31
        rw [addCore_top hs hm hs' he' hm' none _ _ rfl rfl] at h
        cases h
      · obtain ⟨r, hr, -⟩ := addCore_eq (W := none) (e := e) (e' := e') hs (by omega) hm hs' (by omega) hm' (Or.inr (by omega)) _ _ rfl rfl
        rw [hr] at h
        cases h
  · rintro ⟨rfl, rfl⟩
    rw [if_neg (by omega)]
    exact core_undefined hs hm hs' hm'

/-- **C63 (finite sums).** The sum of two finite halves whose exact sum is below the overflow threshold is a half nearest to it,
whenever it is defined. -/
theorem C63_nearest_partial (W : Wide) (x y : Nat) (hx : x < 2 ^ 16) (hy : y < 2 ^ 16) (vx vy : ℚ)
    (hvx : (halfVal x).toRat? = some vx) (hvy : (halfVal y).toRat? = some vy) (hq : |vx + vy| < 65520)
    (hW : W ≠ none ∨ exp x ≠ 0 ∨ exp y ≠ 0) :
    ∃ r, halfAdd W x y = .ok r ∧ r < 2 ^ 16 ∧ NearestHalf r (vx + vy) :=
  halfAdd_nearest W x y hx hy vx vy hvx hvy hq hW

theorem val_one : (halfVal 0x3c00).toRat? = some 1 := by
  have := toRat_norm 0 15 0 (by norm_num) (by norm_num) (by norm_num) (by norm_num)
  norm_num [signed] at this
  exact this

theorem val_eps : (halfVal 0x1001).toRat? = some (1025 / 2 ^ 21) := by
  have := toRat_norm 0 4 1 (by norm_num) (by norm_num) (by norm_num) (by norm_num)
  norm_num [signed] at this ⊢
  exact this

/-- The hypotheses are met by `1 + 1025/2^21`, a little over half a unit in the last place: the sum is rounded up. -/
example : halfAdd none 0x3c00 0x1001 = .ok 0x3c01 ∧
    ∃ r, halfAdd none 0x3c00 0x1001 = .ok r ∧ r < 2 ^ 16 ∧ NearestHalf r (1 + 1025 / 2 ^ 21) :=
  ⟨by decide +kernel, C63_nearest_partial none _ _ (by norm_num) (by norm_num) 1 (1025 / 2 ^ 21) val_one val_eps
    (by norm_num [abs_of_pos]) (Or.inr (Or.inl (by decide)))⟩

/-- Such a sum is exact whenever the exact sum is a half. -/
theorem nearest_exact {r h : Nat} {q : ℚ} (hh : h < 2 ^ 16) (hq : |q| < 65520) (hr : NearestHalf r q)
    (hv : (halfVal h).toRat? = some q) : (halfVal r).toRat? = some q := by
  unfold NearestHalf at hr
  rw [if_neg (not_le.2 hq)] at hr
  obtain ⟨v, hv1, hv2⟩ := hr
  have := hv2 h hh q hv
  rw [sub_self, abs_zero] at this
  have : v = q := by
    have h0 := abs_nonneg (v - q)
    have : |v - q| = 0 := le_antisymm this h0
    exact sub_eq_zero.1 (abs_eq_zero.1 this)
  rw [hv1, this]

/-- **C63 (overflowing sums).** From 65520 on, where the infinity is due, it is returned only below 65568; from there on the result
is a NaN. -/
theorem C63_overflow (W : Wide) (x y : Nat) (hx : x < 2 ^ 16) (hy : y < 2 ^ 16) (vx vy : ℚ)
    (hvx : (halfVal x).toRat? = some vx) (hvy : (halfVal y).toRat? = some vy) (hq : 65520 ≤ |vx + vy|) :
    ∃ r, halfAdd W x y = .ok r ∧ r < 2 ^ 16 ∧
      halfVal r = if |vx + vy| < 65568 then .inf (decide (vx + vy < 0)) else .nan := by
  obtain ⟨s, e, m, hs, he, hm, rfl⟩ := half_fields x hx
  obtain ⟨s', e', m', hs', he', hm', rfl⟩ := half_fields y hy
  obtain ⟨h31, rfl⟩ := toRat_fields hs he hm hvx
  obtain ⟨h31', rfl⟩ := toRat_fields hs' he' hm' hvy
  clear hx hy hvx hvy
  have sgn : s = s' → decide (s = 1) = decide (signed s (mag e m) + signed s' (mag e' m') < 0) := by
    rintro rfl
    have h1 := mag_nonneg e m
    have h2 := mag_nonneg e' m'
    have S : s = 0 ∨ s = 1 := by omega
    rcases S with rfl | rfl
    · simp only [signed, zero_ne_one, if_false, decide_false]
      symm; rw [decide_eq_false_iff_not]; linarith
    · simp only [signed, if_true, decide_true]
      symm; rw [decide_eq_true_iff]
      have : mag e m + mag e' m' ≠ 0 := by
        intro h0
        rw [show signed 1 (mag e m) + signed 1 (mag e' m') = -(mag e m + mag e' m') by simp [signed]; ring, h0] at hq
        norm_num at hq
      have h3 : 0 < mag e m + mag e' m' := lt_of_le_of_ne (by linarith) (Ne.symm this)
      linarith
  rw [halfAdd_order W hs he hm hs' he' hm']
  by_cases h : e < e'
  · rw [if_pos h]
    rw [add_comm (signed s _)] at hq sgn ⊢
    obtain ⟨hss, r, a, b, c⟩ := core_overflow hs' h31' hm' hs (by omega) hm W hq
    refine ⟨r, a, b, ?_⟩
    rw [c, ← sgn hss.symm, hss]
  · rw [if_neg h]
    obtain ⟨hss, r, a, b, c⟩ := core_overflow hs h31 hm hs' (by omega) hm' W hq
    refine ⟨r, a, b, ?_⟩
    rw [c, ← sgn hss]

/-- Both cases occur: `65504 + 16` is 65520 and gives the infinity, `65504 + 64` is 65568 and gives a NaN. -/
example : halfAdd none 0x7bff 0x4c00 = .ok 0x7c00 ∧ halfAdd none 0x7bff 0x5400 = .ok 0x7c01 := by decide +kernel

/-- **C63 (infinities and NaNs).** With one operand finite the result is the infinity of the sign of the other, also when that is
a NaN. With none finite it is a NaN exactly when the second operand is negative; otherwise the sign of the first decides: a positive
first operand gives infinity, a negative one minus infinity, or zero when the fraction bits agree. -/
theorem C63_nonfinite (W : Wide) (x y : Nat) (hx : x < 2 ^ 16) (hy : y < 2 ^ 16) :
    (exp x = 31 → exp y ≠ 31 → halfAdd W x y = .ok (x / 2 ^ 15 * 2 ^ 15 + 0x7c00)) ∧
    (exp x ≠ 31 → exp y = 31 → halfAdd W x y = .ok (y / 2 ^ 15 * 2 ^ 15 + 0x7c00)) ∧
    (exp x = 31 → exp y = 31 → halfAdd W x y = .ok
      (if y / 2 ^ 15 = 1 then 0xfe00 else if x / 2 ^ 15 = 0 then 0x7c00 else if frac x = frac y then 0 else 0xfc00)) := by
  obtain ⟨s, e, m, hs, he, hm, rfl⟩ := half_fields x hx
  obtain ⟨s', e', m', hs', he', hm', rfl⟩ := half_fields y hy
  clear hx hy
  have top : ∀ {s e m : Nat}, s < 2 → e < 32 → m < 2 ^ 10 → (s * 2 ^ 15 + e * 2 ^ 10 + m) / 2 ^ 15 = s := by
    intro s e m h1 h2 h3
    have : s = 0 ∨ s = 1 := by omega
    rcases this with rfl | rfl <;> omega
  have fr : ∀ {s e m : Nat}, s < 2 → e < 32 → m < 2 ^ 10 → frac (s * 2 ^ 15 + e * 2 ^ 10 + m) = m := by
    intro s e m h1 h2 h3
    unfold frac
    have : s = 0 ∨ s = 1 := by omega
    rcases this with rfl | rfl <;> omega
  rw [exp_eq hs he hm, exp_eq hs' he' hm', halfAdd_order W hs he hm hs' he' hm', top hs he hm, top hs' he' hm',
    fr hs he hm, fr hs' he' hm']
  have small : ∀ {m e' m' : Nat}, m < 2 ^ 10 → e' < 31 → m' < 2 ^ 10 →
      8 * sig 31 m ≠ jam (8 * sig e' m') (31 - max e' 1) := by
    intro m e' m' h1 h2 h3 hc
    have hb := sig_lt (e := e') h3
    have ha := sig_ge (m := m) (e := 31) (by norm_num)
    have : jam (8 * sig e' m') (31 - max e' 1) ≤ 2 * (2 * 2047) := by
      rw [jam_le]
      have : 2 ^ 1 ≤ 2 ^ (31 - max e' 1) := Nat.pow_le_pow_right (by norm_num) (by omega)
      calc 8 * sig e' m' ≤ 2 * (2 * 2047) * 2 ^ 1 := by omega
        _ ≤ _ := Nat.mul_le_mul_left _ this
    omega
  refine ⟨?_, ?_, ?_⟩
  · rintro rfl h
    rw [if_neg (by omega), addCore_top hs hm hs' he' hm' W _ _ rfl rfl, if_neg (fun hc => h hc.1),
      if_neg (fun hc => small hm (by omega) hm' hc.2)]
  · rintro h rfl
    rw [if_pos (by omega), addCore_top hs' hm' hs he hm W _ _ rfl rfl, if_neg (fun hc => h hc.1),
      if_neg (fun hc => small hm' (by omega) hm hc.2)]
  · rintro rfl rfl
    rw [if_neg (by omega), addCore_top hs hm hs' he' hm' W _ _ rfl rfl]
    congr 1
    have hj : jam (8 * sig 31 m') (31 - max 31 1) = 8 * sig 31 m' := by
      rw [show 31 - max 31 1 = 0 from rfl, jam_eq]; simp [Nat.mod_one]
    have hsig : (8 * sig 31 m = 8 * sig 31 m') ↔ m = m' := by
      unfold sig; rw [if_neg (by norm_num), if_neg (by norm_num)]; omega
    rw [hj]
    simp only [hsig]
    have S : s = 0 ∨ s = 1 := by omega
    have S' : s' = 0 ∨ s' = 1 := by omega
    rcases S with rfl | rfl <;> rcases S' with rfl | rfl <;> simp

/-- **C63 is false**: sums that should overflow give NaNs, a NaN plus a number is an infinity, minus infinity plus itself is a NaN,
minus infinity plus infinity is zero, and `0 + 0` shifts by more than the width. -/
theorem C63_false (W : Wide) : ¬ C63Claim W ∧
    halfAdd W 0x7bff 0x7bff = .ok 0x7fff ∧ halfAdd W 0x7e00 0x3c00 = .ok 0x7c00 ∧
    halfAdd W 0xfc00 0xfc00 = .ok 0xfe00 ∧ halfAdd W 0xfc00 0x7c00 = .ok 0 ∧ halfAdd none 0 0 = .ub := by
  have h1 := (C63_nonfinite W 0x7e00 0x3c00 (by norm_num) (by norm_num)).1 (by decide) (by decide)
  have h2 := (C63_nonfinite W 0xfc00 0xfc00 (by norm_num) (by norm_num)).2.2 (by decide) (by decide)
  have h3 := (C63_nonfinite W 0xfc00 0x7c00 (by norm_num) (by norm_num)).2.2 (by decide) (by decide)
  refine ⟨fun h => ?_, rfl, h1, h2, h3, (C63_undefined_iff 0 0 (by norm_num) (by norm_num)).2 ⟨by decide, by decide⟩⟩
  obtain ⟨r, -, hr, hs⟩ := h 0x7e00 (by norm_num) 0x3c00 (by norm_num)
  rw [h1] at hr
  have n : halfVal 0x7e00 = .nan := by
    have := halfVal_eq 0 31 512 (by norm_num) (by norm_num) (by norm_num)
    norm_num at this
    exact this
  rw [n] at hs
  have i : halfVal 0x7c00 = .inf false := by
    have := halfVal_eq 0 31 0 (by norm_num) (by norm_num) (by norm_num)
    norm_num at this
    exact this
  have hr' := Out.ok.inj hr
  have : halfVal r = .nan := hs
  rw [← hr', show 0x7e00 / 2 ^ 15 * 2 ^ 15 + 0x7c00 = 0x7c00 by norm_num, i] at this
  cases this

/-! ### Differences -/

theorem halfNeg_pack {s k : Nat} (hs : s < 2) (hk : k < 2 ^ 15) : (s * 2 ^ 15 + k) ^^^ 0x8000 = (1 - s) * 2 ^ 15 + k := by
  rw [← or_add 15 hk, ← or_add 15 hk]
  apply Nat.eq_of_testBit_eq
  intro i
  have hx : 0x8000 = 1 * 2 ^ 15 := by norm_num
  rw [hx, Nat.testBit_xor, Nat.testBit_or, Nat.testBit_or, Nat.testBit_mul_two_pow, Nat.testBit_mul_two_pow,
    Nat.testBit_mul_two_pow]
  have S : s = 0 ∨ s = 1 := by omega
  by_cases hi : i < 15
  · have : ¬ 15 ≤ i := by omega
    simp [this]
  · have hik : k.testBit i = false := Nat.testBit_lt_two_pow (lt_of_lt_of_le hk (Nat.pow_le_pow_right (by norm_num) (by omega)))
    rw [hik]
    rcases S with rfl | rfl <;> simp

theorem halfNeg_eq {s e m : Nat} (hs : s < 2) (he : e < 32) (hm : m < 2 ^ 10) :
    halfNeg (s * 2 ^ 15 + e * 2 ^ 10 + m) = (1 - s) * 2 ^ 15 + e * 2 ^ 10 + m := by
  rw [Nat.add_assoc, Nat.add_assoc]
  exact halfNeg_pack hs (by clear hs; omega)

theorem halfNeg_val (h : Nat) (hh : h < 2 ^ 16) (v : ℚ) (hv : (halfVal h).toRat? = some v) :
    halfNeg h < 2 ^ 16 ∧ (halfVal (halfNeg h)).toRat? = some (-v) ∧ exp (halfNeg h) = exp h := by
  obtain ⟨s, e, m, hs, he, hm, rfl⟩ := half_fields h hh
  clear hh
  obtain ⟨h31, rfl⟩ := toRat_fields hs he hm hv
  have hs1 : 1 - s < 2 := by omega
  rw [halfNeg_eq hs he hm, exp_eq hs he hm, exp_eq hs1 he hm]
  have S : s = 0 ∨ s = 1 := by omega
  refine ⟨?_, ?_, rfl⟩
  · exact pack_lt hs1 he hm
  · have hn : halfVal ((1 - s) * 2 ^ 15 + e * 2 ^ 10 + m) ≠ .nan := by
      rw [halfVal_eq _ e m hs1 he hm, if_neg (by omega)]; split <;> simp
    rcases halfVal_cases (1 - s) e m hs1 he hm hn with ⟨hc, -⟩ | ⟨-, h⟩
    · exact absurd hc (Nat.ne_of_lt h31)
    · rw [h]
      rcases S with rfl | rfl <;> simp [FV.toRat?, signed]

/-- **C63 (differences).** The same for `-`. -/
theorem C63_sub_nearest_partial (W : Wide) (x y : Nat) (hx : x < 2 ^ 16) (hy : y < 2 ^ 16) (vx vy : ℚ)
    (hvx : (halfVal x).toRat? = some vx) (hvy : (halfVal y).toRat? = some vy) (hq : |vx - vy| < 65520)
    (hW : W ≠ none ∨ exp x ≠ 0 ∨ exp y ≠ 0) :
    ∃ r, halfSub W x y = .ok r ∧ r < 2 ^ 16 ∧ NearestHalf r (vx - vy) := by
  obtain ⟨h1, h2, h3⟩ := halfNeg_val y hy vy hvy
  rw [sub_eq_add_neg] at hq ⊢
  exact C63_nearest_partial W x (halfNeg y) hx h1 vx (-vy) hvx h2 hq (by rwa [h3])

/-! ## C50: increments -/

/-- What an increment (`d = 1`) or decrement (`d = -1`) of the value `a` must leave. -/
def StepIs (d : ℚ) (a : FV) (r : Nat) : Prop :=
  match a with
  | .nan => halfVal r = .nan
  | .inf s => halfVal r = .inf s
  | .fin s q => NearestHalf r ((if s then -q else q) + d)

/-- The whole property: the prefix forms return what they leave, the postfix forms what they found. -/
def C50Claim (W : Wide) : Prop :=
  ∀ h < 2 ^ 16,
    (∃ n, preInc W h = .ok (n, n) ∧ postInc W h = .ok (n, h) ∧ StepIs 1 (halfVal h) n) ∧
    (∃ n, preDec W h = .ok (n, n) ∧ postDec W h = .ok (n, h) ∧ StepIs (-1) (halfVal h) n)

/-- **C50 (what the postfix forms do).** They leave the object as it was and return what the prefix form would have left. -/
theorem C50_postfix (W : Wide) (h n : Nat) :
    (preInc W h = .ok (n, n) → postInc W h = .ok (h, n)) ∧ (preDec W h = .ok (n, n) → postDec W h = .ok (h, n)) := by
  unfold preInc postInc preDec postDec
  constructor
  · intro hp
    cases hr : halfAdd W h 0x3c00 with
    | ok r =>
      rw [hr, Out.ok_bind] at hp
      rw [Out.ok_bind]
      rw [(Prod.mk.inj (Out.ok.inj hp)).1]
    | _ => rw [hr] at hp; cases hp
  · intro hp
    cases hr : halfSub W h 0x3c00 with
    | ok r =>
      rw [hr, Out.ok_bind] at hp
      rw [Out.ok_bind]
      rw [(Prod.mk.inj (Out.ok.inj hp)).1]
    | _ => rw [hr] at hp; cases hp

/-- Two finite halves differ from the largest by little: `v ± 1` is never an overflow. -/
theorem step_lt {h : Nat} (hh : h < 2 ^ 16) {v : ℚ} (hv : (halfVal h).toRat? = some v) : |v| ≤ 65504 := by
  obtain ⟨s, e, m, hs, he, hm, rfl⟩ := half_fields h hh
  obtain ⟨h31, rfl⟩ := toRat_fields hs he hm hv
  rw [abs_signed s (mag_nonneg e m), mag_sig]
  have h1 : ((sig e m : ℕ) : ℚ) ≤ 2047 := by
    have := sig_lt (e := e) hm
    exact_mod_cast (by omega : sig e m ≤ 2047)
  have h2 : (2 : ℚ) ^ (((max e 1 : ℕ) : Int) - 25) ≤ 32 := by
    rw [show (32 : ℚ) = 2 ^ (5 : Int) by norm_num]
    apply zpow_le_zpow_right₀ (by norm_num); omega
  calc _ ≤ (2047 : ℚ) * 32 := mul_le_mul h1 h2 (by positivity) (by norm_num)
    _ = 65504 := by norm_num

/-- **C50 (prefix forms).** For every half that is not a NaN they return what they leave, and that is a half nearest to one more (one
less); infinities stay. No shift is too wide. -/
theorem C50_prefix_partial (W : Wide) (h : Nat) (hh : h < 2 ^ 16) (hn : halfVal h ≠ .nan) :
    (∃ n < 2 ^ 16, preInc W h = .ok (n, n) ∧ StepIs 1 (halfVal h) n) ∧
    (∃ n < 2 ^ 16, preDec W h = .ok (n, n) ∧ StepIs (-1) (halfVal h) n) := by
  have hneg : halfNeg 0x3c00 = 0xbc00 := by decide
  have hone : exp 0x3c00 ≠ 0 := by decide
  unfold preInc preDec
  cases hv : halfVal h with
  | nan => exact absurd hv hn
  | inf b =>
    have h31 : exp h = 31 ∧ halfVal (h / 2 ^ 15 * 2 ^ 15 + 0x7c00) = .inf b ∧ h / 2 ^ 15 * 2 ^ 15 + 0x7c00 < 2 ^ 16 := by
      obtain ⟨s, e, m, hs, he, hm, rfl⟩ := half_fields h hh
      rw [exp_eq hs he hm]
      have ht : (s * 2 ^ 15 + e * 2 ^ 10 + m) / 2 ^ 15 = s := by
        clear hh hv hn
        have : s = 0 ∨ s = 1 := by omega
        rcases this with rfl | rfl <;> omega
      rw [ht]
      rcases halfVal_cases s e m hs he hm hn with ⟨h1, h2, h3⟩ | ⟨h1, h2⟩
      · refine ⟨h1, ?_, inf_lt hs⟩
        have := halfVal_eq s 31 0 hs (by norm_num) (by norm_num)
        rw [if_pos rfl, if_pos rfl] at this
        rw [hv] at h3
        rw [h3, ← this, Nat.add_zero, show 31 * 2 ^ 10 = 0x7c00 by norm_num]
      · rw [hv] at h2; cases h2
    have a := (C63_nonfinite W h 0x3c00 hh (by norm_num)).1 h31.1 (by decide)
    have b' := (C63_nonfinite W h 0xbc00 hh (by norm_num)).1 h31.1 (by decide)
    refine ⟨⟨_, h31.2.2, by rw [a, Out.ok_bind], h31.2.1⟩, ⟨_, h31.2.2, ?_, h31.2.1⟩⟩
    unfold halfSub
    rw [hneg, b', Out.ok_bind]
  | fin b q =>
    have hval : (halfVal h).toRat? = some (if b then -q else q) := by rw [hv]; rfl
    have hle := step_lt hh hval
    rw [abs_le] at hle
    obtain ⟨r, hr, hr16, hnr⟩ := C63_nearest_partial W h 0x3c00 hh (by norm_num) _ 1 hval val_one
      (by rw [abs_lt]; constructor <;> linarith) (Or.inr (Or.inr hone))
    obtain ⟨r', hr', hr16', hnr'⟩ := C63_sub_nearest_partial W h 0x3c00 hh (by norm_num) _ 1 hval val_one
      (by rw [abs_lt]; constructor <;> linarith) (Or.inr (Or.inr hone))
    refine ⟨⟨r, hr16, by rw [hr, Out.ok_bind], hnr⟩, ⟨r', hr16', by rw [hr', Out.ok_bind], ?_⟩⟩
    show NearestHalf r' ((if b then -q else q) + -1)
    rw [← sub_eq_add_neg]
    exact hnr'

/-- **C50 is false**: `h++` on 1 leaves 1 and returns 2; `++` turns a NaN into an infinity. -/
theorem C50_false (W : Wide) : ¬ C50Claim W ∧ postInc W 0x3c00 = .ok (0x3c00, 0x4000) ∧ preInc W 0x7e00 = .ok (0x7c00, 0x7c00) := by
  have h1 : preInc W 0x3c00 = .ok (0x4000, 0x4000) := rfl
  have h2 := (C50_postfix W 0x3c00 0x4000).1 h1
  refine ⟨fun h => ?_, h2, ?_⟩
  · obtain ⟨⟨n, -, hp, -⟩, -⟩ := h 0x3c00 (by norm_num)
    rw [h2] at hp
    have := (Prod.mk.inj (Out.ok.inj hp)).2
    norm_num at this
  · unfold preInc
    rw [(C63_false W).2.2.1, Out.ok_bind]

/-- `k` prefix increments. -/
def incs (W : Wide) : Nat → Nat → Out Nat
  | 0, h => .ok h
  | k + 1, h => (preInc W h).bind fun p => incs W k p.1

/-- Every whole number up to 2048 is a half. -/
theorem whole (n : Nat) (hn : n ≤ 2048) : ∃ h < 2 ^ 16, (halfVal h).toRat? = some (n : ℚ) := by
  by_cases h0 : n = 0
  · subst h0
    refine ⟨0, by norm_num, ?_⟩
    have := zero_val 0 (by norm_num)
    simp only [Nat.zero_mul] at this
    rw [this]; simp [FV.toRat?]
  · have hl : Nat.log2 n ≤ 11 := by
      by_contra hc
      have := (Nat.le_log2 h0 (k := 12)).1 (by omega)
      norm_num at this
      omega
    have hlo := Nat.log2_self_le h0
    have hhi := Nat.lt_log2_self (n := n)
    by_cases h11 : Nat.log2 n = 11
    · rw [h11] at hlo
      have : n = 2048 := by omega
      subst this
      refine ⟨0x6800, by norm_num, ?_⟩
      have := toRat_norm 0 26 0 (by norm_num) (by norm_num) (by norm_num) (by norm_num)
      norm_num [signed] at this ⊢
      exact this
    · set l := Nat.log2 n with hldef
      have h2 : 2 ^ l * 2 ^ (10 - l) = 2 ^ 10 := by rw [← pow_add]; congr 1; omega
      have h3 : 2 ^ (l + 1) * 2 ^ (10 - l) = 2 ^ 11 := by rw [← pow_add]; congr 1; omega
      have hp : 0 < 2 ^ (10 - l) := Nat.two_pow_pos _
      have a1 : 2 ^ 10 ≤ n * 2 ^ (10 - l) := by rw [← h2]; exact Nat.mul_le_mul_right _ hlo
      have a2 : n * 2 ^ (10 - l) < 2 ^ 11 := by rw [← h3]; exact Nat.mul_lt_mul_of_pos_right hhi hp
      have := toRat_norm 0 (l + 15) (n * 2 ^ (10 - l) - 2 ^ 10) (by norm_num) (by omega) (by omega) (by omega)
      refine ⟨_, ?_, this.trans ?_⟩
      · clear * - hl a1 a2; omega
      · rw [Nat.add_sub_cancel' a1]
        simp only [signed, zero_ne_one, if_false, Option.some.injEq]
        push_cast
        rw [show ((l : Int) + 15 - 25) = -((10 - l : ℕ) : Int) by push_cast [show l ≤ 10 by omega]; ring, zpow_neg,
          zpow_natCast]
        field_simp

/-- **C50 (counting).** Prefix increments count exactly from any whole number to any other up to 2048. -/
theorem C50_count (W : Wide) (k n h : Nat) (hh : h < 2 ^ 16) (hv : (halfVal h).toRat? = some (n : ℚ)) (hk : n + k ≤ 2048) :
    ∃ r < 2 ^ 16, incs W k h = .ok r ∧ (halfVal r).toRat? = some ((n + k : ℕ) : ℚ) := by
  induction k generalizing n h with
  | zero => exact ⟨h, hh, rfl, hv⟩
  | succ k ih =>
    have hn : halfVal h ≠ .nan := by intro hc; rw [hc] at hv; cases hv
    obtain ⟨⟨r, hr, hp, hst⟩, -⟩ := C50_prefix_partial W h hh hn
    obtain ⟨g, hg, hgv⟩ := whole (n + 1) (by omega)
    have hnear : NearestHalf r ((n + 1 : ℕ) : ℚ) := by
      cases hc : halfVal h with
      | nan => exact absurd hc hn
      | inf b => rw [hc] at hv; cases hv
      | fin b q =>
        rw [hc] at hst hv
        simp only [FV.toRat?, Option.some.injEq] at hv
        unfold StepIs at hst
        simp only [hv] at hst
        push_cast
        exact hst
    have hlt : |((n + 1 : ℕ) : ℚ)| < 65520 := by
      rw [abs_of_nonneg (by positivity)]
      exact_mod_cast (by omega : n + 1 < 65520)
    have hrv := nearest_exact hg hlt hnear hgv
    obtain ⟨t, ht, hi, htv⟩ := ih (n + 1) r hr hrv (by omega)
    refine ⟨t, ht, ?_, ?_⟩
    · show (preInc W h).bind _ = _
      rw [hp]
      exact hi
    · rw [htv]; congr 2; omega

/-- The hypotheses are met by zero and 2048 steps. -/
example (W : Wide) : ∃ r < 2 ^ 16, incs W 2048 0 = .ok r ∧ (halfVal r).toRat? = some ((0 + 2048 : ℕ) : ℚ) :=
  C50_count W 2048 0 0 (by norm_num) (by
    have := zero_val 0 (by norm_num)
    simp only [Nat.zero_mul] at this
    rw [this]; simp [FV.toRat?]) (by norm_num)

end Verif.HalfM
