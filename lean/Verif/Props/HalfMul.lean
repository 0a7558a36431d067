import Verif.Lemmas.HalfMulNear
import Verif.Props.HalfAdd

/-!
# C104: products of halves

`math/half.hpp`: `halfMul` 355-470, used by `operator*=` 589-592 and `operator*` 656-661. `Wide` says what the processor does when a
shift count reaches 32 (undefined in C++, `none`).
-/

namespace Verif.HalfM

open HalfS

/-- What `r` has to be, by IEEE 754 (up to the choice among two equally near halves and among NaNs). -/
def ProductIs (r : Nat) (a b : FV) : Prop :=
  match a, b with
  | .nan, _ => halfVal r = .nan
  | _, .nan => halfVal r = .nan
  | .inf s, .inf t => halfVal r = .inf (s != t)
  | .inf s, .fin t q => halfVal r = if q = 0 then .nan else .inf (s != t)
  | .fin s q, .inf t => halfVal r = if q = 0 then .nan else .inf (s != t)
  | .fin s p, .fin t q => NearestHalf r ((if s then -p else p) * (if t then -q else q))

/-- The whole property. -/
def C104Claim (W : Wide) : Prop :=
  ∀ x < 2 ^ 16, ∀ y < 2 ^ 16, ∃ r < 2 ^ 16, halfMul W x y = .ok r ∧ ProductIs r (halfVal x) (halfVal y)

/-- **C104 (where the product is undefined).** Exactly when the exponent fields add up to more than 15: a shift count is then 32 or
more. So the product of 1 and 1 is. -/
theorem C104_undefined_iff (x y : Nat) (hx : x < 2 ^ 16) (hy : y < 2 ^ 16) :
    halfMul none x y = .ub ↔ 15 < exp x + exp y := by
  obtain ⟨s, e, m, hs, he, hm, rfl⟩ := half_fields x hx
  obtain ⟨s', e', m', hs', he', hm', rfl⟩ := half_fields y hy
  rw [exp_eq hs he hm, exp_eq hs' he' hm', halfMul_order none hs he hm hs' he' hm']
  have ht : (s + s') % 2 < 2 := Nat.mod_lt _ (by norm_num)
  split
  · rw [mulCore_undefined hs' he' hm' hs he hm ht, Nat.add_comm]
  · exact mulCore_undefined hs he hm hs' he' hm' ht

example : halfMul none 0x3c00 0x3c00 = .ub := (C104_undefined_iff _ _ (by norm_num) (by norm_num)).2 (by decide)

/-- The exact product lies so close below a power of two that it has to be rounded up to it, in the last place of a normal half
or, below the smallest normal half `2^-14`, of a subnormal one. -/
def RoundsUp (q : ℚ) : Prop :=
  (∃ k : Int, -14 < k ∧ (2 : ℚ) ^ k - (2 : ℚ) ^ (k - 12) ≤ |q| ∧ |q| < (2 : ℚ) ^ k) ∨
    ((2 : ℚ) ^ (-14 : Int) - (2 : ℚ) ^ (-25 : Int) ≤ |q| ∧ |q| < (2 : ℚ) ^ (-14 : Int))

theorem frac_bounds {m m' : Nat} (hm : m < 2 ^ 10) (hm' : m' < 2 ^ 10) :
    2 ^ 20 ≤ (2 ^ 10 + m) * (2 ^ 10 + m') ∧ (2 ^ 10 + m) * (2 ^ 10 + m') ≤ 2047 * 2047 :=
  ⟨le_trans (by norm_num) (Nat.mul_le_mul (Nat.le_add_right (2 ^ 10) m) (Nat.le_add_right (2 ^ 10) m')),
    Nat.mul_le_mul (show 2 ^ 10 + m ≤ 2047 by omega) (show 2 ^ 10 + m' ≤ 2047 by omega)⟩

/-- A product of two normal halves, by exponents and significands. -/
theorem product_fields (w : Nat → Nat → Nat) (x y : Nat) (hx : x < 2 ^ 16) (hy : y < 2 ^ 16) (vx vy : ℚ)
    (hvx : (halfVal x).toRat? = some vx) (hvy : (halfVal y).toRat? = some vy) (nx : exp x ≠ 0) (ny : exp y ≠ 0) :
    ∃ t P, t < 2 ∧ 2 ^ 20 ≤ P ∧ P ≤ 2047 * 2047 ∧ exp x < 31 ∧ exp y < 31 ∧
      halfMul (some w) x y = .ok (t * 2 ^ 15 + prodBody (exp x + exp y) P) ∧
      vx * vy = signed t ((P : ℚ) * (2 : ℚ) ^ (((exp x + exp y : ℕ) : Int) - 50)) := by
  obtain ⟨s, e, m, hs, he, hm, rfl⟩ := half_fields x hx
  obtain ⟨s', e', m', hs', he', hm', rfl⟩ := half_fields y hy
  obtain ⟨h31, rfl⟩ := toRat_fields hs he hm hvx
  obtain ⟨h31', rfl⟩ := toRat_fields hs' he' hm' hvy
  rw [exp_eq hs he hm] at nx ⊢
  rw [exp_eq hs' he' hm'] at ny ⊢
  have ht : (s + s') % 2 < 2 := Nat.mod_lt _ (by norm_num)
  obtain ⟨b1, b2⟩ := frac_bounds hm hm'
  refine ⟨(s + s') % 2, (2 ^ 10 + m) * (2 ^ 10 + m'), ht, b1, b2, h31, h31', ?_, ?_⟩
  · rw [halfMul_order (some w) hs he hm hs' he' hm', if_neg nx]
    obtain ⟨d, hd, -, -⟩ := mulCore_some w (as := s * 2 ^ 15) hs he hm hs' he' hm' ht
    rw [hd, prodRes, if_neg (by omega), if_neg (by omega), if_neg (by omega)]
  · rw [signed_mul s s' hs hs', mag_mul nx ny]

theorem scale (P C : Nat) (j : Int) : (2 : ℚ) ^ j * (2 : ℚ) ^ ((C : Int) - 50) = (2 : ℚ) ^ (j + C - 50) := by
  rw [← zpow_add₀ (by norm_num)]; congr 1; ring

theorem roundsUp_of_carry {C P : Nat} (hc : CarryN C P) (t : Nat) :
    RoundsUp (signed t ((P : ℚ) * (2 : ℚ) ^ ((C : Int) - 50))) := by
  unfold RoundsUp
  rw [abs_signed t (by positivity)]
  have hU : (0 : ℚ) < (2 : ℚ) ^ ((C : Int) - 50) := by positivity
  rcases hc with ⟨h1, h2, h3⟩ | ⟨rfl, h2, h3⟩
  · left
    have a : (P : ℚ) < (2 : ℚ) ^ (21 : Int) := by norm_num; exact_mod_cast h2
    have b : (2 : ℚ) ^ (21 : Int) - (2 : ℚ) ^ (9 : Int) ≤ P := by
      have : ((2 ^ 21 - 2 ^ 9 : ℕ) : ℚ) ≤ P := by exact_mod_cast h3
      norm_num at this ⊢; exact this
    refine ⟨21 + (C : Int) - 50, by omega, ?_, ?_⟩
    · have := mul_le_mul_of_nonneg_right b hU.le
      rw [sub_mul, scale P, scale P] at this
      rw [show 21 + (C : Int) - 50 - 12 = 9 + (C : Int) - 50 by ring]
      exact this
    · rw [← scale P]
      exact mul_lt_mul_of_pos_right a hU
  · right
    have a : (P : ℚ) < (2 : ℚ) ^ (21 : Int) := by norm_num; exact_mod_cast h2
    have b : (2 : ℚ) ^ (21 : Int) - (2 : ℚ) ^ (10 : Int) ≤ P := by
      have : ((2 ^ 21 - 2 ^ 10 : ℕ) : ℚ) ≤ P := by exact_mod_cast h3
      norm_num at this ⊢; exact this
    constructor
    · have := mul_le_mul_of_nonneg_right b hU.le
      rw [sub_mul, scale P, scale P] at this
      norm_num at this ⊢
      exact this
    · have := mul_lt_mul_of_pos_right a hU
      rw [scale P] at this
      norm_num at this ⊢
      exact this

/-- **C104 (normal operands).** The product of two normal halves is a half nearest to the exact product, if that is below the
overflow threshold and not in one of the narrow bands below a power of two, and the exponent fields add up to at least 7 (the
magnitude is then at least `2^-23`; or to at most 3, when it is below `2^-25` and the product is 0). -/
theorem C104_nearest_partial (w : Nat → Nat → Nat) (x y : Nat) (hx : x < 2 ^ 16) (hy : y < 2 ^ 16) (vx vy : ℚ)
    (hvx : (halfVal x).toRat? = some vx) (hvy : (halfVal y).toRat? = some vy) (nx : exp x ≠ 0) (ny : exp y ≠ 0)
    (hC : exp x + exp y ≤ 3 ∨ 7 ≤ exp x + exp y) (hq : |vx * vy| < 65520) (hr : ¬ RoundsUp (vx * vy)) :
    ∃ r, halfMul (some w) x y = .ok r ∧ r < 2 ^ 16 ∧ NearestHalf r (vx * vy) := by
  obtain ⟨t, P, ht, b1, b2, -, -, h1, h2⟩ := product_fields w x y hx hy vx vy hvx hvy nx ny
  refine ⟨_, h1, ?_, ?_⟩
  · have := prodBody_lt (exp x + exp y) P; omega
  rw [h2] at hq hr ⊢
  refine prodBody_nearest ht hC b1 b2 (fun hc => hr (roundsUp_of_carry hc t)) ?_
  rwa [abs_signed t (by positivity)] at hq

/-- The narrow band is the only exception: a product in it is half of what it should be, or 0. -/
theorem carry_of_roundsUp {C P : Nat} (h0 : 2 ^ 20 ≤ P) (h1 : P ≤ 2047 * 2047) (t : Nat) (k : Int) (hk : -14 < k)
    (hlo : (2 : ℚ) ^ k - (2 : ℚ) ^ (k - 12) ≤ |signed t ((P : ℚ) * (2 : ℚ) ^ ((C : Int) - 50))|)
    (hhi : |signed t ((P : ℚ) * (2 : ℚ) ^ ((C : Int) - 50))| < (2 : ℚ) ^ k) : CarryN C P ∧ k = (C : Int) - 29 := by
  rw [abs_signed t (by positivity)] at hlo hhi
  have z2 : (2 : ℚ) ≠ 0 := by norm_num
  have hU : (0 : ℚ) < (2 : ℚ) ^ ((C : Int) - 50) := by positivity
  obtain ⟨j, rfl⟩ : ∃ j : Int, k = j + C - 50 := ⟨k - C + 50, by ring⟩
  rw [show j + (C : Int) - 50 - 12 = (j - 12) + C - 50 by ring, ← scale P C j, ← scale P C (j - 12), ← sub_mul] at hlo
  rw [← scale P C j] at hhi
  replace hlo := le_of_mul_le_mul_right hlo hU
  replace hhi := lt_of_mul_lt_mul_right hhi hU.le
  have P0 : (2 : ℚ) ^ (20 : Int) ≤ P := by norm_num; exact_mod_cast h0
  have P1 : (P : ℚ) ≤ 2047 * 2047 := by exact_mod_cast h1
  have j1 : 20 < j := (zpow_lt_zpow_iff_right₀ (by norm_num : (1 : ℚ) < 2)).1 (lt_of_le_of_lt P0 hhi)
  have j2 : j < 22 := by
    by_contra hc
    have e1 : (2 : ℚ) ^ (j - 12) = (2 : ℚ) ^ j * (2 : ℚ) ^ (-12 : Int) := by rw [← zpow_add₀ z2]; rfl
    have e2 : (2 : ℚ) ^ (22 : Int) ≤ (2 : ℚ) ^ j := zpow_le_zpow_right₀ (by norm_num) (by omega)
    rw [e1] at hlo
    norm_num at e2 hlo
    linarith
  have j3 : j = 21 := by omega
  subst j3
  refine ⟨Or.inl ⟨by omega, ?_, ?_⟩, by ring⟩
  · norm_num at hhi ⊢; exact_mod_cast hhi
  · norm_num at hlo ⊢; exact hlo

/-- **C104 (the rounding carries).** The product of two normal halves that ought to be rounded up to the power of two `2^k` is
returned as `2^(k-1)`, half of it. -/
theorem C104_carry (w : Nat → Nat → Nat) (x y : Nat) (hx : x < 2 ^ 16) (hy : y < 2 ^ 16) (vx vy : ℚ)
    (hvx : (halfVal x).toRat? = some vx) (hvy : (halfVal y).toRat? = some vy) (nx : exp x ≠ 0) (ny : exp y ≠ 0) (k : Int)
    (hk : -14 < k) (hk' : k ≤ 16) (hlo : (2 : ℚ) ^ k - (2 : ℚ) ^ (k - 12) ≤ |vx * vy|) (hhi : |vx * vy| < (2 : ℚ) ^ k) :
    ∃ r, halfMul (some w) x y = .ok r ∧
      (halfVal r).toRat? = some (if vx * vy < 0 then -(2 : ℚ) ^ (k - 1) else (2 : ℚ) ^ (k - 1)) := by
  obtain ⟨t, P, ht, b1, b2, -, -, h1, h2⟩ := product_fields w x y hx hy vx vy hvx hvy nx ny
  rw [h2] at hlo hhi ⊢
  obtain ⟨hc, rfl⟩ := carry_of_roundsUp b1 b2 t k hk hlo hhi
  refine ⟨_, h1, ?_⟩
  rw [prodBody_carry (by omega) hc]
  have := toRat_norm t (exp x + exp y - 15) 0 ht (by omega) (by omega) (by norm_num)
  rw [Nat.add_assoc, Nat.add_zero] at this
  rw [this]
  have hpos : (0 : ℚ) < (P : ℚ) * (2 : ℚ) ^ (((exp x + exp y : ℕ) : Int) - 50) := by
    have : 0 < P := by omega
    have : (0 : ℚ) < P := by exact_mod_cast this
    positivity
  have sg := signed_neg t hpos
  have val : (((2 ^ 10 + 0 : ℕ) : ℚ)) * (2 : ℚ) ^ (((exp x + exp y - 15 : ℕ) : Int) - 25) =
      (2 : ℚ) ^ (((exp x + exp y : ℕ) : Int) - 29 - 1) := by
    rw [show (((2 ^ 10 + 0 : ℕ) : ℚ)) = (2 : ℚ) ^ (10 : Int) by norm_num, ← zpow_add₀ (by norm_num)]
    congr 1
    omega
  rw [val]
  by_cases ht1 : t = 1
  · have : signed t ((P : ℚ) * (2 : ℚ) ^ (((exp x + exp y : ℕ) : Int) - 50)) < 0 := by
      rw [decide_eq_decide.1 sg]; exact ht1
    rw [if_pos this, signed, if_pos ht1]
  · have : ¬ signed t ((P : ℚ) * (2 : ℚ) ^ (((exp x + exp y : ℕ) : Int) - 50)) < 0 := by
      rw [decide_eq_decide.1 sg]; exact ht1
    rw [if_neg this, signed, if_neg ht1]

/-- `1.6689… · 1.1982… = 1.9998…` comes out as 1. -/
theorem val_3ead : (halfVal 0x3ead).toRat? = some (1709 / 1024) := by
  have := toRat_norm 0 15 685 (by norm_num) (by norm_num) (by norm_num) (by norm_num)
  norm_num [signed] at this ⊢
  exact this

theorem val_3ccb : (halfVal 0x3ccb).toRat? = some (1227 / 1024) := by
  have := toRat_norm 0 15 203 (by norm_num) (by norm_num) (by norm_num) (by norm_num)
  norm_num [signed] at this ⊢
  exact this

example (w : Nat → Nat → Nat) : ∃ r, halfMul (some w) 0x3ead 0x3ccb = .ok r ∧ (halfVal r).toRat? = some 1 := by
  obtain ⟨r, h1, h2⟩ := C104_carry w 0x3ead 0x3ccb (by norm_num) (by norm_num) _ _ val_3ead val_3ccb (by decide) (by decide) 1
    (by norm_num) (by norm_num) (by norm_num [abs_of_pos]) (by norm_num [abs_of_pos])
  refine ⟨r, h1, ?_⟩
  rw [h2, if_neg (by norm_num)]
  norm_num

/-- The hypotheses of `C104_nearest_partial` are met by the product of `1709/1024` with itself. -/
example (w : Nat → Nat → Nat) : ∃ r, halfMul (some w) 0x3ead 0x3ead = .ok r ∧ r < 2 ^ 16 ∧
    NearestHalf r (1709 / 1024 * (1709 / 1024)) := by
  refine C104_nearest_partial w _ _ (by norm_num) (by norm_num) _ _ val_3ead val_3ead (by decide) (by decide) (Or.inr (by decide))
    (by norm_num [abs_of_pos]) ?_
  rintro (⟨k, -, h1, h2⟩ | ⟨h1, h2⟩)
  · rw [abs_of_pos (by norm_num)] at h1 h2
    by_cases hk : k ≤ 1
    · have : (2 : ℚ) ^ k ≤ (2 : ℚ) ^ (1 : Int) := zpow_le_zpow_right₀ (by norm_num) hk
      norm_num at this h2
      linarith
    · have h4 : (2 : ℚ) ^ (2 : Int) ≤ (2 : ℚ) ^ k := zpow_le_zpow_right₀ (by norm_num) (by omega)
      rw [show k - 12 = k + -12 by ring, zpow_add₀ (by norm_num)] at h1
      norm_num at h4 h1
      linarith
  · rw [abs_of_pos (by norm_num)] at h2
    norm_num at h2

/-- **C104 (the smallest normal half).** A product that ought to be rounded up to `2^-14`, the smallest normal half, is returned as
zero. -/
theorem C104_carry_least (w : Nat → Nat → Nat) (x y : Nat) (hx : x < 2 ^ 16) (hy : y < 2 ^ 16) (vx vy : ℚ)
    (hvx : (halfVal x).toRat? = some vx) (hvy : (halfVal y).toRat? = some vy) (nx : exp x ≠ 0) (ny : exp y ≠ 0)
    (hC : exp x + exp y = 15) (hlo : (2 : ℚ) ^ (-14 : Int) - (2 : ℚ) ^ (-25 : Int) ≤ |vx * vy|)
    (hhi : |vx * vy| < (2 : ℚ) ^ (-14 : Int)) : ∃ r, halfMul (some w) x y = .ok r ∧ (halfVal r).toRat? = some 0 := by
  obtain ⟨t, P, ht, b1, b2, -, -, h1, h2⟩ := product_fields w x y hx hy vx vy hvx hvy nx ny
  rw [hC] at h1 h2
  rw [h2, abs_signed t (by positivity)] at hlo hhi
  have hc : CarryN 15 P := by
    refine Or.inr ⟨rfl, ?_, ?_⟩
    · have : (P : ℚ) < ((2 ^ 21 : ℕ) : ℚ) := by
        by_contra hn
        push Not at hn
        push_cast at hn
        norm_num at hhi hn
        have hn' : (2097152 : ℚ) ≤ P := by exact_mod_cast hn
        linarith
      exact_mod_cast this
    · have : ((2 ^ 21 - 2 ^ 10 : ℕ) : ℚ) ≤ P := by
        norm_num at hlo
        norm_num
        by_contra hn
        push Not at hn
        have : (P : ℚ) ≤ 2096127 := by exact_mod_cast (by omega : P ≤ 2096127)
        linarith
      exact_mod_cast this
  refine ⟨_, h1, ?_⟩
  rw [prodBody_carry (by norm_num) hc]
  have := toRat_sub t 0 ht (by norm_num)
  rw [show t * 2 ^ 15 + (15 - 15) * 2 ^ 10 = t * 2 ^ 15 + 0 by norm_num, this]
  simp [signed]

/-- **C104 (overflow).** From `2^16` on, where the infinity is due, the result is a NaN up to `2^17`, except within `2^5` of these
powers, and the infinity from there on. -/
theorem C104_overflow (w : Nat → Nat → Nat) (x y : Nat) (hx : x < 2 ^ 16) (hy : y < 2 ^ 16) (vx vy : ℚ)
    (hvx : (halfVal x).toRat? = some vx) (hvy : (halfVal y).toRat? = some vy) (nx : exp x ≠ 0) (ny : exp y ≠ 0)
    (hq : 65536 ≤ |vx * vy|) : ∃ r, halfMul (some w) x y = .ok r ∧
      halfVal r = if 65568 ≤ |vx * vy| ∧ |vx * vy| < 131040 then .nan else .inf (decide (vx * vy < 0)) := by
  obtain ⟨t, P, ht, b1, b2, ex, ey, h1, h2⟩ := product_fields w x y hx hy vx vy hvx hvy nx ny
  rw [h2] at hq ⊢
  have hpos : (0 : ℚ) < (P : ℚ) * (2 : ℚ) ^ (((exp x + exp y : ℕ) : Int) - 50) := by
    have : 0 < P := by omega
    have : (0 : ℚ) < P := by exact_mod_cast this
    positivity
  rw [signed_neg t hpos]
  rw [abs_signed t hpos.le] at hq ⊢
  obtain ⟨o1, o2, o3⟩ := prodBody_over (C := exp x + exp y) b1 b2
  refine ⟨_, h1, ?_⟩
  have P0 : (2 : ℚ) ^ 20 ≤ P := by exact_mod_cast b1
  have P1 : (P : ℚ) ≤ 2047 * 2047 := by exact_mod_cast b2
  have hinf : halfVal (t * 2 ^ 15 + 0x7c00) = .inf (decide (t = 1)) := by
    have := halfVal_eq t 31 0 ht (by norm_num) (by norm_num)
    simpa using this
  have hnan : ∀ f, 0 < f → f < 2 ^ 10 → halfVal (t * 2 ^ 15 + (31 * 2 ^ 10 + f)) = .nan := by
    intro f f0 f1
    have := halfVal_eq t 31 f ht (by norm_num) f1
    rw [Nat.add_assoc] at this
    rw [this, if_pos rfl, if_neg (by omega)]
  generalize exp x + exp y = C at *
  by_cases h47 : 47 ≤ C
  · have g : (2 : ℚ) ^ (-3 : Int) ≤ (2 : ℚ) ^ ((C : Int) - 50) := zpow_le_zpow_right₀ (by norm_num) (by omega)
    have := mul_le_mul P0 g (by positivity) (by positivity)
    norm_num at this
    rw [o1 (Or.inl h47), if_neg (by rintro ⟨-, h⟩; linarith), hinf]
  · by_cases h46 : C = 46
    · subst h46
      have ev : (P : ℚ) * (2 : ℚ) ^ (((46 : ℕ) : Int) - 50) = P / 16 := by norm_num; ring
      rw [ev]
      by_cases c1 : 2 ^ 21 - 2 ^ 9 ≤ P
      · have : ((2 ^ 21 - 2 ^ 9 : ℕ) : ℚ) ≤ P := by exact_mod_cast c1
        norm_num at this
        have q : (2096640 : ℚ) ≤ P := by exact_mod_cast this
        rw [o1 (Or.inr ⟨rfl, c1⟩), if_neg (by rintro ⟨-, h⟩; linarith), hinf]
      · by_cases c2 : P < 2 ^ 20 + 2 ^ 9
        · have q : (P : ℚ) < 1049088 := by exact_mod_cast c2
          rw [o2 (Or.inr ⟨rfl, c2⟩), if_neg (by rintro ⟨h, -⟩; linarith), hinf]
        · obtain ⟨f, f0, f1, e⟩ := o3 (Or.inr ⟨rfl, by omega, by omega⟩)
          have q1 : (1049088 : ℚ) ≤ P := by exact_mod_cast (by omega : 1049088 ≤ P)
          have q2 : (P : ℚ) < 2096640 := by exact_mod_cast (by omega : P < 2096640)
          rw [e, if_pos ⟨by linarith, by linarith⟩, hnan f f0 f1]
    · have h45 : C = 45 := by
        by_contra hn
        have g : (2 : ℚ) ^ ((C : Int) - 50) ≤ (2 : ℚ) ^ (-6 : Int) := zpow_le_zpow_right₀ (by norm_num) (by omega)
        have := mul_le_mul P1 g (by positivity) (by norm_num)
        norm_num at this
        linarith
      subst h45
      have ev : (P : ℚ) * (2 : ℚ) ^ (((45 : ℕ) : Int) - 50) = P / 32 := by norm_num; ring
      rw [ev] at hq ⊢
      have c0 : 2 ^ 21 ≤ P := by
        have : ((2097152 : ℕ) : ℚ) ≤ P := by push_cast; linarith
        have := Nat.cast_le.1 this
        omega
      by_cases c2 : P < 2 ^ 21 + 2 ^ 10
      · have q : (P : ℚ) < 2098176 := by exact_mod_cast c2
        rw [o2 (Or.inl ⟨rfl, c0, c2⟩), if_neg (by rintro ⟨h, -⟩; linarith), hinf]
      · obtain ⟨f, f0, f1, e⟩ := o3 (Or.inl ⟨rfl, by omega⟩)
        have q1 : (2098176 : ℚ) ≤ P := by exact_mod_cast (by omega : 2098176 ≤ P)
        rw [e, if_pos ⟨by linarith, by linarith⟩, hnan f f0 f1]

/-- 300 times 300, beyond the largest half, is a NaN and not the infinity. -/
example (w : Nat → Nat → Nat) : ∃ r, halfMul (some w) 0x5cb0 0x5cb0 = .ok r ∧ halfVal r = .nan := by
  have v : (halfVal 0x5cb0).toRat? = some 300 := by
    have := toRat_norm 0 23 176 (by norm_num) (by norm_num) (by norm_num) (by norm_num)
    norm_num [signed] at this ⊢
    exact this
  obtain ⟨r, h1, h2⟩ := C104_overflow w 0x5cb0 0x5cb0 (by norm_num) (by norm_num) _ _ v v (by decide) (by decide)
    (by norm_num [abs_of_pos])
  exact ⟨r, h1, h2.trans (if_pos (by norm_num [abs_of_pos]))⟩

/-! ## Infinities, NaNs, zeros and subnormals -/

/-- The sign bit. -/
def sgnBit (h : Nat) : Bool := decide (h / 2 ^ 15 % 2 = 1)

theorem sgn_field {s e m : Nat} (hs : s < 2) (he : e < 32) (hm : m < 2 ^ 10) :
    sgnBit (s * 2 ^ 15 + e * 2 ^ 10 + m) = decide (s = 1) := by
  unfold sgnBit
  congr 1
  have h : (s * 2 ^ 15 + e * 2 ^ 10 + m) / 2 ^ 15 % 2 = s := by omega
  rw [h]

theorem low15 {s e m : Nat} (hs : s < 2) (he : e < 32) (hm : m < 2 ^ 10) :
    (s * 2 ^ 15 + e * 2 ^ 10 + m) % 2 ^ 15 = e * 2 ^ 10 + m := by
  rcases (by omega : s = 0 ∨ s = 1) with rfl | rfl <;> omega

theorem below_inf {e m : Nat} (he : e < 32) (h31 : e ≠ 31) (hm : m < 2 ^ 10) : e * 2 ^ 10 + m < 0x7c00 := by omega

theorem inf_word {t : Nat} (ht : t < 2) : t * 2 ^ 15 + 0x7c00 < 2 ^ 16 := by omega

theorem sgn_xor {s s' : Nat} (hs : s < 2) (hs' : s' < 2) :
    decide ((s + s') % 2 = 1) = (decide (s = 1) != decide (s' = 1)) := by
  have h1 : s = 0 ∨ s = 1 := by omega
  have h2 : s' = 0 ∨ s' = 1 := by omega
  rcases h1 with rfl | rfl <;> rcases h2 with rfl | rfl <;> rfl

/-- One operand has the greatest exponent field (an infinity or a NaN): the result is the NaN of infinity times zero if the other is a zero, and otherwise the infinity of the product of the signs. -/
theorem product_flagged (w : Nat → Nat → Nat) (x y : Nat) (hx : x < 2 ^ 16) (hy : y < 2 ^ 16) (h : exp x = 31 ∨ exp y = 31) :
    ∃ r, halfMul (some w) x y = .ok r ∧ r < 2 ^ 16 ∧
      halfVal r = if (x % 2 ^ 15 = 0x7c00 ∧ y % 2 ^ 15 = 0) ∨ (x % 2 ^ 15 = 0 ∧ y % 2 ^ 15 = 0x7c00) then .nan
        else .inf (sgnBit x != sgnBit y) := by
  obtain ⟨s, e, m, hs, he, hm, rfl⟩ := half_fields x hx
  obtain ⟨s', e', m', hs', he', hm', rfl⟩ := half_fields y hy
  rw [exp_eq hs he hm, exp_eq hs' he' hm'] at h
  rw [sgn_field hs he hm, sgn_field hs' he' hm', ← sgn_xor hs hs', halfMul_order (some w) hs he hm hs' he' hm']
  have k1 : (s * 2 ^ 15 + e * 2 ^ 10 + m) % 2 ^ 15 = e * 2 ^ 10 + m := low15 hs he hm
  have k2 : (s' * 2 ^ 15 + e' * 2 ^ 10 + m') % 2 ^ 15 = e' * 2 ^ 10 + m' := low15 hs' he' hm'
  rw [k1, k2]
  have ht : (s + s') % 2 < 2 := Nat.mod_lt _ (by norm_num)
  generalize (s + s') % 2 = t at *
  have hinf : halfVal (t * 2 ^ 15 + 0x7c00) = .inf (decide (t = 1)) := by
    have := halfVal_eq t 31 0 ht (by norm_num) (by norm_num)
    simpa using this
  have hnan : halfVal 0xfe00 = .nan := by decide +kernel
  by_cases e0 : e = 0
  · have e31 : e' = 31 := by omega
    rw [if_pos e0]
    obtain ⟨d, hd, -, -⟩ := mulCore_some w (as := s * 2 ^ 15) hs' he' hm' hs he hm ht
    refine ⟨_, hd, ?_⟩
    unfold prodRes
    by_cases c : e' = 31 ∧ m' = 0 ∧ e = 0 ∧ m = 0
    · rw [if_pos c, if_pos (Or.inr ⟨by omega, by omega⟩)]
      exact ⟨by norm_num, hnan⟩
    · rw [if_neg c, if_neg (by omega), if_pos (Or.inl e31), if_neg (by omega)]
      exact ⟨inf_word ht, hinf⟩
  · rw [if_neg e0]
    obtain ⟨d, hd, -, -⟩ := mulCore_some w (as := s * 2 ^ 15) hs he hm hs' he' hm' ht
    refine ⟨_, hd, ?_⟩
    unfold prodRes
    by_cases c : e = 31 ∧ m = 0 ∧ e' = 0 ∧ m' = 0
    · rw [if_pos c, if_pos (Or.inl ⟨by omega, by omega⟩)]
      exact ⟨by norm_num, hnan⟩
    · rw [if_neg c, if_neg (by omega), if_pos (by omega), if_neg (by omega)]
      exact ⟨inf_word ht, hinf⟩

/-- **C104 (NaNs).** A product with a NaN is never a NaN: it is an infinity. -/
theorem C104_nan (w : Nat → Nat → Nat) (x y : Nat) (hx : x < 2 ^ 16) (hy : y < 2 ^ 16)
    (h : halfVal x = .nan ∨ halfVal y = .nan) :
    ∃ r, halfMul (some w) x y = .ok r ∧ halfVal r = .inf (sgnBit x != sgnBit y) := by
  have nan_fields : ∀ z < 2 ^ 16, halfVal z = .nan → exp z = 31 ∧ z % 2 ^ 10 ≠ 0 := by
    intro z hz hn
    obtain ⟨s, e, m, hs, he, hm, rfl⟩ := half_fields z hz
    rw [halfVal_eq s e m hs he hm] at hn
    rw [exp_eq hs he hm]
    by_cases h31 : e = 31
    · rw [if_pos h31] at hn
      by_cases h0 : m = 0
      · rw [if_pos h0] at hn; cases hn
      · exact ⟨h31, by omega⟩
    · rw [if_neg h31] at hn
      by_cases he0 : e = 0
      · rw [if_pos he0] at hn; cases hn
      · rw [if_neg he0] at hn; cases hn
  have hf : exp x = 31 ∨ exp y = 31 := h.imp (fun h => (nan_fields x hx h).1) (fun h => (nan_fields y hy h).1)
  obtain ⟨r, h1, -, h2⟩ := product_flagged w x y hx hy hf
  refine ⟨r, h1, h2.trans (if_neg ?_)⟩
  rcases h with h | h
  · have := nan_fields x hx h; omega
  · have := nan_fields y hy h; omega

example : halfVal 0x7e00 = .nan := by decide +kernel

/-- **C104 (infinities).** Products of an infinity and of a half that is not a NaN are as they should be. -/
theorem C104_inf (w : Nat → Nat → Nat) (x y : Nat) (hx : x < 2 ^ 16) (hy : y < 2 ^ 16) (nx : halfVal x ≠ .nan) (ny : halfVal y ≠ .nan)
    (h : (∃ s, halfVal x = .inf s) ∨ ∃ s, halfVal y = .inf s) :
    ∃ r, halfMul (some w) x y = .ok r ∧ r < 2 ^ 16 ∧ ProductIs r (halfVal x) (halfVal y) := by
  have flds : ∀ z < 2 ^ 16, halfVal z ≠ .nan → (halfVal z = .inf (sgnBit z) ∧ z % 2 ^ 15 = 0x7c00) ∨
      (∃ q, halfVal z = .fin (sgnBit z) q ∧ (q = 0 ↔ z % 2 ^ 15 = 0) ∧ z % 2 ^ 15 < 0x7c00) := by
    intro z hz hn
    obtain ⟨s, e, m, hs, he, hm, rfl⟩ := half_fields z hz
    rw [sgn_field hs he hm]
    have k1 : (s * 2 ^ 15 + e * 2 ^ 10 + m) % 2 ^ 15 = e * 2 ^ 10 + m := low15 hs he hm
    rw [k1]
    rw [halfVal_eq s e m hs he hm] at hn ⊢
    by_cases h31 : e = 31
    · rw [if_pos h31] at hn ⊢
      by_cases h0 : m = 0
      · left; rw [if_pos h0]; exact ⟨rfl, by omega⟩
      · rw [if_neg h0] at hn; exact absurd rfl hn
    · rw [if_neg h31]
      right
      by_cases he0 : e = 0
      · rw [if_pos he0]
        refine ⟨_, rfl, ?_, below_inf he h31 hm⟩
        rw [mul_eq_zero, or_iff_left (by positivity)]
        rw [Nat.cast_eq_zero]; omega
      · rw [if_neg he0]
        refine ⟨_, rfl, ?_, below_inf he h31 hm⟩
        constructor
        · intro h0
          exfalso
          have : (0 : ℚ) < ((2 ^ 10 + m : ℕ) : ℚ) * (2 : ℚ) ^ ((e : Int) - 25) := by positivity
          linarith
        · intro h0; omega
  have hexp : ∀ z < 2 ^ 16, z % 2 ^ 15 = 0x7c00 → exp z = 31 := by intro z _ h0; unfold exp; omega
  have fx := flds x hx nx
  have fy := flds y hy ny
  have hf : exp x = 31 ∨ exp y = 31 := by
    rcases h with ⟨s, h⟩ | ⟨s, h⟩
    · left
      rcases fx with ⟨-, a⟩ | ⟨q, a, -⟩
      · exact hexp x hx a
      · rw [h] at a; cases a
    · right
      rcases fy with ⟨-, a⟩ | ⟨q, a, -⟩
      · exact hexp y hy a
      · rw [h] at a; cases a
  obtain ⟨r, h1, hr, h2⟩ := product_flagged w x y hx hy hf
  refine ⟨r, h1, hr, ?_⟩
  rcases fx with ⟨a, a'⟩ | ⟨q, a, a', a''⟩ <;> rcases fy with ⟨b, b'⟩ | ⟨p, b, b', b''⟩
  · rw [a, b, ProductIs, h2, if_neg (by omega)]
  · rw [a, b, ProductIs, h2]
    by_cases hp : p = 0
    · rw [if_pos (Or.inl ⟨a', b'.1 hp⟩), if_pos hp]
    · rw [if_neg (by rw [b'] at hp; omega), if_neg hp]
  · rw [a, b, ProductIs, h2]
    by_cases hp : q = 0
    · rw [if_pos (Or.inr ⟨a'.1 hp, b'⟩), if_pos hp]
    · rw [if_neg (by rw [a'] at hp; omega), if_neg hp]
  · exfalso
    rcases h with ⟨s, h⟩ | ⟨s, h⟩
    · rw [h] at a; cases a
    · rw [h] at b; cases b

/-- Infinity times zero is a NaN. -/
example : halfVal 0x7c00 = .inf false ∧ (∃ q, halfVal 0x8000 = .fin true q) ∧ halfMul x86 0x7c00 0x8000 = .ok 0xfe00 :=
  ⟨by decide +kernel, ⟨0, by decide +kernel⟩, by decide +kernel⟩

/-- The significand of a product with a subnormal half of significand `m`, the other of fields `e` and `m'`. -/
def subSig (e m' m : Nat) : Nat := ((2 ^ 10 + m') * m + (2 ^ 10 + m') * m % 2 ^ 10) / 2 ^ 10 / 2 ^ (15 - e)

theorem subSig_lt {e m' m : Nat} (he : e ≤ 14) (hm : m < 2 ^ 10) (hm' : m' < 2 ^ 10) : subSig e m' m < 2 ^ 10 := by
  unfold subSig
  have hD : (2 ^ 10 + m') * m ≤ 2047 * 1023 := Nat.mul_le_mul (by omega) (by omega)
  generalize (2 ^ 10 + m') * m = D at *
  have : 2 ^ 1 ≤ 2 ^ (15 - e) := Nat.pow_le_pow_right (by norm_num) (by omega)
  have := Nat.div_le_div_left (a := (D + D % 2 ^ 10) / 2 ^ 10) this (by norm_num)
  omega

theorem subSig_zero {m' m : Nat} (hm : m < 2 ^ 10) (hm' : m' < 2 ^ 10) : subSig 0 m' m = 0 := by
  unfold subSig
  have hD : (2 ^ 10 + m') * m ≤ 2047 * 1023 := Nat.mul_le_mul (by omega) (by omega)
  generalize (2 ^ 10 + m') * m = D at *
  omega

theorem subSig_near {e m' m : Nat} (he : e ≤ 14) (he0 : e ≠ 0) (hm : m < 2 ^ 10) (hm' : m' < 2 ^ 10) :
    |(subSig e m' m : ℚ) - m * mag e m'| < 1 := by
  have eq : (m : ℚ) * mag e m' = (((2 ^ 10 + m') * m : ℕ) : ℚ) / ((2 ^ (25 - e) : ℕ) : ℚ) := by
    unfold mag
    rw [if_neg he0, show (e : Int) - 25 = -((25 - e : ℕ) : Int) by omega, zpow_neg, zpow_natCast]
    push_cast
    rw [div_eq_mul_inv]; ring
  rw [eq]
  have hD : (2 ^ 10 + m') * m ≤ 2047 * 1023 := Nat.mul_le_mul (by omega) (by omega)
  unfold subSig
  generalize (2 ^ 10 + m') * m = D at *
  have b0 : (0 : ℚ) < ((2 ^ (25 - e) : ℕ) : ℚ) := by positivity
  have pw : 2 ^ (25 - e) = 2 ^ 10 * 2 ^ (15 - e) := by rw [← pow_add]; congr 1; omega
  obtain ⟨Q, hQ⟩ : ∃ Q, Q = (D + D % 2 ^ 10) / 2 ^ 10 := ⟨_, rfl⟩
  rw [← hQ]
  have q1 : 2 ^ 10 * Q ≤ D + 2 ^ 9 := by omega
  have q2 : D ≤ 2 ^ 10 * Q + 2 ^ 9 := by omega
  have j1 : 2 ^ 1 ≤ 2 ^ (15 - e) := Nat.pow_le_pow_right (by norm_num) (by omega)
  generalize 2 ^ (15 - e) = B at *
  have r1 : B * (Q / B) ≤ Q := Nat.mul_div_le Q B
  have r2 : Q < B * (Q / B) + B := Nat.lt_mul_div_succ Q (by omega)
  generalize Q / B = R at *
  have h1 : 2 ^ 10 * B * R < D + 2 ^ 10 * B := by
    rw [Nat.mul_assoc]
    generalize B * R = BR at *
    omega
  have h2 : D < 2 ^ 10 * B * R + 2 ^ 10 * B := by
    rw [Nat.mul_assoc]
    generalize B * R = BR at *
    omega
  rw [← pw] at h1 h2
  generalize 2 ^ (25 - e) = b at *
  have h1' : (b * R : ℚ) < D + b := by exact_mod_cast h1
  have h2' : (D : ℚ) < b * R + b := by exact_mod_cast h2
  have e1 : (D : ℚ) = (D : ℚ) / b * b := by field_simp
  set z := (D : ℚ) / b
  rw [e1] at h1' h2'
  rw [abs_lt]
  constructor
  · by_contra hc
    push Not at hc
    nlinarith
  · by_contra hc
    push Not at hc
    nlinarith

theorem product_sub (w : Nat → Nat → Nat) {s m s' e' m' : Nat} (hs : s < 2) (hm : m < 2 ^ 10) (hs' : s' < 2) (he' : e' ≤ 14)
    (hm' : m' < 2 ^ 10) :
    halfMul (some w) (s * 2 ^ 15 + 0 * 2 ^ 10 + m) (s' * 2 ^ 15 + e' * 2 ^ 10 + m') = .ok ((s + s') % 2 * 2 ^ 15 + subSig e' m' m) ∧
    halfMul (some w) (s' * 2 ^ 15 + e' * 2 ^ 10 + m') (s * 2 ^ 15 + 0 * 2 ^ 10 + m) = .ok ((s + s') % 2 * 2 ^ 15 + subSig e' m' m) := by
  have ht : (s + s') % 2 < 2 := Nat.mod_lt _ (by norm_num)
  have hR := subSig_lt he' hm hm'
  constructor
  · rw [halfMul_order (some w) hs (by norm_num) hm hs' (by omega) hm', if_pos rfl]
    obtain ⟨d, hd, h1, -⟩ := mulCore_some w (as := s * 2 ^ 15) hs' (by omega : e' < 32) hm' hs (by norm_num : 0 < 32) hm ht
    rw [hd, prodRes, if_neg (by omega), if_pos (by omega), h1 (by omega)]
    rw [show ((2 ^ 10 + m') * m + (2 ^ 10 + m') * m % 2 ^ 10) / 2 ^ 10 / 2 ^ (15 - e') = subSig e' m' m from rfl, Nat.mod_eq_of_lt hR]
  · rw [halfMul_order (some w) hs' (by omega) hm' hs (by norm_num) hm, Nat.add_comm s']
    by_cases h0 : e' = 0
    · subst h0
      rw [if_pos rfl]
      obtain ⟨d, hd, h1, -⟩ := mulCore_some w (as := s' * 2 ^ 15) hs (by norm_num : 0 < 32) hm hs' (by norm_num : 0 < 32) hm' ht
      rw [hd, prodRes, if_neg (by omega), if_pos (by omega), h1 (by omega)]
      rw [show ((2 ^ 10 + m) * m' + (2 ^ 10 + m) * m' % 2 ^ 10) / 2 ^ 10 / 2 ^ (15 - 0) = subSig 0 m m' from rfl,
        subSig_zero hm' hm, subSig_zero hm hm']
      rfl
    · rw [if_neg h0]
      obtain ⟨d, hd, h1, -⟩ := mulCore_some w (as := s' * 2 ^ 15) hs' (by omega : e' < 32) hm' hs (by norm_num : 0 < 32) hm ht
      rw [hd, prodRes, if_neg (by omega), if_pos (by omega), h1 (by omega)]
      rw [show ((2 ^ 10 + m') * m + (2 ^ 10 + m') * m % 2 ^ 10) / 2 ^ 10 / 2 ^ (15 - e') = subSig e' m' m from rfl, Nat.mod_eq_of_lt hR]

/-- **C104 (subnormal operands).** The product of a zero or subnormal half and of a half below 1 in magnitude, in either order, is
less than one unit in the last place (`2^-24`) away from the exact product: it is truncated after a rounding. -/
theorem C104_subnormal_partial (w : Nat → Nat → Nat) (x y : Nat) (hx : x < 2 ^ 16) (hy : y < 2 ^ 16) (vx vy : ℚ)
    (hvx : (halfVal x).toRat? = some vx) (hvy : (halfVal y).toRat? = some vy) (nx : exp x = 0) (ny : exp y ≤ 14) :
    ∃ r v, halfMul (some w) x y = .ok r ∧ halfMul (some w) y x = .ok r ∧ (halfVal r).toRat? = some v ∧
      |v - vx * vy| < (2 : ℚ) ^ (-24 : Int) := by
  obtain ⟨s, e, m, hs, he, hm, rfl⟩ := half_fields x hx
  obtain ⟨s', e', m', hs', he', hm', rfl⟩ := half_fields y hy
  obtain ⟨h31, rfl⟩ := toRat_fields hs he hm hvx
  obtain ⟨h31', rfl⟩ := toRat_fields hs' he' hm' hvy
  rw [exp_eq hs he hm] at nx
  rw [exp_eq hs' he' hm'] at ny
  subst nx
  obtain ⟨p1, p2⟩ := product_sub w hs hm hs' ny hm'
  have ht : (s + s') % 2 < 2 := Nat.mod_lt _ (by norm_num)
  have hR := subSig_lt ny hm hm'
  refine ⟨_, _, p1, p2, toRat_sub _ _ ht hR, ?_⟩
  have U : (0 : ℚ) < (2 : ℚ) ^ (-24 : Int) := by positivity
  have m0 : mag 0 m = (m : ℚ) * (2 : ℚ) ^ (-24 : Int) := by unfold mag; rw [if_pos rfl]
  rw [signed_mul s s' hs hs', signed_sub, m0]
  have abs_s : ∀ q : ℚ, |signed ((s + s') % 2) q| = |q| := by
    intro q; unfold signed; split
    · rw [abs_neg]
    · rfl
  rw [abs_s, show (subSig e' m' m : ℚ) * (2 : ℚ) ^ (-24 : Int) - m * (2 : ℚ) ^ (-24 : Int) * mag e' m' =
    ((subSig e' m' m : ℚ) - m * mag e' m') * (2 : ℚ) ^ (-24 : Int) by ring, abs_mul, abs_of_pos U]
  suffices |(subSig e' m' m : ℚ) - m * mag e' m'| < 1 by
    calc _ < 1 * (2 : ℚ) ^ (-24 : Int) := mul_lt_mul_of_pos_right this U
      _ = _ := one_mul _
  by_cases h0 : e' = 0
  · subst h0
    rw [subSig_zero hm hm', Nat.cast_zero, zero_sub, abs_neg]
    have m0' : mag 0 m' = (m' : ℚ) * (2 : ℚ) ^ (-24 : Int) := by unfold mag; rw [if_pos rfl]
    have a : (m : ℚ) ≤ 1023 := by exact_mod_cast (by omega : m ≤ 1023)
    have b : (m' : ℚ) ≤ 1023 := by exact_mod_cast (by omega : m' ≤ 1023)
    have c : (m : ℚ) * m' ≤ 1023 * 1023 := mul_le_mul a b (by positivity) (by norm_num)
    rw [m0', abs_of_nonneg (by positivity)]
    norm_num
    linarith
  · exact subSig_near ny h0 hm hm'

example : exp 0x011a = 0 ∧ exp 0x3800 ≤ 14 ∧ halfMul x86 0x011a 0x3800 = .ok 0x8d := ⟨by decide, by decide, by decide +kernel⟩

/-- **C104 (subnormal operands, large factors).** A product with a zero or subnormal half is below `2^-14` in magnitude, however large
the other factor. -/
theorem C104_subnormal_large (w : Nat → Nat → Nat) (x y : Nat) (hx : x < 2 ^ 16) (hy : y < 2 ^ 16) (nx : exp x = 0) (ny : exp y ≠ 31) :
    ∃ r v, halfMul (some w) x y = .ok r ∧ (halfVal r).toRat? = some v ∧ |v| < (2 : ℚ) ^ (-14 : Int) := by
  obtain ⟨s, e, m, hs, he, hm, rfl⟩ := half_fields x hx
  obtain ⟨s', e', m', hs', he', hm', rfl⟩ := half_fields y hy
  rw [exp_eq hs he hm] at nx
  rw [exp_eq hs' he' hm'] at ny
  have ht : (s + s') % 2 < 2 := Nat.mod_lt _ (by norm_num)
  rw [halfMul_order (some w) hs he hm hs' he' hm', if_pos nx]
  obtain ⟨d, hd, -, -⟩ := mulCore_some w (as := s * 2 ^ 15) hs' he' hm' hs he hm ht
  rw [prodRes, if_neg (by omega), if_pos ⟨nx, ny⟩] at hd
  have hR : d % 2 ^ 10 < 2 ^ 10 := Nat.mod_lt _ (by norm_num)
  refine ⟨_, _, hd, toRat_sub _ _ ht hR, ?_⟩
  rw [abs_signed _ (by positivity)]
  have a : ((d % 2 ^ 10 : ℕ) : ℚ) ≤ 1023 := by exact_mod_cast (by omega : d % 2 ^ 10 ≤ 1023)
  generalize ((d % 2 ^ 10 : ℕ) : ℚ) = q at *
  norm_num
  linarith

/-- The subnormal `282·2^-24` times 3.67, about `2^-14`, is 0 on an x86 processor, which takes shift counts modulo 32. -/
example : halfMul x86 0x011a 0x4358 = .ok 0 := by decide +kernel

theorem prodBody_tiny {C P : Nat} (hC : 4 ≤ C) (hC' : C ≤ 6) (h0 : 2 ^ 20 ≤ P) (h1 : P < 2 ^ 22) :
    prodBody C P = if C = 6 then (if P < 3 * 2 ^ 20 then 1 else 2) else 0 := by
  have e : prodEM C P = (0, P / 2 ^ (2 * (15 - C)) / 2 * 2 ^ 8) := by
    unfold prodEM
    rw [if_neg (by omega)]
    have : P / 2 ^ (2 * (15 - C)) / 2 / 2 ^ 5 = 0 := by
      have h2 : 2 ^ 18 ≤ 2 ^ (2 * (15 - C)) := Nat.pow_le_pow_right (by norm_num) (by omega)
      have := Nat.div_le_div_left (a := P) h2 (by norm_num)
      generalize P / 2 ^ (2 * (15 - C)) = A at *
      omega
    rw [this]
    rfl
  unfold prodBody
  simp only [e]
  rw [if_neg (by omega)]
  interval_cases C
  · norm_num; omega
  · norm_num; omega
  · simp only [if_true]
    split <;> norm_num <;> omega

/-- **C104 (very small products).** Where the exponent fields of two normal halves add up to 4, 5 or 6 (magnitudes from `2^-26` to
`2^-22`, in units of `2^-24` from 1/4 to 4) the product is: zero for 4 and 5, and for 6, where 1 to 4 units are due, one unit below
3 units and two from 3 units on. -/
theorem C104_tiny (w : Nat → Nat → Nat) (x y : Nat) (hx : x < 2 ^ 16) (hy : y < 2 ^ 16) (vx vy : ℚ)
    (hvx : (halfVal x).toRat? = some vx) (hvy : (halfVal y).toRat? = some vy) (nx : exp x ≠ 0) (ny : exp y ≠ 0)
    (hC : 4 ≤ exp x + exp y) (hC' : exp x + exp y ≤ 6) :
    ∃ r n, halfMul (some w) x y = .ok r ∧
      (n : ℚ) = (if exp x + exp y = 6 then (if |vx * vy| < 3 * (2 : ℚ) ^ (-24 : Int) then 1 else 2) else 0) ∧
      (halfVal r).toRat? = some (if vx * vy < 0 then -(n * (2 : ℚ) ^ (-24 : Int)) else n * (2 : ℚ) ^ (-24 : Int)) := by
  obtain ⟨t, P, ht, b1, b2, -, -, h1, h2⟩ := product_fields w x y hx hy vx vy hvx hvy nx ny
  have hpos : (0 : ℚ) < (P : ℚ) * (2 : ℚ) ^ (((exp x + exp y : ℕ) : Int) - 50) := by
    have : (0 : ℚ) < P := by exact_mod_cast (by omega : 0 < P)
    positivity
  have b := prodBody_tiny hC hC' b1 (by omega)
  refine ⟨_, ((prodBody (exp x + exp y) P : ℕ) : ℚ), h1, ?_, ?_⟩
  · rw [b, h2, abs_signed t hpos.le]
    by_cases h6 : exp x + exp y = 6
    · simp only [if_pos h6]
      rw [h6]
      have key : (P : ℚ) * (2 : ℚ) ^ (((6 : ℕ) : Int) - 50) < 3 * (2 : ℚ) ^ (-24 : Int) ↔ P < 3 * 2 ^ 20 := by
        rw [show ((6 : ℕ) : Int) - 50 = -20 + -24 by norm_num, zpow_add₀ (by norm_num), ← mul_assoc,
          mul_lt_mul_iff_left₀ (by positivity), show (2 : ℚ) ^ (-20 : Int) = 1 / 2 ^ 20 by norm_num, mul_one_div, div_lt_iff₀ (by positivity)]
        exact_mod_cast Iff.rfl
      by_cases hp : P < 3 * 2 ^ 20
      · rw [if_pos hp, if_pos (key.2 hp)]; norm_num
      · rw [if_neg hp, if_neg (fun h => hp (key.1 h))]; norm_num
    · simp only [if_neg h6]; norm_num
  · have hlt : prodBody (exp x + exp y) P < 2 ^ 10 := by rw [b]; split_ifs <;> norm_num
    rw [toRat_sub t _ ht hlt, h2]
    have := signed_neg t hpos
    simp only [decide_eq_decide] at this
    simp only [this]
    unfold signed
    split <;> simp

/-- 1.5 units are rounded to 1. -/
example : exp 0x0e00 + exp 0x0c00 = 6 ∧ halfMul x86 0x0e00 0x0c00 = .ok 1 := ⟨by decide, by decide +kernel⟩

/-- The fields of a product with a zero or subnormal half and of a half of field 15 or more. -/
theorem product_large (w : Nat → Nat → Nat) {s m s' e' m' : Nat} (hs : s < 2) (hm : m < 2 ^ 10) (hs' : s' < 2) (he : 15 ≤ e') (he' : e' < 31)
    (hm' : m' < 2 ^ 10) :
    ∃ d, halfMul (some w) (s * 2 ^ 15 + 0 * 2 ^ 10 + m) (s' * 2 ^ 15 + e' * 2 ^ 10 + m') = .ok ((s + s') % 2 * 2 ^ 15 + d % 2 ^ 10) ∧
      halfMul (some w) (s' * 2 ^ 15 + e' * 2 ^ 10 + m') (s * 2 ^ 15 + 0 * 2 ^ 10 + m) = .ok ((s + s') % 2 * 2 ^ 15 + d % 2 ^ 10) ∧
      (e' = 15 → d = ((2 ^ 10 + m') * m + (2 ^ 10 + m') * m % 2 ^ 10) / 2 ^ 10) ∧
      (15 < e' → d = w (((2 ^ 10 + m') * m + (2 ^ 10 + m') * m % 2 ^ 10) / 2 ^ 10) (sub32 15 e') % 2 ^ 32) := by
  have ht : (s + s') % 2 < 2 := Nat.mod_lt _ (by norm_num)
  obtain ⟨d, hd, h1, h2⟩ := mulCore_some w (as := s * 2 ^ 15) hs' (by omega : e' < 32) hm' hs (by norm_num : 0 < 32) hm ht
  obtain ⟨d', hd', h1', h2'⟩ := mulCore_some w (as := s' * 2 ^ 15) hs' (by omega : e' < 32) hm' hs (by norm_num : 0 < 32) hm ht
  have hdd : d' = d := by
    by_cases h : e' ≤ 15
    · rw [h1 h, h1' h]
    · rw [h2 (by omega), h2' (by omega)]
  subst hdd
  refine ⟨d', ?_, ?_, fun h => ?_, h2⟩
  · rw [halfMul_order (some w) hs (by norm_num) hm hs' (by omega) hm', if_pos rfl, hd, prodRes, if_neg (by omega), if_pos (by omega)]
  · rw [halfMul_order (some w) hs' (by omega) hm' hs (by norm_num) hm, if_neg (by omega), Nat.add_comm s', hd', prodRes, if_neg (by omega),
      if_pos (by omega)]
  · rw [h1 (by omega), h]; simp

/-- **C104 (zeros).** Wherever a wide shift of 0 gives 0, a zero times any finite half is a zero with the sign of the product, in either
order. -/
theorem C104_zero_partial (w : Nat → Nat → Nat) (hw : ∀ k, w 0 k = 0) (x y : Nat) (hx : x < 2 ^ 16) (hy : y < 2 ^ 16)
    (zx : x % 2 ^ 15 = 0) (ny : exp y ≠ 31) :
    halfMul (some w) x y = .ok (if sgnBit x = sgnBit y then 0 else 2 ^ 15) ∧
      halfMul (some w) y x = .ok (if sgnBit x = sgnBit y then 0 else 2 ^ 15) := by
  obtain ⟨s, e, m, hs, he, hm, rfl⟩ := half_fields x hx
  obtain ⟨s', e', m', hs', he', hm', rfl⟩ := half_fields y hy
  rw [exp_eq hs' he' hm'] at ny
  have e0 : e = 0 := by omega
  have m0 : m = 0 := by omega
  subst e0 m0
  rw [sgn_field hs (by norm_num) (by norm_num), sgn_field hs' he' hm']
  have hsg : (s + s') % 2 * 2 ^ 15 = if decide (s = 1) = decide (s' = 1) then 0 else 2 ^ 15 := by
    have a : s = 0 ∨ s = 1 := by omega
    have b : s' = 0 ∨ s' = 1 := by omega
    rcases a with rfl | rfl <;> rcases b with rfl | rfl <;> simp
  by_cases h14 : e' ≤ 14
  · obtain ⟨p1, p2⟩ := product_sub w hs (m := 0) (by norm_num) hs' h14 hm'
    have : subSig e' m' 0 = 0 := by simp [subSig]
    rw [p1, p2, this, Nat.add_zero, hsg]
    exact ⟨rfl, rfl⟩
  · obtain ⟨d, p1, p2, h1, h2⟩ := product_large w hs (m := 0) (by norm_num) hs' (by omega) (by omega : e' < 31) hm'
    have hd : d = 0 := by
      by_cases h : e' = 15
      · rw [h1 h]; simp
      · rw [h2 (by omega)]; simp [hw]
    rw [p1, p2, hd, Nat.zero_mod, Nat.add_zero, hsg]
    exact ⟨rfl, rfl⟩

example : (∀ k, (fun a k => a >>> (k % 32) : Nat → Nat → Nat) 0 k = 0) ∧ halfMul x86 0x8000 0x7bff = .ok 0x8000 :=
  ⟨fun k => by simp, by decide +kernel⟩

/-- **C104 (subnormal operands on x86).** The product of a subnormal half and of a half of magnitude 2 or more is a zero, in either order. -/
theorem C104_subnormal_x86 (x y : Nat) (hx : x < 2 ^ 16) (hy : y < 2 ^ 16) (nx : exp x = 0) (hy1 : 16 ≤ exp y) (hy2 : exp y ≠ 31) :
    halfMul x86 x y = .ok (if sgnBit x = sgnBit y then 0 else 2 ^ 15) ∧
      halfMul x86 y x = .ok (if sgnBit x = sgnBit y then 0 else 2 ^ 15) := by
  obtain ⟨s, e, m, hs, he, hm, rfl⟩ := half_fields x hx
  obtain ⟨s', e', m', hs', he', hm', rfl⟩ := half_fields y hy
  rw [exp_eq hs he hm] at nx
  rw [exp_eq hs' he' hm'] at hy1 hy2
  subst nx
  rw [sgn_field hs (by norm_num) hm, sgn_field hs' he' hm']
  have hsg : (s + s') % 2 * 2 ^ 15 = if decide (s = 1) = decide (s' = 1) then 0 else 2 ^ 15 := by
    have a : s = 0 ∨ s = 1 := by omega
    have b : s' = 0 ∨ s' = 1 := by omega
    rcases a with rfl | rfl <;> rcases b with rfl | rfl <;> simp
  obtain ⟨d, p1, p2, h1, h2⟩ := product_large (fun a k => a >>> (k % 32)) hs hm hs' (by omega) (by omega : e' < 31) hm'
  have hd : d = 0 := by
    rw [h2 (by omega)]
    have hD : (2 ^ 10 + m') * m ≤ 2047 * 1023 := Nat.mul_le_mul (by omega) (by omega)
    clear h1 h2 p1 p2
    generalize (2 ^ 10 + m') * m = D at hD ⊢
    have hk : 17 ≤ sub32 15 e' % 32 := by unfold sub32; omega
    have : 2 ^ 17 ≤ 2 ^ (sub32 15 e' % 32) := Nat.pow_le_pow_right (by norm_num) hk
    rw [Nat.shiftRight_eq_div_pow, Nat.div_eq_of_lt (by omega)]
    rfl
  have e1 : halfMul x86 = halfMul (some fun a k => a >>> (k % 32)) := rfl
  rw [e1, p1, p2, hd, Nat.zero_mod, Nat.add_zero, hsg]
  exact ⟨rfl, rfl⟩

/-- **C104 (subnormal operands, factors from 1 to 2).** The product of a zero or subnormal half and of a half of magnitude from 1 to 2 is a
nearest half if the product stays below `2^-14 - 2^-25`; a product of `2^-14` or more loses `2^-14`. -/
theorem C104_subnormal_one (w : Nat → Nat → Nat) (x y : Nat) (hx : x < 2 ^ 16) (hy : y < 2 ^ 16) (vx vy : ℚ)
    (hvx : (halfVal x).toRat? = some vx) (hvy : (halfVal y).toRat? = some vy) (nx : exp x = 0) (ny : exp y = 15) :
    ∃ r v, halfMul (some w) x y = .ok r ∧ halfMul (some w) y x = .ok r ∧ (halfVal r).toRat? = some v ∧
      (|vx * vy| < (2 : ℚ) ^ (-14 : Int) - (2 : ℚ) ^ (-25 : Int) → |v - vx * vy| ≤ (2 : ℚ) ^ (-25 : Int)) ∧
      ((2 : ℚ) ^ (-14 : Int) ≤ |vx * vy| → |(|vx * vy| - |v|) - (2 : ℚ) ^ (-14 : Int)| ≤ (2 : ℚ) ^ (-25 : Int)) := by
  obtain ⟨s, e, m, hs, he, hm, rfl⟩ := half_fields x hx
  obtain ⟨s', e', m', hs', he', hm', rfl⟩ := half_fields y hy
  obtain ⟨h31, rfl⟩ := toRat_fields hs he hm hvx
  obtain ⟨h31', rfl⟩ := toRat_fields hs' he' hm' hvy
  rw [exp_eq hs he hm] at nx
  rw [exp_eq hs' he' hm'] at ny
  subst nx ny
  have ht : (s + s') % 2 < 2 := Nat.mod_lt _ (by norm_num)
  obtain ⟨d, p1, p2, h1, -⟩ := product_large w hs hm hs' (le_refl 15) (by norm_num) hm'
  have hd := h1 rfl
  have hR : d % 2 ^ 10 < 2 ^ 10 := Nat.mod_lt _ (by norm_num)
  refine ⟨_, _, p1, p2, toRat_sub _ _ ht hR, ?_⟩
  have hD : (2 ^ 10 + m') * m ≤ 2047 * 1023 := Nat.mul_le_mul (by omega) (by omega)
  have val : signed s (mag 0 m) * signed s' (mag 15 m') = signed ((s + s') % 2) ((((2 ^ 10 + m') * m : ℕ) : ℚ) / 2 ^ 34) := by
    rw [signed_mul s s' hs hs']
    congr 1
    unfold mag
    simp only [if_true, if_neg (by norm_num : ¬ 15 = 0)]
    push_cast
    norm_num
    ring
  rw [val]
  clear h1 p1 p2 val hvx hvy
  generalize (2 ^ 10 + m') * m = D at hD hd ⊢
  have abs_s : ∀ q : ℚ, |signed ((s + s') % 2) q| = |q| := by
    intro q; unfold signed; split
    · rw [abs_neg]
    · rfl
  have Dq : (0 : ℚ) ≤ D := by positivity
  rw [abs_s, abs_s, signed_sub, abs_s, abs_of_nonneg (by positivity : (0 : ℚ) ≤ (D : ℚ) / 2 ^ 34),
    abs_of_nonneg (by positivity : (0 : ℚ) ≤ ((d % 2 ^ 10 : ℕ) : ℚ) * (2 : ℚ) ^ (-24 : Int))]
  constructor
  · intro hq
    have hlt : D < 2 ^ 20 - 2 ^ 9 := by
      have : (D : ℚ) < 1048064 := by
        norm_num at hq
        linarith
      have : D < 1048064 := by exact_mod_cast this
      omega
    have a1 : 2 ^ 10 * (d % 2 ^ 10) ≤ D + 2 ^ 9 := by rw [hd]; omega
    have a2 : D ≤ 2 ^ 10 * (d % 2 ^ 10) + 2 ^ 9 := by rw [hd]; omega
    generalize d % 2 ^ 10 = f at *
    have a1' : (2 : ℚ) ^ 10 * f ≤ D + 2 ^ 9 := by exact_mod_cast a1
    have a2' : (D : ℚ) ≤ 2 ^ 10 * f + 2 ^ 9 := by exact_mod_cast a2
    rw [abs_le]
    norm_num at a1' a2' ⊢
    constructor <;> linarith
  · intro hq
    have hlt : 2 ^ 20 ≤ D := by
      have : (1048576 : ℚ) ≤ D := by
        norm_num at hq
        linarith
      have : 1048576 ≤ D := by exact_mod_cast this
      omega
    have a1 : 2 ^ 10 * (d % 2 ^ 10) + 2 ^ 20 ≤ D + 2 ^ 9 := by rw [hd]; omega
    have a2 : D ≤ 2 ^ 10 * (d % 2 ^ 10) + 2 ^ 20 + 2 ^ 9 := by rw [hd]; omega
    generalize d % 2 ^ 10 = f at *
    have a1' : (2 : ℚ) ^ 10 * f + 2 ^ 20 ≤ D + 2 ^ 9 := by exact_mod_cast a1
    have a2' : (D : ℚ) ≤ 2 ^ 10 * f + 2 ^ 20 + 2 ^ 9 := by exact_mod_cast a2
    rw [abs_le]
    norm_num at a1' a2' ⊢
    constructor <;> linarith

/-- `1023·2^-24` times 1.5 is 510.5 units of `2^-24` instead of 1534.5. -/
example : exp 0x03ff = 0 ∧ exp 0x3e00 = 15 ∧ halfMul x86 0x03ff 0x3e00 = .ok 0x1ff := ⟨by decide, by decide, by decide +kernel⟩

/-- **C104 is false of the code**: the product of 1 and 1 is undefined; with any definition of the wide shifts NaN times 1 is an
infinity. -/
theorem C104_false (W : Wide) : ¬ C104Claim W := by
  intro h
  match W with
  | none =>
    obtain ⟨r, -, h1, -⟩ := h 0x3c00 (by norm_num) 0x3c00 (by norm_num)
    rw [(C104_undefined_iff 0x3c00 0x3c00 (by norm_num) (by norm_num)).2 (by decide)] at h1
    cases h1
  | some w =>
    obtain ⟨r, -, h1, h2⟩ := h 0x7e00 (by norm_num) 0x3c00 (by norm_num)
    have hn : halfVal 0x7e00 = .nan := by decide +kernel
    obtain ⟨r', h1', h2'⟩ := C104_nan w 0x7e00 0x3c00 (by norm_num) (by norm_num) (Or.inl hn)
    rw [h1] at h1'
    cases h1'
    rw [hn, ProductIs, h2'] at h2
    cases h2

end Verif.HalfM
