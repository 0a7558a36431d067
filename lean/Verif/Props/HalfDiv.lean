import Verif.Lemmas.HalfDiv
import Verif.Props.Half
import Verif.Props.HalfMul
import Mathlib.Data.Set.Finite.Lemmas
import Mathlib.Order.Interval.Finset.Nat

/-!
# Quotients of halves

`math/half.hpp`: `operator/=` 594-597, `operator/` 663-668. The division itself is done by the processor in `float`; `fdiv` is that
division, and `FloatDivision fdiv` says that it rounds to nearest as IEEE 754 has it.
-/

namespace Verif.HalfM

open HalfS

/-- What the quotient of two halves should be. -/
def QuotientIs (r : Nat) : FV → FV → Prop
  | .nan, _ => halfVal r = .nan
  | _, .nan => halfVal r = .nan
  | .inf _, .inf _ => halfVal r = .nan
  | .inf s, .fin t _ => halfVal r = .inf (s != t)
  | .fin s _, .inf t => halfVal r = .fin (s != t) 0
  | .fin s p, .fin t q =>
    if q = 0 then (if p = 0 then halfVal r = .nan else halfVal r = .inf (s != t))
    else NearestHalf r ((if s then -p else p) / (if t then -q else q))

/-- The whole property. -/
def C105Claim (W : Wide) (fdiv : Nat → Nat → Nat) : Prop :=
  ∀ x < 2 ^ 16, ∀ y < 2 ^ 16, ∃ r < 2 ^ 16, halfDiv W fdiv x y = .ok r ∧ QuotientIs r (halfVal x) (halfVal y)

/-! ## There is a division -/

theorem quiet_word : QuietNan (0 * 2 ^ 31 + 255 * 2 ^ 23 + 2 ^ 22) := by unfold QuietNan; norm_num

theorem inf_of (b : Bool) : ∃ r < 2 ^ 32, floatVal r = .inf b := by
  cases b
  · refine ⟨0 * 2 ^ 31 + 255 * 2 ^ 23 + 0, by norm_num, ?_⟩
    rw [floatVal_eq 0 255 0 (by norm_num) (by norm_num) (by norm_num)]; rfl
  · refine ⟨1 * 2 ^ 31 + 255 * 2 ^ 23 + 0, by norm_num, ?_⟩
    rw [floatVal_eq 1 255 0 (by norm_num) (by norm_num) (by norm_num)]; rfl

theorem zero_of (b : Bool) : ∃ r < 2 ^ 32, floatVal r = .fin b 0 := by
  cases b
  · refine ⟨0 * 2 ^ 31 + 0 * 2 ^ 23 + 0, by norm_num, ?_⟩
    rw [floatVal_eq 0 0 0 (by norm_num) (by norm_num) (by norm_num)]; simp
  · refine ⟨1 * 2 ^ 31 + 0 * 2 ^ 23 + 0, by norm_num, ?_⟩
    rw [floatVal_eq 1 0 0 (by norm_num) (by norm_num) (by norm_num)]; simp

/-- The magnitude of a word, for the minimum. -/
def magOf (h : Nat) : ℚ := match floatVal h with
  | .fin _ u => u
  | _ => 0

theorem nearest_of (b : Bool) (q : ℚ) : ∃ r < 2 ^ 32, ∃ v, floatVal r = .fin b v ∧
    ∀ h < 2 ^ 32, ∀ u, floatVal h = .fin b u → |v - q| ≤ |u - q| := by
  have hfin : Set.Finite {h : Nat | h < 2 ^ 32 ∧ ∃ u, floatVal h = .fin b u} :=
    (Set.finite_lt_nat (2 ^ 32)).subset fun _ h => h.1
  obtain ⟨z, hz, hz'⟩ := zero_of b
  obtain ⟨r, ⟨hr, v, hv⟩, hmin⟩ := Set.exists_min_image _ (fun h => |magOf h - q|) hfin ⟨z, hz, 0, hz'⟩
  refine ⟨r, hr, v, hv, fun h hh u hu => ?_⟩
  have := hmin h ⟨hh, u, hu⟩
  simpa [magOf, hv, hu] using this

theorem quotient_of (a b : Nat) : ∃ r, FloatQuotient a b r := by
  unfold FloatQuotient
  have hq : (0 * 2 ^ 31 + 255 * 2 ^ 23 + 2 ^ 22) < 2 ^ 32 := by norm_num
  cases floatVal a with
  | nan => exact ⟨_, hq, quiet_word⟩
  | inf s =>
    cases floatVal b with
    | nan => exact ⟨_, hq, quiet_word⟩
    | inf t => exact ⟨_, hq, quiet_word⟩
    | fin t q => obtain ⟨r, h1, h2⟩ := inf_of (s != t); exact ⟨r, h1, h2⟩
  | fin s p =>
    cases floatVal b with
    | nan => exact ⟨_, hq, quiet_word⟩
    | inf t => obtain ⟨r, h1, h2⟩ := zero_of (s != t); exact ⟨r, h1, h2⟩
    | fin t q =>
      by_cases h0 : q = 0
      · by_cases h1 : p = 0
        · refine ⟨_, hq, ?_⟩
          simp only [if_pos h0, if_pos h1]
          exact quiet_word
        · obtain ⟨r, h2, h3⟩ := inf_of (s != t)
          refine ⟨r, h2, ?_⟩
          simp only [if_pos h0, if_neg h1]
          exact h3
      · obtain ⟨r, h2, v, h3, h4⟩ := nearest_of (s != t) (p / q)
        refine ⟨r, h2, ?_⟩
        simp only [if_neg h0]
        exact fun _ => ⟨v, h3, h4⟩

/-- The hypothesis of the theorems below can be met. -/
theorem division_exists : ∃ fdiv, FloatDivision fdiv := by
  choose f hf using quotient_of
  exact ⟨f, fun a _ b _ => hf a b⟩

/-! ## Quotients of numbers -/

/-- The quotient of two halves other than zero: the float that is converted back. -/
theorem quotient_word (W : Wide) (fdiv : Nat → Nat → Nat) (hd : FloatDivision fdiv) (x y : Nat) (hx : x < 2 ^ 16) (hy : y < 2 ^ 16)
    (vx vy : ℚ) (hvx : (halfVal x).toRat? = some vx) (hvy : (halfVal y).toRat? = some vy) (nx : vx ≠ 0) (ny : vy ≠ 0) :
    ∃ (t : Nat) (Q : ℚ) (E : Int) (g n : Nat), t < 2 ∧ vx / vy = signed t Q ∧
      halfDiv W fdiv x y = floatToHalf W (t * 2 ^ 31 + g * 2 ^ 23 + n) ∧ n < 2 ^ 23 - 2 ^ 12 ∧ (g : Int) = E + 127 ∧
      -40 ≤ E ∧ E ≤ 40 ∧ (2 : ℚ) ^ E ≤ Q ∧ Q < (2 : ℚ) ^ (E + 1) ∧
      |((2 ^ 23 + n : ℕ) : ℚ) * (2 : ℚ) ^ (E - 23) - Q| ≤ (2 : ℚ) ^ (E - 24) ∧
      ∀ T : Int, |(T : ℚ) * (2 : ℚ) ^ (E - 11) - Q| ≤ (2 : ℚ) ^ (E - 22) → (T : ℚ) * (2 : ℚ) ^ (E - 11) = Q := by
  obtain ⟨a, ha, ha', hav, -⟩ := C47_exact W x hx
  obtain ⟨b, hb, hb', hbv, -⟩ := C47_exact W y hy
  obtain ⟨s, e, m, hs, he, hm, rfl⟩ := half_fields x hx
  obtain ⟨s', e', m', hs', he', hm', rfl⟩ := half_fields y hy
  obtain ⟨h31, rfl⟩ := toRat_fields hs he hm hvx
  obtain ⟨h31', rfl⟩ := toRat_fields hs' he' hm' hvy
  have fx : halfVal (s * 2 ^ 15 + e * 2 ^ 10 + m) = .fin (decide (s = 1)) (mag e m) := by
    rcases halfVal_cases s e m hs he hm (by intro h; rw [h] at hvx; cases hvx) with ⟨h, -⟩ | ⟨-, h⟩
    · exact absurd h h31.ne
    · exact h
  have fy : halfVal (s' * 2 ^ 15 + e' * 2 ^ 10 + m') = .fin (decide (s' = 1)) (mag e' m') := by
    rcases halfVal_cases s' e' m' hs' he' hm' (by intro h; rw [h] at hvy; cases hvy) with ⟨h, -⟩ | ⟨-, h⟩
    · exact absurd h h31'.ne
    · exact h
  have mx : mag e m ≠ 0 := by intro h; rw [h] at nx; simp [signed] at nx
  have my : mag e' m' ≠ 0 := by intro h; rw [h] at ny; simp [signed] at ny
  obtain ⟨E, g, n, h1, h2⟩ := quotient_float fdiv hd a b ha hb s s' e m e' m' hs hs' h31 hm h31' hm' mx my
    (by rw [hav, fx]) (by rw [hbv, fy])
  refine ⟨(s + s') % 2, mag e m / mag e' m', E, g, n, Nat.mod_lt _ (by norm_num), ?_, ?_, h2⟩
  · rcases (by omega : s = 0 ∨ s = 1) with rfl | rfl <;> rcases (by omega : s' = 0 ∨ s' = 1) with rfl | rfl <;>
      simp [signed, neg_div, div_neg]
  · unfold halfDiv
    rw [ha', Out.ok_bind, hb', Out.ok_bind, h1]

theorem quotient_below (E : Int) (n : Nat) (Q : ℚ) (hn : n < 2 ^ 23 - 2 ^ 12)
    (hd : |((2 ^ 23 + n : ℕ) : ℚ) * (2 : ℚ) ^ (E - 23) - Q| ≤ (2 : ℚ) ^ (E - 24)) : Q < (2 ^ 12 - 1) * (2 : ℚ) ^ (E - 11) := by
  have z2 : (2 : ℚ) ≠ 0 := by norm_num
  have w1 : (2 : ℚ) ^ (E - 11) = 2 ^ 13 * (2 : ℚ) ^ (E - 24) := by
    rw [show E - 11 = 13 + (E - 24) by ring, zpow_add₀ z2]; norm_num
  have w2 : (2 : ℚ) ^ (E - 23) = 2 * (2 : ℚ) ^ (E - 24) := by
    rw [show E - 23 = 1 + (E - 24) by ring, zpow_add₀ z2]; norm_num
  have W0 : (0 : ℚ) < (2 : ℚ) ^ (E - 24) := by positivity
  have h1 : ((2 ^ 23 + n : ℕ) : ℚ) ≤ ((2 ^ 24 - 2 ^ 12 - 1 : ℕ) : ℚ) := by exact_mod_cast (by omega)
  have h2 := mul_le_mul_of_nonneg_right h1 (by positivity : (0 : ℚ) ≤ (2 : ℚ) ^ (E - 23))
  have h3 := (abs_le.1 hd).1
  rw [w2] at h2 h3
  rw [w1]
  norm_num at h2 h3 ⊢
  linarith

/-- **C105 (where the quotient is undefined).** The quotient of two numbers, the second not zero, shifts by 32 or more exactly if it is
zero or its magnitude is `2^-13` or more. So the quotient of 1 and 1 is undefined. -/
theorem C105_undefined_iff (fdiv : Nat → Nat → Nat) (hd : FloatDivision fdiv) (x y : Nat) (hx : x < 2 ^ 16) (hy : y < 2 ^ 16)
    (vx vy : ℚ) (hvx : (halfVal x).toRat? = some vx) (hvy : (halfVal y).toRat? = some vy) (ny : vy ≠ 0) :
    halfDiv none fdiv x y = .ub ↔ vx = 0 ∨ (2 : ℚ) ^ (-13 : Int) ≤ |vx / vy| := by
  by_cases nx : vx = 0
  · refine ⟨fun _ => Or.inl nx, fun _ => ?_⟩
    subst nx
    obtain ⟨a, ha, ha', hav, -⟩ := C47_exact none x hx
    obtain ⟨b, hb, hb', hbv, -⟩ := C47_exact none y hy
    unfold halfDiv
    rw [ha', Out.ok_bind, hb', Out.ok_bind]
    obtain ⟨hw, hq⟩ := hd a ha b hb
    rw [hav, hbv] at hq
    cases hX : halfVal x with
    | nan => rw [hX] at hvx; cases hvx
    | inf s => rw [hX] at hvx; cases hvx
    | fin s p =>
      cases hY : halfVal y with
      | nan => rw [hY] at hvy; cases hvy
      | inf s => rw [hY] at hvy; cases hvy
      | fin t q =>
        have hp : p = 0 := by
          rw [hX] at hvx
          simp only [FV.toRat?, Option.some.injEq] at hvx
          cases s <;> simpa using hvx
        have hq0 : q ≠ 0 := by
          rintro rfl
          rw [hY] at hvy
          simp [FV.toRat?] at hvy
          exact ny hvy.symm
        rw [hX, hY] at hq
        simp only [if_neg hq0, hp, zero_div] at hq
        obtain ⟨v, hv, hmin⟩ := hq (by norm_num)
        obtain ⟨z, hz, hz'⟩ := zero_of (s != t)
        have h0 := hmin z hz 0 hz'
        simp only [sub_zero, abs_zero] at h0
        have hv0 : v = 0 := abs_nonpos_iff.1 h0
        subst hv0
        refine (C48_undefined_iff _ hw).2 (Or.inl ?_)
        obtain ⟨u, g, n, hu, hg, hn, hword⟩ := float_fields _ hw
        rw [hword] at hv ⊢
        have e1 : (u * 2 ^ 31 + g * 2 ^ 23 + n) / 2 ^ 23 % 2 ^ 8 = g := by clear hv hword hmin; omega
        rw [e1]
        rw [floatVal_eq u g n hu hg hn] at hv
        by_cases h255 : g = 255
        · rw [if_pos h255] at hv; split at hv <;> cases hv
        · rw [if_neg h255] at hv
          by_cases hg0 : g = 0
          · omega
          · rw [if_neg hg0] at hv
            injection hv with _ hv
            have : (0 : ℚ) < ((2 ^ 23 + n : ℕ) : ℚ) * (2 : ℚ) ^ ((g : Int) - 150) := by positivity
            rw [hv] at this
            exact absurd this (lt_irrefl _)
  · obtain ⟨t, Q, E, g, n, ht, hq, hr, hn, hg, E0, E1, q1, q2, -, -⟩ := quotient_word none fdiv hd x y hx hy vx vy hvx hvy nx ny
    have Q0 : (0 : ℚ) ≤ Q := le_trans (by positivity) q1
    have hgr : g < 256 := by omega
    have hn' : n < 2 ^ 23 := by omega
    have e1 : (t * 2 ^ 31 + g * 2 ^ 23 + n) / 2 ^ 23 % 2 ^ 8 = g := by clear hr; omega
    rw [hr, C48_undefined_iff _ (word32 ht hgr hn'), e1, hq, abs_signed t Q0]
    constructor
    · rintro (h | h)
      · omega
      · right
        refine le_trans ?_ q1
        exact (zpow_le_zpow_iff_right₀ (by norm_num : (1 : ℚ) < 2)).2 (by omega)
    · rintro (h | h)
      · exact absurd h nx
      · right
        have := (zpow_lt_zpow_iff_right₀ (by norm_num : (1 : ℚ) < 2)).1 (lt_of_le_of_lt h q2)
        omega

/-- **C105 (nearest).** Where wide shifts are defined, a quotient of magnitude from `2^-14` to `2^16` is a half nearest to the exact
quotient, although it is rounded twice; from `2^17` on it is the infinity. -/
theorem C105_nearest_partial (w : Nat → Nat → Nat) (fdiv : Nat → Nat → Nat) (hd : FloatDivision fdiv) (x y : Nat) (hx : x < 2 ^ 16)
    (hy : y < 2 ^ 16) (vx vy : ℚ) (hvx : (halfVal x).toRat? = some vx) (hvy : (halfVal y).toRat? = some vy) (ny : vy ≠ 0)
    (hlo : (2 : ℚ) ^ (-14 : Int) ≤ |vx / vy|) (hhi : |vx / vy| < 2 ^ 16 ∨ 2 ^ 17 ≤ |vx / vy|) :
    ∃ r < 2 ^ 16, halfDiv (some w) fdiv x y = .ok r ∧ NearestHalf r (vx / vy) := by
  have z2 : (2 : ℚ) ≠ 0 := by norm_num
  have nx : vx ≠ 0 := by
    rintro rfl
    rw [zero_div, abs_zero] at hlo
    exact absurd hlo (not_le.2 (by positivity))
  obtain ⟨t, Q, E, g, n, ht, hq, hr, hn, hg, E0, E1, q1, q2, dist, gap⟩ :=
    quotient_word (some w) fdiv hd x y hx hy vx vy hvx hvy nx ny
  have Q0 : (0 : ℚ) ≤ Q := le_trans (by positivity) q1
  have hn' : n < 2 ^ 23 := by omega
  rw [hq, abs_signed t Q0] at hlo hhi
  rw [hr, hq]
  have g0 : 113 ≤ g := by
    have := (zpow_lt_zpow_iff_right₀ (by norm_num : (1 : ℚ) < 2)).1 (lt_of_le_of_lt hlo q2)
    omega
  rcases hhi with hhi | hhi
  · have g1 : g ≤ 142 := by
      have h1 : (2 : ℚ) ^ E < (2 : ℚ) ^ (16 : Int) := lt_of_le_of_lt q1 (by norm_num at hhi ⊢; exact hhi)
      have := (zpow_lt_zpow_iff_right₀ (by norm_num : (1 : ℚ) < 2)).1 h1
      omega
    have hQ : Q < 65520 := by
      refine lt_of_lt_of_le (quotient_below E n Q hn dist) ?_
      have h1 : (2 : ℚ) ^ (E - 11) ≤ (2 : ℚ) ^ (4 : Int) :=
        (zpow_le_zpow_iff_right₀ (by norm_num : (1 : ℚ) < 2)).2 (by omega)
      have h2 := mul_le_mul_of_nonneg_left h1 (by norm_num : (0 : ℚ) ≤ 2 ^ 12 - 1)
      refine le_trans h2 (by norm_num)
    obtain ⟨d, hd'⟩ := floatToHalf_ok w t g n ht (by omega) hn'
    rw [normal_body g n d g0 g1 hn'] at hd'
    have hc : (n + 2 ^ 12) / 2 ^ 13 < 2 ^ 10 := by omega
    set c := (n + 2 ^ 12) / 2 ^ 13 with hcdef
    rw [pack t _ ht (by omega)] at hd'
    refine ⟨_, by omega, hd', ?_⟩
    have hval := toRat_norm t (g - 112) c ht (by omega) (by omega) hc
    rw [Nat.add_assoc] at hval
    have eU : (2 : ℚ) ^ (((g - 112 : ℕ) : Int) - 25) = 2 * (2 : ℚ) ^ (E - 11) := by
      rw [show ((g - 112 : ℕ) : Int) - 25 = 1 + (E - 11) by omega, zpow_add₀ z2]; norm_num
    have w1 : (2 : ℚ) ^ (E - 11) = 2 ^ 13 * (2 : ℚ) ^ (E - 24) := by
      rw [show E - 11 = 13 + (E - 24) by ring, zpow_add₀ z2]; norm_num
    have w2 : (2 : ℚ) ^ (E - 23) = 2 * (2 : ℚ) ^ (E - 24) := by
      rw [show E - 23 = 1 + (E - 24) by ring, zpow_add₀ z2]; norm_num
    have w3 : (2 : ℚ) ^ (E - 22) = 4 * (2 : ℚ) ^ (E - 24) := by
      rw [show E - 22 = 2 + (E - 24) by ring, zpow_add₀ z2]; norm_num
    have W0 : (0 : ℚ) < (2 : ℚ) ^ (E - 24) := by positivity
    refine nearest_signed _ t (g - 112) (2 ^ 10 + c) Q (by omega) Q0 hQ hval ?_ (Or.inr ?_)
    · -- the two roundings
      have c1 : ((2 ^ 13 * c : ℕ) : ℚ) ≤ ((n + 2 ^ 12 : ℕ) : ℚ) := by exact_mod_cast (by omega)
      have c2 : ((n + 2 ^ 12 : ℕ) : ℚ) ≤ ((2 ^ 13 * c + 2 ^ 13 : ℕ) : ℚ) := by exact_mod_cast (by omega)
      have k1 := mul_le_mul_of_nonneg_right c1 W0.le
      have k2 := mul_le_mul_of_nonneg_right c2 W0.le
      obtain ⟨d1, d2⟩ := abs_le.1 dist
      rw [w2] at d1 d2
      rw [eU, w1]
      push_cast at *
      norm_num at k1 k2 d1 d2 ⊢
      by_contra hcon
      rw [not_le, lt_abs] at hcon
      rcases hcon with hcon | hcon
      · have := gap (2 * (2 ^ 10 + c) - 1) (by
          rw [w1, w3, abs_le]
          push_cast
          constructor <;> norm_num <;> linarith)
        rw [w1] at this
        push_cast at this
        norm_num at this
        linarith
      · have := gap (2 * (2 ^ 10 + c) + 1) (by
          rw [w1, w3, abs_le]
          push_cast
          constructor <;> norm_num <;> linarith)
        rw [w1] at this
        push_cast at this
        norm_num at this
        linarith
    · rw [show ((g - 112 : ℕ) : Int) - 15 = E by omega]; exact q1
  · have g1 : 144 ≤ g := by
      have h1 : (2 : ℚ) ^ (17 : Int) < (2 : ℚ) ^ (E + 1) := lt_of_le_of_lt (by norm_num at hhi ⊢; exact hhi) q2
      have := (zpow_lt_zpow_iff_right₀ (by norm_num : (1 : ℚ) < 2)).1 h1
      omega
    obtain ⟨d, hd'⟩ := floatToHalf_ok w t g n ht (by omega) hn'
    rw [big_body g n d g1 (by omega), pack t _ ht (by norm_num)] at hd'
    refine ⟨_, by omega, hd', nearest_inf _ t Q (le_trans (by norm_num) hhi) ?_⟩
    have := halfVal_eq t 31 0 ht (by norm_num) (by norm_num)
    rw [Nat.add_zero] at this
    rw [this, if_pos rfl, if_pos rfl]

/-- **C105 (overflow).** A quotient of magnitude from `2^16` to `2^17` is an infinity only below 65568 and a NaN from there on. -/
theorem C105_overflow (w : Nat → Nat → Nat) (fdiv : Nat → Nat → Nat) (hd : FloatDivision fdiv) (x y : Nat) (hx : x < 2 ^ 16)
    (hy : y < 2 ^ 16) (vx vy : ℚ) (hvx : (halfVal x).toRat? = some vx) (hvy : (halfVal y).toRat? = some vy) (ny : vy ≠ 0)
    (hlo : 2 ^ 16 ≤ |vx / vy|) (hhi : |vx / vy| < 2 ^ 17) :
    ∃ r, halfDiv (some w) fdiv x y = .ok r ∧
      if |vx / vy| < 65568 then halfVal r = .inf (decide (vx / vy < 0)) else halfVal r = .nan := by
  have nx : vx ≠ 0 := by
    rintro rfl
    rw [zero_div, abs_zero] at hlo
    exact absurd hlo (by norm_num)
  obtain ⟨t, Q, E, g, n, ht, hq, hr, hn, hg, E0, E1, q1, q2, dist, gap⟩ :=
    quotient_word (some w) fdiv hd x y hx hy vx vy hvx hvy nx ny
  have Q0 : (0 : ℚ) < Q := lt_of_lt_of_le (by positivity) q1
  have hn' : n < 2 ^ 23 := by omega
  rw [hq, abs_signed t Q0.le] at hlo hhi ⊢
  rw [hr, signed_neg t Q0]
  have hE : E = 16 := by
    have h1 : (2 : ℚ) ^ (16 : Int) < (2 : ℚ) ^ (E + 1) := lt_of_le_of_lt (by norm_num at hlo ⊢; exact hlo) q2
    have h2 : (2 : ℚ) ^ E < (2 : ℚ) ^ (17 : Int) := lt_of_le_of_lt q1 (by norm_num at hhi ⊢; exact hhi)
    have h3 := (zpow_lt_zpow_iff_right₀ (by norm_num : (1 : ℚ) < 2)).1 h1
    have h4 := (zpow_lt_zpow_iff_right₀ (by norm_num : (1 : ℚ) < 2)).1 h2
    omega
  have hg' : g = 143 := by omega
  subst hE hg'
  obtain ⟨r, hr', hv⟩ := C48_too_big w t n ht hn'
  refine ⟨r, hr', ?_⟩
  obtain ⟨d1, d2⟩ := abs_le.1 dist
  by_cases h : n < 2 ^ 12
  · rw [if_pos h] at hv
    rw [if_pos]
    · exact hv
    · have h1 : ((2 ^ 23 + n : ℕ) : ℚ) ≤ ((2 ^ 23 + 2 ^ 12 - 1 : ℕ) : ℚ) := by exact_mod_cast (by omega)
      norm_num at h1 d1 d2 ⊢
      linarith
  · rw [if_neg h, if_pos (by omega)] at hv
    rw [if_neg]
    · exact hv
    · intro hlt
      have h1 : ((2 ^ 23 + 2 ^ 12 : ℕ) : ℚ) ≤ ((2 ^ 23 + n : ℕ) : ℚ) := by exact_mod_cast (by omega)
      have := gap 2049 (by
        rw [abs_le]
        norm_num at h1 d1 d2 ⊢
        constructor <;> linarith)
      norm_num at this
      linarith

/-- **C105 (small quotients).** Below `2^-14` the quotient is defined without wide shifts and errs by hardly more than one place
`2^-24`; it need not be a nearest half. -/
theorem C105_small_partial (W : Wide) (fdiv : Nat → Nat → Nat) (hd : FloatDivision fdiv) (x y : Nat) (hx : x < 2 ^ 16)
    (hy : y < 2 ^ 16) (vx vy : ℚ) (hvx : (halfVal x).toRat? = some vx) (hvy : (halfVal y).toRat? = some vy) (nx : vx ≠ 0)
    (ny : vy ≠ 0) (hhi : |vx / vy| < (2 : ℚ) ^ (-14 : Int)) :
    ∃ r v, halfDiv W fdiv x y = .ok r ∧ r < 2 ^ 16 ∧ (halfVal r).toRat? = some v ∧
      |v - vx / vy| < (2 : ℚ) ^ (-24 : Int) + (2 : ℚ) ^ (-39 : Int) := by
  obtain ⟨t, Q, E, g, n, ht, hq, hr, hn, hg, E0, E1, q1, q2, dist, gap⟩ := quotient_word W fdiv hd x y hx hy vx vy hvx hvy nx ny
  have Q0 : (0 : ℚ) < Q := lt_of_lt_of_le (by positivity) q1
  rw [hq, abs_signed t Q0.le] at hhi
  have hE : E < -14 := (zpow_lt_zpow_iff_right₀ (by norm_num : (1 : ℚ) < 2)).1 (lt_of_le_of_lt q1 hhi)
  obtain ⟨r, h1, h2, h3⟩ := small W t g n ht (by omega) (by omega) (by omega) hn
  refine ⟨_, _, by rw [hr, h1], by omega, small_value t r ht h2, ?_⟩
  have h4 := small_error g n r (by omega) h3
  rw [show (g : Int) - 150 = E - 23 by omega] at h4
  rw [hq, signed_sub]
  have : ∀ p : ℚ, |signed t p| = |p| := by
    intro p; unfold signed; split
    · rw [abs_neg]
    · rfl
  rw [this]
  have h5 : (2 : ℚ) ^ (E - 24) ≤ (2 : ℚ) ^ (-39 : Int) :=
    (zpow_le_zpow_iff_right₀ (by norm_num : (1 : ℚ) < 2)).2 (by omega)
  calc |(r : ℚ) * (2 : ℚ) ^ (-24 : Int) - Q|
      ≤ |(r : ℚ) * (2 : ℚ) ^ (-24 : Int) - ((2 ^ 23 + n : ℕ) : ℚ) * (2 : ℚ) ^ (E - 23)| +
          |((2 ^ 23 + n : ℕ) : ℚ) * (2 : ℚ) ^ (E - 23) - Q| := abs_sub_le _ _ _
    _ < _ := by linarith

/-! ## Infinities, NaNs and zeros -/

theorem infinity_word {f : Nat} {b : Bool} (hf : f < 2 ^ 32) (h : floatVal f = .inf b) :
    ∃ s < 2, b = decide (s = 1) ∧ f = s * 2 ^ 31 + 255 * 2 ^ 23 + 0 := by
  obtain ⟨s, e, m, hs, he, hm, rfl⟩ := float_fields f hf
  rw [floatVal_eq s e m hs he hm] at h
  by_cases h1 : e = 255
  · rw [if_pos h1] at h
    by_cases h2 : m = 0
    · rw [if_pos h2] at h
      cases h
      exact ⟨s, hs, rfl, by rw [h1, h2]⟩
    · rw [if_neg h2] at h; cases h
  · rw [if_neg h1] at h; split at h <;> cases h

theorem zero_word {f : Nat} {b : Bool} (hf : f < 2 ^ 32) (h : floatVal f = .fin b 0) :
    ∃ s < 2, b = decide (s = 1) ∧ f = s * 2 ^ 31 := by
  obtain ⟨s, e, m, hs, he, hm, rfl⟩ := float_fields f hf
  rw [floatVal_eq s e m hs he hm] at h
  by_cases h1 : e = 255
  · rw [if_pos h1] at h; split at h <;> cases h
  · rw [if_neg h1] at h
    by_cases h2 : e = 0
    · rw [if_pos h2] at h
      injection h with h3 h4
      have h5 : m = 0 := by
        rcases mul_eq_zero.1 h4 with h5 | h5
        · exact_mod_cast h5
        · exact absurd h5 (by positivity)
      exact ⟨s, hs, h3.symm, by rw [h2, h5]; simp⟩
    · rw [if_neg h2] at h
      injection h with _ h4
      have : (0 : ℚ) < ((2 ^ 23 + m : ℕ) : ℚ) * (2 : ℚ) ^ ((e : Int) - 150) := by positivity
      rw [h4] at this
      exact absurd this (lt_irrefl _)

theorem quiet_back (w : Nat → Nat → Nat) (f : Nat) (hf : f < 2 ^ 32) (h : QuietNan f) :
    ∃ r < 2 ^ 16, floatToHalf (some w) f = .ok r ∧ halfVal r = .nan := by
  obtain ⟨s, e, m, hs, he, hm, rfl⟩ := float_fields f hf
  unfold QuietNan at h
  have e1 : (s * 2 ^ 31 + e * 2 ^ 23 + m) / 2 ^ 23 % 2 ^ 8 = e := by clear h; omega
  have e2 : (s * 2 ^ 31 + e * 2 ^ 23 + m) % 2 ^ 23 = m := by clear h; omega
  rw [e1, e2] at h
  obtain ⟨rfl, h2⟩ := h
  obtain ⟨r, a, b, -, d⟩ := quiet w s m hs hm h2
  exact ⟨r, b, a, d⟩

theorem inf_back (w : Nat → Nat → Nat) (f : Nat) (b : Bool) (hf : f < 2 ^ 32) (h : floatVal f = .inf b) :
    ∃ r < 2 ^ 16, floatToHalf (some w) f = .ok r ∧ halfVal r = .inf b := by
  obtain ⟨s, hs, rfl, rfl⟩ := infinity_word hf h
  obtain ⟨r, h1, h2, -, h3⟩ := infinite w s hs
  exact ⟨r, h2, h1, h3⟩

/-- **C105 (NaNs, infinities, division by zero).** Where wide shifts are defined, a quotient with a NaN is a NaN, also those of two
infinities and of two zeros; an infinity over a number, and a number other than zero over zero, is the infinity of the product of
the signs. -/
theorem C105_special (w : Nat → Nat → Nat) (fdiv : Nat → Nat → Nat) (hd : FloatDivision fdiv) (x y : Nat) (hx : x < 2 ^ 16)
    (hy : y < 2 ^ 16)
    (h : halfVal x = .nan ∨ halfVal y = .nan ∨ (∃ s, halfVal x = .inf s) ∨ (halfVal y).toRat? = some 0) :
    ∃ r < 2 ^ 16, halfDiv (some w) fdiv x y = .ok r ∧ QuotientIs r (halfVal x) (halfVal y) := by
  obtain ⟨a, ha, ha', hav, -⟩ := C47_exact (some w) x hx
  obtain ⟨b, hb, hb', hbv, -⟩ := C47_exact (some w) y hy
  unfold halfDiv
  rw [ha', Out.ok_bind, hb', Out.ok_bind]
  obtain ⟨hw, hq⟩ := hd a ha b hb
  rw [hav, hbv] at hq
  cases hX : halfVal x with
  | nan => rw [hX] at hq; exact quiet_back w _ hw hq
  | inf s =>
    cases hY : halfVal y with
    | nan => rw [hX, hY] at hq; exact quiet_back w _ hw hq
    | inf t => rw [hX, hY] at hq; exact quiet_back w _ hw hq
    | fin t q => rw [hX, hY] at hq; exact inf_back w _ _ hw hq
  | fin s p =>
    cases hY : halfVal y with
    | nan => rw [hX, hY] at hq; exact quiet_back w _ hw hq
    | inf t =>
      exfalso
      rw [hX, hY] at h
      rcases h with h | h | ⟨_, h⟩ | h <;> cases h
    | fin t q =>
      have hq0 : q = 0 := by
        rw [hX, hY] at h
        rcases h with h | h | ⟨_, h⟩ | h
        · cases h
        · cases h
        · cases h
        · simp only [FV.toRat?, Option.some.injEq] at h
          cases t <;> simpa using h
      rw [hX, hY] at hq
      simp only [if_pos hq0] at hq
      unfold QuotientIs
      simp only [if_pos hq0]
      by_cases hp : p = 0
      · rw [if_pos hp] at hq
        simp only [if_pos hp]
        exact quiet_back w _ hw hq
      · rw [if_neg hp] at hq
        simp only [if_neg hp]
        exact inf_back w _ _ hw hq

/-- **C105 (zero quotients on x86).** There zero over a number other than zero and a number over an infinity are the zero of the product
of the signs. On other platforms they depend on what a wide shift gives. -/
theorem C105_zero_x86 (fdiv : Nat → Nat → Nat) (hd : FloatDivision fdiv) (x y : Nat) (hx : x < 2 ^ 16) (hy : y < 2 ^ 16)
    (s t : Bool) (p : ℚ) (hX : halfVal x = .fin s p)
    (h : halfVal y = .inf t ∨ (p = 0 ∧ ∃ q, q ≠ 0 ∧ halfVal y = .fin t q)) :
    ∃ r < 2 ^ 16, halfDiv x86 fdiv x y = .ok r ∧ halfVal r = .fin (s != t) 0 := by
  obtain ⟨a, ha, ha', hav, -⟩ := C47_exact x86 x hx
  obtain ⟨b, hb, hb', hbv, -⟩ := C47_exact x86 y hy
  unfold halfDiv
  rw [ha', Out.ok_bind, hb', Out.ok_bind]
  obtain ⟨hw, hq⟩ := hd a ha b hb
  rw [hav, hbv, hX] at hq
  have hz : floatVal (fdiv a b) = .fin (s != t) 0 := by
    rcases h with h | ⟨rfl, q, hq0, h⟩
    · rw [h] at hq; exact hq
    · rw [h] at hq
      simp only [if_neg hq0, zero_div] at hq
      obtain ⟨v, hv, hmin⟩ := hq (by norm_num)
      obtain ⟨z, hz, hz'⟩ := zero_of (s != t)
      have h0 := hmin z hz 0 hz'
      simp only [sub_zero, abs_zero] at h0
      rw [abs_nonpos_iff.1 h0] at hv
      exact hv
  obtain ⟨u, hu, hsgn, hword⟩ := zero_word hw hz
  refine ⟨u * 2 ^ 15, by omega, ?_, ?_⟩
  · rw [hword]
    rcases (by omega : u = 0 ∨ u = 1) with rfl | rfl <;> decide +kernel
  · have := halfVal_eq u 0 0 hu (by norm_num) (by norm_num)
    rw [Nat.zero_mul, Nat.add_zero, Nat.add_zero] at this
    rw [this, if_neg (by norm_num), if_pos rfl, hsgn]
    simp

/-! ## The property is false -/

/-- Seven times the least subnormal half, divided by four, is `1.75·2^-24`, nearest to `2·2^-24`. -/
theorem quarter (W : Wide) (fdiv : Nat → Nat → Nat) (hd : FloatDivision fdiv) : halfDiv W fdiv 0x0007 0x4400 = .ok 0x0001 := by
  have v1 : (halfVal 0x0007).toRat? = some (7 * (2 : ℚ) ^ (-24 : Int)) := by
    have := toRat_sub 0 7 (by norm_num) (by norm_num)
    norm_num [signed] at this ⊢
    exact this
  have v2 : (halfVal 0x4400).toRat? = some 4 := by
    have := toRat_norm 0 17 0 (by norm_num) (by norm_num) (by norm_num) (by norm_num)
    norm_num [signed] at this ⊢
    exact this
  obtain ⟨t, Q, E, g, n, ht, hq, hr, hn, hg, E0, E1, q1, q2, dist, gap⟩ :=
    quotient_word W fdiv hd 0x0007 0x4400 (by norm_num) (by norm_num) _ _ v1 v2 (by positivity) (by norm_num)
  have Q0 : (0 : ℚ) < Q := lt_of_lt_of_le (by positivity) q1
  have ht0 : t = 0 := by
    by_contra h
    have : t = 1 := by omega
    rw [this] at hq
    have h1 : (0 : ℚ) < 7 * (2 : ℚ) ^ (-24 : Int) / 4 := by positivity
    rw [hq] at h1
    simp [signed] at h1
    linarith
  subst ht0
  have hQ : Q = 7 * (2 : ℚ) ^ (-26 : Int) := by
    have : signed 0 Q = Q := by simp [signed]
    rw [← this, ← hq]; norm_num
  have hE : E = -24 := by
    have h1 : (2 : ℚ) ^ E < (2 : ℚ) ^ (-23 : Int) := lt_of_le_of_lt q1 (by rw [hQ]; norm_num)
    have h2 : (2 : ℚ) ^ (-24 : Int) < (2 : ℚ) ^ (E + 1) := lt_of_le_of_lt (by rw [hQ]; norm_num) q2
    have h3 := (zpow_lt_zpow_iff_right₀ (by norm_num : (1 : ℚ) < 2)).1 h1
    have h4 := (zpow_lt_zpow_iff_right₀ (by norm_num : (1 : ℚ) < 2)).1 h2
    omega
  subst hE
  have hg' : g = 103 := by omega
  subst hg'
  have hn2 : n = 0x600000 := by
    rw [hQ] at dist
    obtain ⟨d1, d2⟩ := abs_le.1 dist
    norm_num at d1 d2
    have a1 : (n : ℚ) < ((0x600000 + 1 : ℕ) : ℚ) := by push_cast; linarith
    have a2 : ((0x600000 : ℕ) : ℚ) < ((n + 1 : ℕ) : ℚ) := by push_cast; linarith
    have a3 : n < 0x600000 + 1 := by exact_mod_cast a1
    have a4 : 0x600000 < n + 1 := by exact_mod_cast a2
    omega
  subst hn2
  obtain ⟨r, h1, -, h3⟩ := small W 0 103 0x600000 (by norm_num) (by norm_num) (by norm_num) (by norm_num) (by norm_num)
  rw [hr, h1, h3]
  decide +kernel

/-- **C105 is false** on every platform: `0x0007 / 0x4400`, which is `1.75·2^-24`, is returned as `2^-24` although `2·2^-24` is nearer. And
`60000/0.5`, due to be an infinity, is a NaN. -/
theorem C105_false (W : Wide) (fdiv : Nat → Nat → Nat) (hd : FloatDivision fdiv) : ¬ C105Claim W fdiv ∧
    halfDiv W fdiv 0x0007 0x4400 = .ok 0x0001 ∧
    ∀ w, ∃ r, halfDiv (some w) fdiv 0x7b53 0x3800 = .ok r ∧ halfVal r = .nan := by
  refine ⟨fun h => ?_, quarter W fdiv hd, fun w => ?_⟩
  · obtain ⟨r, -, hr, hq⟩ := h 0x0007 (by norm_num) 0x4400 (by norm_num)
    rw [quarter W fdiv hd] at hr
    obtain rfl : 1 = r := by injection hr
    have f1 := halfVal_eq 0 0 7 (by norm_num) (by norm_num) (by norm_num)
    have f2 := halfVal_eq 0 17 0 (by norm_num) (by norm_num) (by norm_num)
    rw [if_neg (by norm_num), if_pos rfl, show 0 * 2 ^ 15 + 0 * 2 ^ 10 + 7 = 0x0007 by norm_num] at f1
    rw [if_neg (by norm_num), if_neg (by norm_num), show 0 * 2 ^ 15 + 17 * 2 ^ 10 + 0 = 0x4400 by norm_num] at f2
    rw [f1, f2] at hq
    unfold QuotientIs at hq
    simp only at hq
    rw [if_neg (by positivity)] at hq
    unfold NearestHalf at hq
    norm_num at hq
    obtain ⟨v, hv, hmin⟩ := hq
    have v1 := toRat_sub 0 1 (by norm_num) (by norm_num)
    have v2 := toRat_sub 0 2 (by norm_num) (by norm_num)
    norm_num [signed] at v1 v2
    rw [v1] at hv
    have hv' : v = 1 / 16777216 := by injection hv with hv; exact hv.symm
    have := hmin 2 (by norm_num) _ v2
    rw [hv'] at this
    norm_num [abs_of_pos, abs_of_neg] at this
  · have v1 : (halfVal 0x7b53).toRat? = some 60000 := by
      have := toRat_norm 0 30 851 (by norm_num) (by norm_num) (by norm_num) (by norm_num)
      norm_num [signed] at this ⊢
      exact this
    have v2 : (halfVal 0x3800).toRat? = some (1 / 2) := by
      have := toRat_norm 0 14 0 (by norm_num) (by norm_num) (by norm_num) (by norm_num)
      norm_num [signed] at this ⊢
      exact this
    obtain ⟨r, h1, h2⟩ := C105_overflow w fdiv hd 0x7b53 0x3800 (by norm_num) (by norm_num) _ _ v1 v2 (by norm_num)
      (by norm_num [abs_of_pos]) (by norm_num [abs_of_pos])
    rw [if_neg (by norm_num [abs_of_pos])] at h2
    exact ⟨r, h1, h2⟩

/-- The hypotheses are met: one third. -/
example (w : Nat → Nat → Nat) (fdiv : Nat → Nat → Nat) (hd : FloatDivision fdiv) :
    ∃ r < 2 ^ 16, halfDiv (some w) fdiv 0x3c00 0x4200 = .ok r ∧ NearestHalf r (1 / 3) := by
  have v1 : (halfVal 0x3c00).toRat? = some 1 := by
    have := toRat_norm 0 15 0 (by norm_num) (by norm_num) (by norm_num) (by norm_num)
    norm_num [signed] at this ⊢
    exact this
  have v2 : (halfVal 0x4200).toRat? = some 3 := by
    have := toRat_norm 0 16 512 (by norm_num) (by norm_num) (by norm_num) (by norm_num)
    norm_num [signed] at this ⊢
    exact this
  exact C105_nearest_partial w fdiv hd 0x3c00 0x4200 (by norm_num) (by norm_num) _ _ v1 v2 (by norm_num)
    (by norm_num [abs_of_pos]) (Or.inl (by norm_num [abs_of_pos]))

/-- The hypotheses are met: minus zero over an infinity. -/
example (fdiv : Nat → Nat → Nat) (hd : FloatDivision fdiv) :
    ∃ r < 2 ^ 16, halfDiv x86 fdiv 0x8000 0x7c00 = .ok r ∧ halfVal r = .fin true 0 := by
  have v1 := halfVal_eq 1 0 0 (by norm_num) (by norm_num) (by norm_num)
  have v2 := halfVal_eq 0 31 0 (by norm_num) (by norm_num) (by norm_num)
  norm_num at v1 v2
  exact C105_zero_x86 fdiv hd 0x8000 0x7c00 (by norm_num) (by norm_num) true false 0 v1 (Or.inl v2)

end Verif.HalfM
