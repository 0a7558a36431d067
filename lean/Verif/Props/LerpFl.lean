import Verif.Props.Utility
import Verif.Lemmas.FloatSolve
import Verif.Model.LerpFp

/-!
# C162: linear interpolation in floating point
-/

namespace Verif.ScalarM

open Verif.ScalarS Verif.Ieee Verif.Num Verif.Blas

variable {fl : ℚ → ℚ} {R : ℚ → Prop} {a b t t' : ℚ}

/-- The first formula. -/
def mix (fl : ℚ → ℚ) (t a b : ℚ) : ℚ := fl (fl (t * b) + fl (fl (1 - t) * a))

/-- The second formula. -/
def step (fl : ℚ → ℚ) (t a b : ℚ) : ℚ := fl (a + fl (t * fl (b - a)))

theorem lerp_mix (h : (t ≤ 0 ∧ b ≥ 0) ∨ (a ≥ 0 ∧ b ≤ 0)) : lerp fl t a b = mix fl t a b := by
  unfold lerp
  rw [if_pos h]
  rfl

/-- The second formula with its limits, for an ascending interval. -/
theorem lerp_up (h : ¬((t ≤ 0 ∧ b ≥ 0) ∨ (a ≥ 0 ∧ b ≤ 0))) (hab : a < b) :
    lerp fl t a b = if t = 1 then b else if t > 1 then max b (step fl t a b) else min b (step fl t a b) := by
  unfold lerp
  rw [if_neg h]
  simp only [max2_eq, min2_eq]
  split
  · rfl
  · by_cases ht : t > 1 <;> simp [ht, hab, step]

/-- The same for a descending interval. -/
theorem lerp_down (h : ¬((t ≤ 0 ∧ b ≥ 0) ∨ (a ≥ 0 ∧ b ≤ 0))) (hab : b ≤ a) :
    lerp fl t a b = if t = 1 then b else if t > 1 then min b (step fl t a b) else max b (step fl t a b) := by
  unfold lerp
  rw [if_neg h]
  simp only [max2_eq, min2_eq]
  split
  · rfl
  · by_cases ht : t > 1 <;> simp [ht, not_lt.2 hab, step]

theorem fl_nonneg (hfl : IsRounding fl R) {x : ℚ} (h : 0 ≤ x) : 0 ≤ fl x := by
  have := hfl.mono 0 x h
  rwa [hfl.fix 0 hfl.zero] at this

theorem fl_nonpos (hfl : IsRounding fl R) {x : ℚ} (h : x ≤ 0) : fl x ≤ 0 := by
  have := hfl.mono x 0 h
  rwa [hfl.fix 0 hfl.zero] at this

theorem step_mono (hfl : IsRounding fl R) (hab : a ≤ b) (h : t ≤ t') : step fl t a b ≤ step fl t' a b := by
  have := fl_nonneg hfl (by linarith : 0 ≤ b - a)
  exact hfl.mono _ _ (by linarith [hfl.mono _ _ (mul_le_mul_of_nonneg_right h this)])

theorem step_anti (hfl : IsRounding fl R) (hab : b ≤ a) (h : t ≤ t') : step fl t' a b ≤ step fl t a b := by
  have := fl_nonpos hfl (by linarith : b - a ≤ 0)
  exact hfl.mono _ _ (by linarith [hfl.mono _ _ (mul_le_mul_of_nonpos_right h this)])

theorem step_zero (hfl : IsRounding fl R) (ha : R a) : step fl 0 a b = a := by
  unfold step
  rw [zero_mul, hfl.fix 0 hfl.zero, add_zero, hfl.fix a ha]

theorem mix_zero (hfl : IsRounding fl R) (ha : R a) : mix fl 0 a b = a := by
  unfold mix
  rw [zero_mul, hfl.fix 0 hfl.zero, sub_zero, hfl.fix 1 hfl.one, one_mul, hfl.fix a ha, zero_add, hfl.fix a ha]

theorem mix_mono (hfl : IsRounding fl R) (ha : a ≤ 0) (hb : 0 ≤ b) (h : t ≤ t') : mix fl t a b ≤ mix fl t' a b := by
  have h1 := hfl.mono _ _ (mul_le_mul_of_nonneg_right h hb)
  have h2 := hfl.mono _ _ (mul_le_mul_of_nonpos_right (hfl.mono _ _ (by linarith : 1 - t' ≤ 1 - t)) ha)
  exact hfl.mono _ _ (by linarith)

theorem mix_anti (hfl : IsRounding fl R) (ha : 0 ≤ a) (hb : b ≤ 0) (h : t ≤ t') : mix fl t' a b ≤ mix fl t a b := by
  have h1 := hfl.mono _ _ (mul_le_mul_of_nonpos_right h hb)
  have h2 := hfl.mono _ _ (mul_le_mul_of_nonneg_right (hfl.mono _ _ (by linarith : 1 - t' ≤ 1 - t)) ha)
  exact hfl.mono _ _ (by linarith)

/-- The second formula with its limits keeps the order. -/
theorem up_mono {x x' : ℚ} (hx : x ≤ x') (h : t ≤ t') :
    (if t = 1 then b else if t > 1 then max b x else min b x) ≤ if t' = 1 then b else if t' > 1 then max b x' else min b x' := by
  have lo : ∀ s x : ℚ, s < 1 → (if s = 1 then b else if s > 1 then max b x else min b x) = min b x := fun s x hs => by
    rw [if_neg hs.ne, if_neg (not_lt.2 hs.le)]
  have hi : ∀ s x : ℚ, 1 < s → (if s = 1 then b else if s > 1 then max b x else min b x) = max b x := fun s x hs => by
    rw [if_neg hs.ne', if_pos hs]
  rcases lt_trichotomy t 1 with g | g | g
  · rw [lo t x g]
    rcases lt_trichotomy t' 1 with g' | g' | g'
    · rw [lo t' x' g']; exact min_le_min_left _ hx
    · rw [if_pos g']; exact min_le_left _ _
    · rw [hi t' x' g']; exact (min_le_left _ _).trans (le_max_left _ _)
  · rw [if_pos g]
    rcases lt_trichotomy t' 1 with g' | g' | g'
    · exact absurd h (by linarith)
    · rw [if_pos g']
    · rw [hi t' x' g']; exact le_max_left _ _
  · rw [hi t x g, hi t' x' (by linarith)]
    exact max_le_max_left _ hx

theorem down_anti {x x' : ℚ} (hx : x' ≤ x) (h : t ≤ t') :
    (if t' = 1 then b else if t' > 1 then min b x' else max b x') ≤ if t = 1 then b else if t > 1 then min b x else max b x := by
  have lo : ∀ s x : ℚ, s < 1 → (if s = 1 then b else if s > 1 then min b x else max b x) = max b x := fun s x hs => by
    rw [if_neg hs.ne, if_neg (not_lt.2 hs.le)]
  have hi : ∀ s x : ℚ, 1 < s → (if s = 1 then b else if s > 1 then min b x else max b x) = min b x := fun s x hs => by
    rw [if_neg hs.ne', if_pos hs]
  rcases lt_trichotomy t 1 with g | g | g
  · rw [lo t x g]
    rcases lt_trichotomy t' 1 with g' | g' | g'
    · rw [lo t' x' g']; exact max_le_max_left _ hx
    · rw [if_pos g']; exact le_max_left _ _
    · rw [hi t' x' g']; exact (min_le_left _ _).trans (le_max_left _ _)
  · rw [if_pos g]
    rcases lt_trichotomy t' 1 with g' | g' | g'
    · exact absurd h (by linarith)
    · rw [if_pos g']
    · rw [hi t' x' g']; exact min_le_left _ _
  · rw [hi t x g, hi t' x' (by linarith)]
    exact min_le_min_left _ hx

theorem lerp_self (hfl : IsRounding fl R) (ha : R a) (hc : 0 ≤ t ∨ a ≤ 0) : lerp fl t a a = a := by
  rcases eq_or_ne t 0 with rfl | h0
  · exact (C42_lerp_ends fl R hfl a a ha ha).1
  by_cases h : (t ≤ 0 ∧ a ≥ 0) ∨ (a ≥ 0 ∧ a ≤ 0)
  · have e : a = 0 := by
      rcases h with ⟨h1, h2⟩ | ⟨h1, h2⟩
      · rcases hc with hc | hc
        · exact absurd (le_antisymm h1 hc) h0
        · linarith
      · linarith
    subst e
    rw [lerp_mix h, mix]
    simp [hfl.fix 0 hfl.zero]
  · rw [lerp_down h le_rfl]
    have : step fl t a a = a := by
      unfold step
      rw [sub_self, hfl.fix 0 hfl.zero, mul_zero, hfl.fix 0 hfl.zero, add_zero, hfl.fix a ha]
    rw [this, min_self, max_self]
    simp

/-- C162, partial: `lerp` ascends from `a` to `b` when `a ≤ b` and descends otherwise, for all `t` from 0 on, and for all `t` unless both ends
are positive, in every rounding arithmetic.
Missing: negative `t` with positive ends (`C162_order`), and overflow (`C162_overflow`). -/
theorem C162_order_partial (hfl : IsRounding fl R) (ha : R a) (hb : R b) (h : t ≤ t') (hc : 0 ≤ t ∨ a ≤ 0 ∨ b ≤ 0) :
    (a ≤ b → lerp fl t a b ≤ lerp fl t' a b) ∧ (b ≤ a → lerp fl t' a b ≤ lerp fl t a b) := by
  have h0 := (C42_lerp_ends fl R hfl a b ha hb).1
  rcases lt_trichotomy a b with hab | hab | hab
  · refine ⟨fun _ => ?_, fun h => absurd h (not_le.2 hab)⟩
    have pos : ∀ s : ℚ, 0 < s → ¬((s ≤ 0 ∧ b ≥ 0) ∨ (a ≥ 0 ∧ b ≤ 0)) := fun s hs hh => by
      rcases hh with hh | hh <;> linarith [hh.1, hh.2]
    have ge : ∀ s : ℚ, 0 < s → a ≤ lerp fl s a b := fun s hs => by
      rw [lerp_up (pos s hs) hab]
      have : a ≤ step fl s a b := by
        have := step_mono hfl hab.le hs.le
        rwa [step_zero hfl ha] at this
      split_ifs
      · exact hab.le
      · exact hab.le.trans (le_max_left _ _)
      · exact le_min hab.le this
    by_cases ht : 0 < t
    · rw [lerp_up (pos t ht) hab, lerp_up (pos t' (by linarith)) hab]
      exact up_mono (step_mono hfl hab.le h) h
    push Not at ht
    by_cases hb0 : b < 0
    · have nb : ∀ s : ℚ, ¬((s ≤ 0 ∧ b ≥ 0) ∨ (a ≥ 0 ∧ b ≤ 0)) := fun s hh => by
        rcases hh with hh | hh <;> linarith [hh.1, hh.2]
      rw [lerp_up (nb t) hab, lerp_up (nb t') hab]
      exact up_mono (step_mono hfl hab.le h) h
    push Not at hb0
    have low : ∀ s : ℚ, s ≤ 0 → t ≤ s → lerp fl t a b ≤ lerp fl s a b := fun s hs hts => by
      rw [lerp_mix (.inl ⟨ht, hb0⟩), lerp_mix (.inl ⟨hs, hb0⟩)]
      rcases hc with hc | hc | hc
      · have e1 : t = s := by linarith
        rw [e1]
      · exact mix_mono hfl hc hb0 hts
      · exact mix_mono hfl (by linarith) hb0 hts
    by_cases ht' : t' ≤ 0
    · exact low t' ht' h
    · push Not at ht'
      have := low 0 le_rfl ht
      rw [h0] at this
      exact this.trans (ge t' ht')
  · subst hab
    have hc' : 0 ≤ t ∨ a ≤ 0 := by tauto
    rw [lerp_self hfl ha hc', lerp_self hfl ha (hc'.imp (fun h' => h'.trans h) id)]
    exact ⟨fun _ => le_rfl, fun _ => le_rfl⟩
  · refine ⟨fun h => absurd h (not_le.2 hab), fun _ => ?_⟩
    by_cases h2 : a ≥ 0 ∧ b ≤ 0
    · rw [lerp_mix (.inr h2), lerp_mix (.inr h2)]
      exact mix_anti hfl h2.1 h2.2 h
    · by_cases ha0 : a < 0
      · have nb : ∀ s : ℚ, ¬((s ≤ 0 ∧ b ≥ 0) ∨ (a ≥ 0 ∧ b ≤ 0)) := fun s hh => by
          rcases hh with hh | hh <;> linarith [hh.1, hh.2]
        rw [lerp_down (nb t) hab.le, lerp_down (nb t') hab.le]
        exact down_anti (step_anti hfl hab.le h) h
      · push Not at ha0
        have hb0 : 0 < b := by
          by_contra hh
          exact h2 ⟨ha0, by linarith⟩
        have ht : 0 ≤ t := by
          rcases hc with hc | hc | hc <;> first | exact hc | linarith
        have pos : ∀ s : ℚ, 0 < s → ¬((s ≤ 0 ∧ b ≥ 0) ∨ (a ≥ 0 ∧ b ≤ 0)) := fun s hs hh => by
          rcases hh with hh | hh <;> linarith [hh.1, hh.2]
        rcases ht.eq_or_lt with rfl | ht
        · rw [h0]
          rcases h.eq_or_lt with rfl | h
          · exact h0.le
          · rw [lerp_down (pos t' h) hab.le]
            have : step fl t' a b ≤ a := by
              have := step_anti hfl hab.le h.le
              rwa [step_zero hfl ha] at this
            split_ifs
            · exact hab.le
            · exact (min_le_left _ _).trans hab.le
            · exact max_le hab.le this
        · rw [lerp_down (pos t ht) hab.le, lerp_down (pos t' (by linarith)) hab.le]
          exact down_anti (step_anti hfl hab.le h) h

/-- C162, partial: between equal ends there is only this number. Missing: negative `t` with a positive end (`C162_same`). -/
theorem C162_same_partial (hfl : IsRounding fl R) (ha : R a) (hc : 0 ≤ t ∨ a ≤ 0) : lerp fl t a a = a := lerp_self hfl ha hc

theorem abs_min_le {x e : ℚ} (h : e ≤ b) : |min b x - e| ≤ |x - e| := by
  rcases le_total x b with g | g
  · rw [min_eq_right g]
  · rw [min_eq_left g, abs_of_nonneg (by linarith), abs_of_nonneg (by linarith)]
    linarith

theorem abs_max_le {x e : ℚ} (h : b ≤ e) : |max b x - e| ≤ |x - e| := by
  rcases le_total x b with g | g
  · rw [max_eq_left g, abs_of_nonpos (by linarith), abs_of_nonpos (by linarith)]
    linarith
  · rw [max_eq_right g]

variable {f : Fmt}

theorem step_near (hp : unitRoundoff f ≤ 1 / 2) (ha : Repr f a) (hb : Repr f b) (h0 : 0 ≤ t) (h1 : t ≤ 1) :
    |step (rnd f) t a b - (a + t * (b - a))| ≤ 6 * unitRoundoff f * (|a| + |b|) + 3 * halfTiny f := by
  unfold step
  have u0 := (unit_pos f).le
  have k0 := (tiny_pos f).le
  have e1 := rnd_add_err hb (repr_neg ha)
  rw [← sub_eq_add_neg] at e1
  have hS := abs_sub b a
  have e2 := rnd_err f (t * rnd f (b - a))
  have e3 := rnd_add_err ha (repr_rnd f (t * rnd f (b - a)))
  generalize hD : rnd f (b - a) = D at *
  generalize rnd f (t * D) = P at *
  generalize rnd f (a + P) = x at *
  have a0 := abs_nonneg a
  have b0 := abs_nonneg b
  have d1 : |D| ≤ |b - a| + unitRoundoff f * |b - a| := by
    have := abs_sub_abs_le_abs_sub D (b - a)
    linarith
  have t1 : |t * D| ≤ |D| := by
    rw [abs_mul, abs_of_nonneg h0]
    nlinarith [abs_nonneg D]
  have p1 : |P| ≤ |t * D| + (unitRoundoff f * |t * D| + halfTiny f) := by
    have := abs_sub_abs_le_abs_sub P (t * D)
    linarith
  have x1 : |a + P| ≤ |a| + |P| := abs_add_le _ _
  have q1 : |t * D - t * (b - a)| ≤ unitRoundoff f * |b - a| := by
    rw [← mul_sub, abs_mul, abs_of_nonneg h0]
    nlinarith [abs_nonneg (D - (b - a))]
  have tri : |x - (a + t * (b - a))| ≤ |x - (a + P)| + (|P - t * D| + |t * D - t * (b - a)|) := by
    have e : x - (a + t * (b - a)) = (x - (a + P)) + ((P - t * D) + (t * D - t * (b - a))) := by ring
    rw [e]
    exact (abs_add_le _ _).trans (by linarith [abs_add_le (P - t * D) (t * D - t * (b - a))])
  generalize unitRoundoff f = u at *
  generalize halfTiny f = k at *
  have s1 : |b - a| ≤ |a| + |b| := by linarith
  have s2 : |a| ≤ |a| + |b| := by linarith
  have s0 : 0 ≤ |a| + |b| := by linarith
  generalize |a| + |b| = S at *
  have m1 := mul_le_mul_of_nonneg_left s1 u0
  have m2 := mul_le_mul_of_nonneg_right hp s0
  have m3 : |t * D| ≤ 3 / 2 * S := by linarith
  have m4 := mul_le_mul_of_nonneg_left m3 u0
  have m5 : |a + P| ≤ 13 / 4 * S + k := by linarith
  have m6 := mul_le_mul_of_nonneg_left m5 u0
  have m7 := mul_le_mul_of_nonneg_right hp k0
  have m8 := mul_nonneg u0 s0
  linarith

theorem mix_near (hp : unitRoundoff f ≤ 1 / 2) (he : f.emin ≤ 0) (ht : Repr f t) (ha : Repr f a) (hb : Repr f b) (h0 : 0 ≤ t) (h1 : t ≤ 1) :
    |mix (rnd f) t a b - (a + t * (b - a))| ≤ 6 * unitRoundoff f * (|a| + |b|) + 3 * halfTiny f := by
  unfold mix
  have u0 := (unit_pos f).le
  have k0 := (tiny_pos f).le
  have r1 : Repr f 1 := by simpa using repr_two_zpow (f := f) (e := 0) he
  have e0 := rnd_err f (t * b)
  have e1 := rnd_add_err r1 (repr_neg ht)
  rw [← sub_eq_add_neg, abs_of_nonneg (by linarith : 0 ≤ 1 - t)] at e1
  have e2 := rnd_err f (rnd f (1 - t) * a)
  have e3 := rnd_add_err (repr_rnd f (t * b)) (repr_rnd f (rnd f (1 - t) * a))
  generalize rnd f (t * b) = B at *
  generalize rnd f (1 - t) = q at *
  generalize rnd f (q * a) = C at *
  generalize rnd f (B + C) = x at *
  have a0 := abs_nonneg a
  have b0 := abs_nonneg b
  have tb : |t * b| ≤ |b| := by
    rw [abs_mul, abs_of_nonneg h0]
    nlinarith
  have hB : |B| ≤ |t * b| + (unitRoundoff f * |t * b| + halfTiny f) := by
    have := abs_sub_abs_le_abs_sub B (t * b)
    linarith
  have q1 : |q - (1 - t)| ≤ unitRoundoff f := by nlinarith
  have q2 : |q| ≤ 3 / 2 := by
    have := abs_sub_abs_le_abs_sub q (1 - t)
    rw [abs_of_nonneg (by linarith : 0 ≤ 1 - t)] at this
    linarith
  have qa : |q * a| ≤ 3 / 2 * |a| := by
    rw [abs_mul]
    exact mul_le_mul_of_nonneg_right q2 a0
  have qd : |q * a - (1 - t) * a| ≤ unitRoundoff f * |a| := by
    rw [← sub_mul, abs_mul]
    exact mul_le_mul_of_nonneg_right q1 a0
  have hC : |C| ≤ |q * a| + (unitRoundoff f * |q * a| + halfTiny f) := by
    have := abs_sub_abs_le_abs_sub C (q * a)
    linarith
  have x1 : |B + C| ≤ |B| + |C| := abs_add_le _ _
  have tri : |x - (a + t * (b - a))| ≤ |x - (B + C)| + (|B - t * b| + (|C - q * a| + |q * a - (1 - t) * a|)) := by
    have e : x - (a + t * (b - a)) = (x - (B + C)) + ((B - t * b) + ((C - q * a) + (q * a - (1 - t) * a))) := by ring
    rw [e]
    refine (abs_add_le _ _).trans (add_le_add_right ((abs_add_le _ _).trans (add_le_add_right (abs_add_le _ _) _)) _)
  generalize unitRoundoff f = u at *
  generalize halfTiny f = k at *
  have m1 := mul_le_mul_of_nonneg_left tb u0
  have m2 := mul_le_mul_of_nonneg_right hp b0
  have m3 := mul_le_mul_of_nonneg_left qa u0
  have m4 := mul_le_mul_of_nonneg_right hp a0
  have m5 : |B + C| ≤ 3 / 2 * |b| + 9 / 4 * |a| + 2 * k := by linarith
  have m6 := mul_le_mul_of_nonneg_left m5 u0
  have m7 := mul_le_mul_of_nonneg_right hp k0
  have m8 := mul_nonneg u0 a0
  have m9 := mul_nonneg u0 b0
  linarith

/-- C162, partial: between 0 and 1 the result is within six roundings of the documented one, relative to the ends, in every binary format.
Missing: other `t`, and overflow (`C162_overflow`). -/
theorem C162_near_partial (hp : unitRoundoff f ≤ 1 / 2) (he : f.emin ≤ 0) (ht : Repr f t) (ha : Repr f a) (hb : Repr f b) (h0 : 0 ≤ t)
    (h1 : t ≤ 1) : |lerp (rnd f) t a b - (a + t * (b - a))| ≤ 6 * unitRoundoff f * (|a| + |b|) + 3 * halfTiny f := by
  have nn : 0 ≤ 6 * unitRoundoff f * (|a| + |b|) + 3 * halfTiny f := by
    have := (unit_pos f).le
    have := (tiny_pos f).le
    positivity
  by_cases h : (t ≤ 0 ∧ b ≥ 0) ∨ (a ≥ 0 ∧ b ≤ 0)
  · rw [lerp_mix h]
    exact mix_near hp he ht ha hb h0 h1
  · have hs := step_near hp ha hb h0 h1
    rcases lt_or_ge a b with hab | hab
    · rw [lerp_up h hab]
      split_ifs with g g
      · subst g
        rw [one_mul, add_sub_cancel, sub_self, abs_zero]
        exact nn
      · linarith
      · exact (abs_min_le (by nlinarith)).trans hs
    · rw [lerp_down h hab]
      split_ifs with g g
      · subst g
        rw [one_mul, add_sub_cancel, sub_self, abs_zero]
        exact nn
      · linarith
      · exact (abs_max_le (by nlinarith)).trans hs

/-- **C162** fails below 0: `lerp(-2^-53, 1, 1)` is not 1. -/
theorem C162_same : lerp (rnd binary64) (-(1 / 2 ^ 53)) 1 1 = 1 - 1 / 2 ^ 53 := by decide +kernel

/-- **C162** fails below 0: from 1 to 2 the result can descend, and far from 0 it is off by more than the length of the interval. -/
theorem C162_order :
    lerp (rnd binary64) (-(197 / 2 ^ 54)) 1 2 < lerp (rnd binary64) (-(198 / 2 ^ 54)) 1 2 ∧
    lerp (rnd binary64) (-2 ^ 60) 1 (1 + 1 / 2 ^ 52) = -256 ∧ (1 : ℚ) + -2 ^ 60 * ((1 + 1 / 2 ^ 52) - 1) = -255 := by
  refine ⟨by decide +kernel, by decide +kernel, by decide +kernel⟩

/-- **C162** fails for large ends of opposite signs: when `upper - lower` overflows, `lerp` is `upper` for every `t` between 0 and 1. -/
theorem C162_overflow {t a b : ℚ} (h0 : 0 < t) (h1 : t < 1) (ha : 0 < a) (hb : 0 < b)
    (h : (2 : ℚ) ^ 1024 ≤ rnd binary64 (b + a)) : lerpF (.fin false t) (.fin true a) (.fin false b) = .fin false b := by
  have hs : subF (.fin false b) (.fin true a) = .inf false := by
    unfold subF
    change addF _ _ = _
    simp only [Fp.withSign, Fp.sign, addF, Fp.signed, Bool.not_true, Bool.false_eq_true, if_false]
    rw [if_neg (by linarith), abs_of_pos (by linarith), decide_eq_false (by linarith)]
    unfold toFp
    exact if_pos h
  have hz : (0 : Fp) = .fin false 0 := rfl
  have hx : (.fin true a : Fp) + .fin false t * .inf false = .inf false := by
    have e : (.fin false t : Fp) * .inf false = .inf false := by
      change mulF _ _ = _
      simp [mulF, h0.ne']
    rw [e]
    rfl
  unfold lerpF
  rw [hs, hx, hz]
  simp only [nanF, leF, eqF, ltF, minF, maxF, Fp.signed]
  simp [h0, h1, hb, ha, not_lt.2 h1.le, not_lt.2 ha.le, not_lt.2 hb.le, not_lt.2 h0.le]
  linarith

/-- The datum stands for a rational: the finite number itself, or the infinity on its side when it is too large. -/
def Stands (x : Fp) (q : ℚ) : Prop :=
  (∃ s m, x = .fin s m ∧ Fp.signed s m = q) ∨ (x = .inf false ∧ (2 : ℚ) ^ 1024 ≤ q) ∨ (x = .inf true ∧ q ≤ -(2 : ℚ) ^ 1024)

/-- The datum is the finite number `q`. -/
def Is (x : Fp) (q : ℚ) : Prop := ∃ s m, x = .fin s m ∧ Fp.signed s m = q

theorem Stands.is {x : Fp} {q : ℚ} (h : Stands x q) (hq : |q| < (2 : ℚ) ^ 1024) : Is x q := by
  obtain ⟨h1, h2⟩ := abs_lt.1 hq
  rcases h with h | ⟨-, h⟩ | ⟨-, h⟩
  · exact h
  · exact absurd h (not_le.2 h2)
  · exact absurd h (not_le.2 h1)

theorem stands_toFp (s : Bool) (m : ℚ) : Stands (toFp .dbl s m) (rnd binary64 (Fp.signed s m)) := by
  have e : rnd binary64 (Fp.signed s m) = Fp.signed s (rnd binary64 m) := by cases s <;> simp [Fp.signed, rnd_neg]
  rw [e]
  by_cases h : (2 : ℚ) ^ 1024 ≤ rnd binary64 m
  · rw [show toFp .dbl s m = .inf s from if_pos h]
    cases s
    · exact .inr (.inl ⟨rfl, h⟩)
    · exact .inr (.inr ⟨rfl, neg_le_neg h⟩)
  · rw [show toFp .dbl s m = .fin s (rnd binary64 m) from if_neg h]
    exact .inl ⟨s, _, rfl, rfl⟩

theorem Is.add {x y : Fp} {p q : ℚ} (hx : Is x p) (hy : Is y q) : Stands (x + y) (rnd binary64 (p + q)) := by
  obtain ⟨s, a, rfl, rfl⟩ := hx
  obtain ⟨r, b, rfl, rfl⟩ := hy
  change Stands (if Fp.signed s a + Fp.signed r b = 0 then _ else toFp .dbl _ _) _
  split_ifs with h
  · rw [h, rnd_zero]
    exact .inl ⟨_, 0, rfl, by simp [Fp.signed]⟩
  · have := stands_toFp (decide (Fp.signed s a + Fp.signed r b < 0)) |Fp.signed s a + Fp.signed r b|
    have e : Fp.signed (decide (Fp.signed s a + Fp.signed r b < 0)) |Fp.signed s a + Fp.signed r b| = Fp.signed s a + Fp.signed r b := by
      by_cases g : Fp.signed s a + Fp.signed r b < 0
      · rw [decide_eq_true g, abs_of_neg g]; simp [Fp.signed]
      · rw [decide_eq_false g, abs_of_nonneg (not_lt.1 g)]; simp [Fp.signed]
    rwa [e] at this

theorem Is.neg {x : Fp} {p : ℚ} (hx : Is x p) : Is (x.withSign (!x.sign)) (-p) := by
  obtain ⟨s, a, rfl, rfl⟩ := hx
  exact ⟨!s, a, rfl, by cases s <;> simp [Fp.signed]⟩

theorem Is.sub {x y : Fp} {p q : ℚ} (hx : Is x p) (hy : Is y q) : Stands (subF x y) (rnd binary64 (p - q)) := by
  rw [sub_eq_add_neg]
  exact hx.add hy.neg

theorem Is.mul {x y : Fp} {p q : ℚ} (hx : Is x p) (hy : Is y q) : Stands (x * y) (rnd binary64 (p * q)) := by
  obtain ⟨s, a, rfl, rfl⟩ := hx
  obtain ⟨r, b, rfl, rfl⟩ := hy
  have := stands_toFp (s != r) (a * b)
  have e : Fp.signed (s != r) (a * b) = Fp.signed s a * Fp.signed r b := by cases s <;> cases r <;> simp [Fp.signed]
  rw [e] at this
  exact this

theorem Is.nan {x : Fp} {p : ℚ} (hx : Is x p) : nanF x = false := by
  obtain ⟨s, a, rfl, rfl⟩ := hx
  rfl

theorem Is.lt {x y : Fp} {p q : ℚ} (hx : Is x p) (hy : Is y q) : ltF x y = decide (p < q) := by
  obtain ⟨s, a, rfl, rfl⟩ := hx
  obtain ⟨r, b, rfl, rfl⟩ := hy
  rfl

theorem Is.le {x y : Fp} {p q : ℚ} (hx : Is x p) (hy : Is y q) : leF x y = decide (p ≤ q) := by
  unfold leF
  rw [hx.nan, hy.nan, hy.lt hx]
  by_cases h : p ≤ q <;> simp [h, not_lt.2, not_le.1]

theorem Is.eq {x y : Fp} {p q : ℚ} (hx : Is x p) (hy : Is y q) : eqF x y = decide (p = q) := by
  unfold eqF
  rw [hx.le hy, hy.le hx]
  rcases lt_trichotomy p q with h | h | h
  · simp [h.le, h.ne, h]
  · simp [h]
  · simp [h.le, h.ne', h]

theorem is_one : Is (.fin false 1) 1 := ⟨false, 1, rfl, rfl⟩
theorem is_zero : Is 0 0 := ⟨false, 0, rfl, rfl⟩

/-- The smaller of a number and something not far below. -/
theorem Is.min {x y : Fp} {b q : ℚ} (hb : |b| < (2 : ℚ) ^ 1024) (hx : Is x b) (hy : Stands y q) (hq : -(2 : ℚ) ^ 1024 < q) :
    Is (minF x y) (min b q) := by
  rcases hy with hy | ⟨rfl, h⟩ | ⟨-, h⟩
  · unfold minF
    rw [hx.lt hy]
    by_cases g : b < q
    · simpa [g, min_eq_left g.le] using hx
    · rw [decide_eq_false g, min_eq_right (not_lt.1 g)]
      exact hy
  · rw [min_eq_left ((le_abs_self b).trans (hb.le.trans h))]
    obtain ⟨s, m, rfl, rfl⟩ := hx
    exact ⟨s, m, rfl, rfl⟩
  · exact absurd h (not_le.2 hq)

theorem Is.max {x y : Fp} {b q : ℚ} (hb : |b| < (2 : ℚ) ^ 1024) (hx : Is x b) (hy : Stands y q) (hq : q < (2 : ℚ) ^ 1024) :
    Is (maxF x y) (max b q) := by
  rcases hy with hy | ⟨-, h⟩ | ⟨rfl, h⟩
  · unfold maxF
    rw [Is.lt hy hx]
    by_cases g : q < b
    · simpa [g, max_eq_left g.le] using hx
    · rw [decide_eq_false g, max_eq_right (not_lt.1 g)]
      exact hy
  · exact absurd h (not_le.2 hq)
  · rw [max_eq_left (h.trans (neg_le.1 ((neg_le_abs b).trans hb.le)))]
    obtain ⟨s, m, rfl, rfl⟩ := hx
    exact ⟨s, m, rfl, rfl⟩

/-- Nothing not above a double overflows. -/
theorem rnd_small {x y M : ℚ} (hy : Repr binary64 y) (hM : |y| < M) (h : |x| ≤ |y|) : |rnd binary64 x| < M := by
  rw [rnd_abs]
  refine (rnd_mono h).trans_lt ?_
  rwa [← rnd_abs, rnd_of_repr hy]

/-- **C162**, on doubles: between 0 and 1, unless `upper - lower` overflows across zero, the result is finite and is the one of the model in the
rationals, so the theorems on `lerp` hold for it. -/
theorem C162_finite {T A B : Fp} (hT : Is T t) (hA : Is A a) (hB : Is B b) (rt : Repr binary64 t) (ra : Repr binary64 a) (rb : Repr binary64 b)
    (ma : |a| < (2 : ℚ) ^ 1024) (mb : |b| < (2 : ℚ) ^ 1024) (h0 : 0 ≤ t) (h1 : t ≤ 1)
    (h : a < 0 → 0 < b → rnd binary64 (b - a) < (2 : ℚ) ^ 1024) : ∃ s m, lerpF T A B = .fin s m ∧ Fp.signed s m = lerp (rnd binary64) t a b := by
  change Is _ _
  have hM : (1 : ℚ) < 2 ^ 1024 := one_lt_pow₀ (by norm_num) (by norm_num)
  have hfl := isRounding_rnd binary64 (by decide)
  have r1 : Repr binary64 1 := hfl.one
  unfold lerpF
  rw [hT.nan, hA.nan, hB.nan, hT.le is_zero, is_zero.le hB, is_zero.le hA, hB.le is_zero, hT.eq is_one]
  generalize hMM : (2 : ℚ) ^ 1024 = M at *
  have tm : ∀ x : ℚ, |t * x| ≤ |x| := fun x => by
    rw [abs_mul, abs_of_nonneg h0]
    nlinarith [abs_nonneg x]
  by_cases c : (t ≤ 0 ∧ b ≥ 0) ∨ (a ≥ 0 ∧ b ≤ 0)
  · have c' : (decide (t ≤ 0) && decide (0 ≤ b) || decide (0 ≤ a) && decide (b ≤ 0)) = true := by simpa using c
    rw [lerp_mix c]
    simp only [Bool.or_self, Bool.false_eq_true, if_false, c', if_true]
    subst hMM
    have q1 := rnd_small rb mb (tm b)
    have s1 := (hT.mul hB).is q1
    have q2 : |rnd binary64 (1 - t)| ≤ 1 := by
      rw [abs_of_nonneg (rnd_nonneg (by linarith))]
      exact (rnd_mono (by linarith)).trans (rnd_of_repr r1).le
    have s2 := (is_one.sub hT).is (q2.trans_lt hM)
    have q3 : |rnd binary64 (1 - t) * a| ≤ |a| := by
      rw [abs_mul]
      exact mul_le_of_le_one_left (abs_nonneg a) q2
    have s3 := (s2.mul hA).is (rnd_small ra ma q3)
    refine (s1.add s3).is ?_
    have a3 : |rnd binary64 (rnd binary64 (1 - t) * a)| ≤ |a| := by
      rw [rnd_abs]
      refine (rnd_mono q3).trans ?_
      rw [← rnd_abs, rnd_of_repr ra]
    have a1 : |rnd binary64 (t * b)| ≤ |b| := by
      rw [rnd_abs]
      refine (rnd_mono (tm b)).trans ?_
      rw [← rnd_abs, rnd_of_repr rb]
    have q0 : 0 ≤ rnd binary64 (1 - t) := rnd_nonneg (by linarith)
    rcases c with c | c
    · have : t = 0 := le_antisymm c.1 h0
      subst this
      rw [zero_mul, rnd_zero, zero_add, sub_zero, rnd_of_repr r1, one_mul, rnd_of_repr ra, rnd_of_repr ra]
      exact ma
    · have p1 : rnd binary64 (t * b) ≤ 0 := fl_nonpos hfl (mul_nonpos_of_nonneg_of_nonpos h0 c.2)
      have p2 : 0 ≤ rnd binary64 (rnd binary64 (1 - t) * a) := rnd_nonneg (mul_nonneg q0 c.1)
      rw [abs_of_nonpos p1] at a1
      rw [abs_of_nonneg p2] at a3
      rcases le_total |a| |b| with g | g
      · exact rnd_small rb mb (abs_le.2 ⟨by linarith, by linarith⟩)
      · exact rnd_small ra ma (abs_le.2 ⟨by linarith, by linarith⟩)
  · have c' : (decide (t ≤ 0) && decide (0 ≤ b) || decide (0 ≤ a) && decide (b ≤ 0)) = false := by
      rw [← Bool.not_eq_true]
      simpa using c
    simp only [Bool.or_self, Bool.false_eq_true, if_false, c']
    have hd : |rnd binary64 (b - a)| < M := by
      rcases lt_or_ge a 0 with g | g
      · rcases lt_or_ge 0 b with g' | g'
        · rw [abs_of_nonneg (rnd_nonneg (by linarith))]
          exact h g g'
        · rcases le_total |a| |b| with k | k <;> rw [abs_of_neg g, abs_of_nonpos g'] at k
          · exact rnd_small rb mb (by rw [abs_of_nonpos g']; exact abs_le.2 ⟨by linarith, by linarith⟩)
          · exact rnd_small ra ma (by rw [abs_of_neg g]; exact abs_le.2 ⟨by linarith, by linarith⟩)
      · have g' : 0 < b := by
          by_contra g'
          exact c (.inr ⟨g, by linarith⟩)
        rcases le_total |a| |b| with k | k <;> rw [abs_of_nonneg g, abs_of_pos g'] at k
        · exact rnd_small rb mb (by rw [abs_of_pos g']; exact abs_le.2 ⟨by linarith, by linarith⟩)
        · exact rnd_small ra ma (by rw [abs_of_nonneg g]; exact abs_le.2 ⟨by linarith, by linarith⟩)
    subst hMM
    have sd := (hB.sub hA).is hd
    have sp := (hT.mul sd).is (rnd_small (repr_rnd _ _) hd (tm _))
    have sx := hA.add sp
    change Stands _ (step (rnd binary64) t a b) at sx
    obtain ⟨ma1, ma2⟩ := abs_lt.1 ma
    have z := step_zero (b := b) hfl ra
    rw [is_one.lt hT, hA.lt hB]
    by_cases ht : t = 1
    · rcases lt_or_ge a b with hab | hab
      · rw [lerp_up c hab]
        simpa [ht] using hB
      · rw [lerp_down c hab]
        simpa [ht] using hB
    have ht1 : ¬1 < t := not_lt.2 h1
    rcases lt_or_ge a b with hab | hab
    · rw [lerp_up c hab]
      simp only [ht, ht1, hab, decide_false, decide_true, Bool.false_eq_true, if_false, gt_iff_lt, Bool.false_beq, Bool.not_true]
      have lo := step_mono hfl hab.le h0
      rw [z] at lo
      exact hB.min mb sx (ma1.trans_le lo)
    · rw [lerp_down c hab]
      simp only [ht, ht1, not_lt.2 hab, decide_false, Bool.false_eq_true, if_false, gt_iff_lt, beq_self_eq_true, if_true]
      have hi := step_anti hfl hab h0
      rw [z] at hi
      exact hB.max mb sx (hi.trans_lt ma2)

/-- The whole property: `lerp` keeps the order, and between equal ends there is only this number. -/
def C162Claim : Prop :=
  (∀ t t' a b : ℚ, Repr binary64 t → Repr binary64 t' → Repr binary64 a → Repr binary64 b → a ≤ b → t ≤ t' →
    lerp (rnd binary64) t a b ≤ lerp (rnd binary64) t' a b) ∧
  ∀ t a : ℚ, Repr binary64 t → Repr binary64 a → lerp (rnd binary64) t a a = a

theorem C162_false : ¬C162Claim := by
  rintro ⟨-, h⟩
  have h1 : Repr binary64 (-(1 / 2 ^ 53)) := ⟨-1, -53, by decide, by decide, by norm_num⟩
  have := h _ 1 h1 ⟨1, 0, by decide, by decide, by norm_num⟩
  rw [C162_same] at this
  norm_num at this

/-- The hypotheses are met: a descending interval in the second formula, ends of opposite signs in the first, and an overflow. -/
example : ¬(((1 / 2 : ℚ) ≤ 0 ∧ (1 : ℚ) ≥ 0) ∨ ((3 : ℚ) ≥ 0 ∧ (1 : ℚ) ≤ 0)) ∧ lerp (rnd binary64) (1 / 2) 3 1 = 2 ∧
    lerp (rnd binary64) (1 / 4) 3 (-1) = 2 ∧ (2 : ℚ) ^ 1024 ≤ rnd binary64 (2 ^ 1023 + 2 ^ 1023) ∧
    lerpF (.fin false (1 / 2)) (.fin true (2 ^ 1023)) (.fin false (2 ^ 1023)) = .fin false (2 ^ 1023) ∧
    lerpF (.fin false (1 / 2)) (.fin true 1) (.fin false 2) = .fin false (1 / 2) ∧ Is (.fin true 1) (-1) ∧
    rnd binary64 (2 - -1) < (2 : ℚ) ^ 1024 := by
  refine ⟨by norm_num, by decide +kernel, by decide +kernel, by decide +kernel, by decide +kernel, by decide +kernel, ⟨_, _, rfl, rfl⟩,
    by decide +kernel⟩

end Verif.ScalarM
