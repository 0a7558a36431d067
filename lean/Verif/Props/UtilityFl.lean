import Verif.Props.Utility
import Verif.Lemmas.FloatSum
import Mathlib.Analysis.Calculus.Deriv.MeanValue
import Mathlib.Analysis.Calculus.Deriv.Pow

/-!
# C150: smoothStep and map in floating point
-/

namespace Verif.ScalarM

open Verif.ScalarS Verif.Ieee

/-- The documented function, utilityFunctions.hpp 99-100. -/
def perlin (x : ℚ) : ℚ := if x ≤ 0 then 0 else if 1 ≤ x then 1 else 6 * x ^ 5 - 15 * x ^ 4 + 10 * x ^ 3

/-- C150 in a binary format: `smoothStep` stays between 0 and 1, does not descend and is within 128 roundings of the documented function; `map` takes
the ends of an interval to the ends of the other, stays between them and does not descend. -/
def C150Claim (f : Fmt) : Prop :=
  (∀ t t' lo hi s s' : ℚ, Repr f t → Repr f t' → Repr f lo → Repr f hi → lo < hi → t ≤ t' → smoothStep (rnd f) true t lo hi = .ok s →
    smoothStep (rnd f) true t' lo hi = .ok s' → 0 ≤ s ∧ s ≤ 1 ∧ s ≤ s' ∧ |s - perlin ((t - lo) / (hi - lo))| ≤ 128 * unitRoundoff f) ∧
  ∀ v w a b c d : ℚ, Repr f v → Repr f w → Repr f a → Repr f b → Repr f c → Repr f d → a < b → c < d →
    map (rnd f) a a b c d = c ∧ map (rnd f) b a b c d = d ∧ (v ≤ w → map (rnd f) v a b c d ≤ map (rnd f) w a b c d) ∧
    (a ≤ v → v ≤ b → c ≤ map (rnd f) v a b c d ∧ map (rnd f) v a b c d ≤ d)

section
variable {f : Fmt}

/-- One rounding of a number up to `M`, in formats whose smallest numbers are small. -/
theorem rnd_step (h : halfTiny f ≤ unitRoundoff f) {x M : ℚ} (hx : |x| ≤ M) : |rnd f x - x| ≤ unitRoundoff f * (M + 1) := by
  have h1 := rnd_err f x
  have h2 := mul_le_mul_of_nonneg_left hx (unit_pos f).le
  linarith

/-- The polynomial in floating point is within 111 roundings, and not negative. -/
theorem smoothPoly_err (h : halfTiny f ≤ unitRoundoff f) (hu : unitRoundoff f ≤ 1 / 1024) {t : ℚ} (h0 : 0 ≤ t) (h1 : t ≤ 1) :
    |smoothPoly (rnd f) t - (6 * t ^ 5 - 15 * t ^ 4 + 10 * t ^ 3)| ≤ 111 * unitRoundoff f ∧ 0 ≤ smoothPoly (rnd f) t := by
  have hup := unit_pos f
  have b1 : |rnd f (t * 6) - t * 6| ≤ 7 * unitRoundoff f := by
    have := rnd_step (M := 6) h (x := t * 6) (by rw [abs_of_nonneg (by linarith)]; linarith)
    linarith
  obtain ⟨b1l, b1u⟩ := abs_le.1 b1
  have b2 : |rnd f (rnd f (t * 6) - 15) - (t * 6 - 15)| ≤ 24 * unitRoundoff f := by
    have := rnd_step (M := 16) h (x := rnd f (t * 6) - 15) (by rw [abs_le]; constructor <;> linarith)
    obtain ⟨l, r⟩ := abs_le.1 this
    rw [abs_le]; constructor <;> linarith
  unfold smoothPoly
  generalize rnd f (rnd f (t * 6) - 15) = c2 at b2 ⊢
  obtain ⟨b2l, b2u⟩ := abs_le.1 b2
  have m1 : |t * c2 - t * (t * 6 - 15)| ≤ 24 * unitRoundoff f := by
    rw [← mul_sub, abs_mul, abs_of_nonneg h0]
    nlinarith [abs_nonneg (c2 - (t * 6 - 15))]
  obtain ⟨m1l, m1u⟩ := abs_le.1 m1
  have q1 : -(9 : ℚ) - 1 / 1 ≤ t * (t * 6 - 15) := by nlinarith
  have q2 : t * (t * 6 - 15) ≤ 0 := by nlinarith
  have q3 : (1 : ℚ) ≤ t * (t * 6 - 15) + 10 := by nlinarith
  have b3 : |rnd f (t * c2) - t * (t * 6 - 15)| ≤ 41 * unitRoundoff f := by
    have := rnd_step (M := 16) h (x := t * c2) (by rw [abs_le]; constructor <;> linarith)
    obtain ⟨l, r⟩ := abs_le.1 this
    rw [abs_le]; constructor <;> linarith
  generalize rnd f (t * c2) = c3 at b3 ⊢
  obtain ⟨b3l, b3u⟩ := abs_le.1 b3
  have b4 : |rnd f (c3 + 10) - (t * (t * 6 - 15) + 10)| ≤ 53 * unitRoundoff f := by
    have := rnd_step (M := 11) h (x := c3 + 10) (by rw [abs_le]; constructor <;> linarith)
    obtain ⟨l, r⟩ := abs_le.1 this
    rw [abs_le]; constructor <;> linarith
  generalize rnd f (c3 + 10) = c4 at b4 ⊢
  obtain ⟨b4l, b4u⟩ := abs_le.1 b4
  have t2 : t * t ≤ 1 := by nlinarith
  have t20 : 0 ≤ t * t := by positivity
  have a1 : |rnd f (t * t) - t * t| ≤ 2 * unitRoundoff f := by
    have := rnd_step (M := 1) h (x := t * t) (by rw [abs_of_nonneg t20]; exact t2)
    linarith
  have a10 : 0 ≤ rnd f (t * t) := rnd_nonneg t20
  generalize rnd f (t * t) = d1 at a1 a10 ⊢
  have m2 : |d1 * t - t * t * t| ≤ 2 * unitRoundoff f := by
    rw [← sub_mul, abs_mul, abs_of_nonneg h0]
    nlinarith [abs_nonneg (d1 - t * t)]
  obtain ⟨m2l, m2u⟩ := abs_le.1 m2
  have t3 : t * t * t ≤ 1 := by nlinarith
  have t30 : 0 ≤ t * t * t := by positivity
  have d1t : 0 ≤ d1 * t := mul_nonneg a10 h0
  have a2 : |rnd f (d1 * t) - t * t * t| ≤ 5 * unitRoundoff f := by
    have := rnd_step (M := 2) h (x := d1 * t) (by rw [abs_of_nonneg d1t]; linarith)
    obtain ⟨l, r⟩ := abs_le.1 this
    rw [abs_le]; constructor <;> linarith
  have a20 : 0 ≤ rnd f (d1 * t) := rnd_nonneg d1t
  generalize rnd f (d1 * t) = d2 at a2 a20 ⊢
  have c40 : 0 ≤ c4 := by linarith
  have e : d2 * c4 - (6 * t ^ 5 - 15 * t ^ 4 + 10 * t ^ 3) = (d2 - t * t * t) * c4 + t * t * t * (c4 - (t * (t * 6 - 15) + 10)) := by ring
  have m3 : |d2 * c4 - (6 * t ^ 5 - 15 * t ^ 4 + 10 * t ^ 3)| ≤ 108 * unitRoundoff f := by
    rw [e]
    refine (abs_add_le _ _).trans ?_
    rw [abs_mul, abs_mul, abs_of_nonneg c40, abs_of_nonneg t30]
    have x1 : |d2 - t * t * t| * c4 ≤ 5 * unitRoundoff f * 11 := mul_le_mul a2 (by linarith) c40 (by linarith)
    have x2 : t * t * t * |c4 - (t * (t * 6 - 15) + 10)| ≤ 1 * (53 * unitRoundoff f) := mul_le_mul t3 b4 (abs_nonneg _) (by norm_num)
    linarith
  obtain ⟨m3l, m3u⟩ := abs_le.1 m3
  have s1 : 6 * t ^ 5 - 15 * t ^ 4 + 10 * t ^ 3 ≤ 1 := by
    have := smoothPoly_mono h0 h1 le_rfl
    have z1 : smoothPoly id 1 = 1 := by decide +kernel
    rw [z1] at this
    unfold smoothPoly at this
    simp only [id] at this
    linarith
  have hr := rnd_step (M := 2) h (x := d2 * c4) (by rw [abs_of_nonneg (mul_nonneg a20 c40)]; linarith)
  obtain ⟨l, r⟩ := abs_le.1 hr
  refine ⟨?_, rnd_nonneg (mul_nonneg a20 c40)⟩
  rw [abs_le]; constructor <;> linarith

/-- The slope of the polynomial is at most two. -/
theorem poly_lipschitz {a b : ℚ} (ha : 0 ≤ a) (hab : a ≤ b) (hb : b ≤ 1) :
    (6 * b ^ 5 - 15 * b ^ 4 + 10 * b ^ 3) - (6 * a ^ 5 - 15 * a ^ 4 + 10 * a ^ 3) ≤ 2 * (b - a) := by
  have key : MonotoneOn (fun x : ℝ => 2 * x - (6 * x ^ 5 - 15 * x ^ 4 + 10 * x ^ 3)) (Set.Icc 0 1) := by
    have hd : ∀ x : ℝ, HasDerivAt (fun x : ℝ => 2 * x - (6 * x ^ 5 - 15 * x ^ 4 + 10 * x ^ 3)) (2 - 30 * (x * (1 - x)) ^ 2) x := by
      intro x
      have := ((hasDerivAt_id x).const_mul 2).sub ((((hasDerivAt_pow 5 x).const_mul 6).sub ((hasDerivAt_pow 4 x).const_mul 15)).add
        ((hasDerivAt_pow 3 x).const_mul 10))
      refine this.congr_deriv ?_
      norm_num
      ring
    refine monotoneOn_of_deriv_nonneg (convex_Icc 0 1) (fun x _ => (hd x).continuousAt.continuousWithinAt)
      (fun x _ => (hd x).differentiableAt.differentiableWithinAt) fun x hx => ?_
    rw [(hd x).deriv]
    rw [interior_Icc] at hx
    have h1 : x * (1 - x) ≤ 1 / 4 := by nlinarith [sq_nonneg (x - 1 / 2)]
    have h2 : 0 ≤ x * (1 - x) := mul_nonneg hx.1.le (by linarith [hx.2])
    nlinarith
  have h1 := key (a := (a : ℝ)) ⟨by exact_mod_cast ha, by exact_mod_cast hab.trans hb⟩ (b := (b : ℝ)) ⟨by exact_mod_cast ha.trans hab, by exact_mod_cast hb⟩
    (by exact_mod_cast hab)
  dsimp only at h1
  have h2 : (2 * a - (6 * a ^ 5 - 15 * a ^ 4 + 10 * a ^ 3) : ℚ) ≤ 2 * b - (6 * b ^ 5 - 15 * b ^ 4 + 10 * b ^ 3) := by exact_mod_cast h1
  linarith

theorem poly_lipschitz_abs {a b : ℚ} (ha : 0 ≤ a) (ha1 : a ≤ 1) (hb : 0 ≤ b) (hb1 : b ≤ 1) :
    |(6 * b ^ 5 - 15 * b ^ 4 + 10 * b ^ 3) - (6 * a ^ 5 - 15 * a ^ 4 + 10 * a ^ 3)| ≤ 2 * |b - a| := by
  have mono : ∀ {a b : ℚ}, 0 ≤ a → a ≤ b → b ≤ 1 → 6 * a ^ 5 - 15 * a ^ 4 + 10 * a ^ 3 ≤ 6 * b ^ 5 - 15 * b ^ 4 + 10 * b ^ 3 := by
    intro a b h0 h1 h2
    have := smoothPoly_mono h0 h1 h2
    unfold smoothPoly at this
    simp only [id] at this
    linarith
  rcases le_total a b with h | h
  · rw [abs_of_nonneg (by linarith [mono ha h hb1]), abs_of_nonneg (by linarith)]
    exact poly_lipschitz ha h hb1
  · rw [abs_of_nonpos (by linarith [mono hb h ha1]), abs_of_nonpos (by linarith)]
    linarith [poly_lipschitz hb h ha1]

/-- What `smoothStep` does: the quotient is rounded and cut off at the ends. -/
theorem smoothStep_eq (fl : ℚ → ℚ) (asserts : Bool) (t lo hi : ℚ) :
    smoothStep fl asserts t lo hi = .ok (smoothPoly fl (max 0 (min 1 (fl (fl (t - lo) / fl (hi - lo)))))) := by
  unfold smoothStep clamp
  have hd : decide ((0 : ℚ) < 1) = true := by decide +kernel
  simp only [Out.assert, hd, Bool.not_true, Bool.and_false, Bool.false_eq_true, if_false, Out.bind]
  generalize fl (fl (t - lo) / fl (hi - lo)) = q
  by_cases h1 : q < 0
  · rw [if_pos h1, min_eq_right (by linarith), max_eq_left (by linarith)]
  · rw [if_neg h1]
    by_cases h2 : q > 1
    · rw [if_pos h2, min_eq_left (by linarith), max_eq_right (by linarith)]
    · rw [if_neg h2, min_eq_right (by linarith), max_eq_right (by linarith)]

theorem rnd_sub_err {x y : ℚ} (hx : Repr f x) (hy : Repr f y) : |rnd f (x - y) - (x - y)| ≤ unitRoundoff f * |x - y| := by
  have := rnd_add_err hx (repr_neg hy)
  rwa [← sub_eq_add_neg] at this

theorem unit_lt_one (f : Fmt) : unitRoundoff f < 1 := by linarith [unit_le_quarter f]

/-- Differences of two different numbers do not vanish, and differences keep their sign. -/
theorem rnd_sub_pos {x y : ℚ} (hx : Repr f x) (hy : Repr f y) (h : y < x) : 0 < rnd f (x - y) := by
  have h1 := (abs_le.1 (rnd_sub_err hx hy)).1
  rw [abs_of_pos (by linarith : 0 < x - y)] at h1
  nlinarith [unit_lt_one f]

/-- The rounded quotient: not above zero below the interval, not below one above it, within six roundings inside. -/
theorem quot_spec (he : f.emin ≤ 0) (h : halfTiny f ≤ unitRoundoff f) (hu : unitRoundoff f ≤ 1 / 1024) {t lo hi : ℚ} (ht : Repr f t) (hl : Repr f lo)
    (hh : Repr f hi) (hlh : lo < hi) :
    (t ≤ lo → rnd f (rnd f (t - lo) / rnd f (hi - lo)) ≤ 0) ∧ (hi ≤ t → 1 ≤ rnd f (rnd f (t - lo) / rnd f (hi - lo))) ∧
    (lo ≤ t → t ≤ hi → |rnd f (rnd f (t - lo) / rnd f (hi - lo)) - (t - lo) / (hi - lo)| ≤ 6 * unitRoundoff f) := by
  have hd := rnd_sub_pos hh hl hlh
  have hup := unit_pos f
  refine ⟨fun h1 => ?_, fun h1 => ?_, fun h1 h2 => ?_⟩
  · refine rnd_le_of_repr (repr_zero f) (div_nonpos_of_nonpos_of_nonneg ?_ hd.le)
    exact rnd_le_of_repr (repr_zero f) (by linarith)
  · refine le_rnd_of_repr (by simpa using repr_two_zpow (f := f) (e := 0) he) ?_
    rw [le_div_iff₀ hd, one_mul]
    exact rnd_mono (by linarith)
  · have e1 := rnd_sub_err ht hl
    have e2 := rnd_sub_err hh hl
    have hn : 0 ≤ t - lo := by linarith
    have hD : 0 < hi - lo := by linarith
    rw [abs_of_nonneg hn] at e1
    rw [abs_of_pos hD] at e2
    have hND : t - lo ≤ hi - lo := by linarith
    generalize rnd f (t - lo) = n' at e1 ⊢
    generalize rnd f (hi - lo) = d' at e2 hd ⊢
    generalize t - lo = n at e1 hn hND ⊢
    generalize hi - lo = d at e2 hD hND ⊢
    have d1 : d ≤ d' * (1024 / 1023) := by
      have := (abs_le.1 e2).1
      nlinarith
    have hq : |n' / d' - n / d| ≤ 3 * unitRoundoff f := by
      rw [div_sub_div _ _ hd.ne' hD.ne', abs_div, abs_of_pos (mul_pos hd hD), div_le_iff₀ (mul_pos hd hD)]
      have e : n' * d - d' * n = (n' - n) * d - (d' - d) * n := by ring
      rw [e]
      refine (abs_sub _ _).trans ?_
      rw [abs_mul, abs_mul, abs_of_pos hD, abs_of_nonneg hn]
      have x1 : |n' - n| * d ≤ unitRoundoff f * n * d := mul_le_mul_of_nonneg_right e1 hD.le
      have x2 : |d' - d| * n ≤ unitRoundoff f * d * n := mul_le_mul_of_nonneg_right e2 hn
      have x3 : n * d ≤ d * d := mul_le_mul_of_nonneg_right hND hD.le
      have x4 : d * d ≤ d' * (1024 / 1023) * d := mul_le_mul_of_nonneg_right d1 hD.le
      have x5 : 0 < unitRoundoff f * (d' * d) := by positivity
      nlinarith [mul_le_mul_of_nonneg_left (x3.trans x4) hup.le]
    have x0 : 0 ≤ n / d := div_nonneg hn hD.le
    have x1 : n / d ≤ 1 := (div_le_one hD).2 hND
    obtain ⟨l, r⟩ := abs_le.1 hq
    have := rnd_step (M := 2) h (x := n' / d') (by rw [abs_le]; constructor <;> linarith)
    obtain ⟨l', r'⟩ := abs_le.1 this
    rw [abs_le]; constructor <;> linarith

/-- **C150** (partial), `smoothStep` in every format with ten bits and more: it is 0 up to the lower edge, 1 from the upper edge on, never negative,
and within 128 roundings of the documented function. Missing: it may exceed 1 and it may descend (`C150_smooth_false`). -/
theorem C150_smooth_partial (he : f.emin + f.p ≤ 1) (hp : 10 ≤ f.p) (asserts : Bool) (t lo hi : ℚ) (ht : Repr f t) (hl : Repr f lo) (hh : Repr f hi)
    (hlh : lo < hi) :
    ∃ s, smoothStep (rnd f) asserts t lo hi = .ok s ∧ 0 ≤ s ∧ (t ≤ lo → s = 0) ∧ (hi ≤ t → s = 1) ∧
      |s - perlin ((t - lo) / (hi - lo))| ≤ 128 * unitRoundoff f := by
  have h : halfTiny f ≤ unitRoundoff f := by
    unfold halfTiny unitRoundoff
    exact zpow_le_zpow.2 (by omega)
  have hu : unitRoundoff f ≤ 1 / 1024 := by
    have : unitRoundoff f ≤ 2 ^ (-10 : Int) := zpow_le_zpow.2 (by omega)
    norm_num at this ⊢
    exact this
  have he0 : f.emin ≤ 0 := by have := f.hp; omega
  have hup := unit_pos f
  have hD : 0 < hi - lo := by linarith
  have hint : ∀ n : Int, |n| ≤ 15 → rnd f (n : ℚ) = n := fun n hn => rnd_of_repr (repr_int he0 (hn.trans (by
    have : (2 : Int) ^ 10 ≤ 2 ^ f.p := pow_le_pow_right₀ (by norm_num) hp
    linarith)))
  have z0 : smoothPoly (rnd f) 0 = 0 := by
    unfold smoothPoly
    simp
  have z1 : smoothPoly (rnd f) 1 = 1 := by
    have i1 := hint 1 (by norm_num)
    have i6 := hint 6 (by norm_num)
    have i9 := hint (-9) (by norm_num)
    push_cast at i1 i6 i9
    unfold smoothPoly
    norm_num [i1, i6, i9]
  obtain ⟨q1, q2, q3⟩ := quot_spec he0 h hu ht hl hh hlh
  refine ⟨_, smoothStep_eq _ _ _ _ _, ?_, fun h1 => ?_, fun h1 => ?_, ?_⟩
  · exact (smoothPoly_err h hu (le_max_left _ _) (max_le (by norm_num) (min_le_left _ _))).2
  · rw [min_eq_right ((q1 h1).trans (by norm_num)), max_eq_left (q1 h1), z0]
  · rw [min_eq_left (q2 h1), max_eq_right (by norm_num), z1]
  · rcases le_or_gt t lo with h1 | h1
    · rw [min_eq_right ((q1 h1).trans (by norm_num)), max_eq_left (q1 h1), z0]
      unfold perlin
      rw [if_pos (div_nonpos_of_nonpos_of_nonneg (by linarith) hD.le)]
      simp [hup.le]
    · rcases le_or_gt hi t with h2 | h2
      · rw [min_eq_left (q2 h2), max_eq_right (by norm_num), z1]
        have x1 : 1 ≤ (t - lo) / (hi - lo) := by rw [le_div_iff₀ hD]; linarith
        unfold perlin
        rw [if_neg (by linarith), if_pos x1]
        simp [hup.le]
      · have hq0 := q3 h1.le h2.le
        generalize rnd f (rnd f (t - lo) / rnd f (hi - lo)) = q at hq0 ⊢
        have x0 : 0 < (t - lo) / (hi - lo) := div_pos (by linarith) hD
        have x1 : (t - lo) / (hi - lo) < 1 := by rw [div_lt_one hD]; linarith
        unfold perlin
        rw [if_neg (by linarith), if_neg (by linarith)]
        generalize (t - lo) / (hi - lo) = x at hq0 x0 x1 ⊢
        have c0 : 0 ≤ max 0 (min 1 q) := le_max_left _ _
        have c1 : max 0 (min 1 q) ≤ 1 := max_le (by norm_num) (min_le_left _ _)
        have hc : |max 0 (min 1 q) - x| ≤ 6 * unitRoundoff f := by
          obtain ⟨l, r⟩ := abs_le.1 hq0
          rw [abs_le]
          constructor
          · have : min 1 q ≤ max 0 (min 1 q) := le_max_right _ _
            rcases le_total 1 q with hq | hq
            · rw [min_eq_left hq] at this ⊢; linarith
            · rw [min_eq_right hq] at this ⊢; linarith
          · rcases le_total 1 q with hq | hq
            · rw [min_eq_left hq, max_eq_right (by norm_num)]; linarith
            · rw [min_eq_right hq]
              rcases le_total 0 q with h0 | h0
              · rw [max_eq_right h0]; linarith
              · rw [max_eq_left h0]; linarith
        generalize max 0 (min 1 q) = c at c0 c1 hc ⊢
        have p1 := (smoothPoly_err h hu c0 c1).1
        have p2 := poly_lipschitz_abs x0.le x1.le c0 c1
        refine (abs_sub_le _ (6 * c ^ 5 - 15 * c ^ 4 + 10 * c ^ 3) _).trans ?_
        linarith

/-- **C150** (partial), `map` in every format: the start of the first interval goes to the start of the second, and the result does not descend.
Missing: the other end, see `C150_map_false`. -/
theorem C150_map_partial (v w a b c d : ℚ) (ha : Repr f a) (hb : Repr f b) (hc : Repr f c) (hab : a < b) :
    map (rnd f) a a b c d = c ∧ (c ≤ d → v ≤ w → map (rnd f) v a b c d ≤ map (rnd f) w a b c d) ∧
    (d ≤ c → v ≤ w → map (rnd f) w a b c d ≤ map (rnd f) v a b c d) := by
  have hw := rnd_sub_pos hb ha hab
  refine ⟨?_, fun hcd hvw => ?_, fun hcd hvw => ?_⟩
  · unfold map
    simp [rnd_of_repr hc]
  · unfold map
    have h0 : 0 ≤ rnd f (d - c) := rnd_nonneg (by linarith)
    have h1 : rnd f (v - a) ≤ rnd f (w - a) := rnd_mono (by linarith)
    have h2 := rnd_mono (f := f) (mul_le_mul_of_nonneg_right h1 h0)
    have h3 := rnd_mono (f := f) (div_le_div_of_nonneg_right h2 hw.le)
    exact rnd_mono (by linarith)
  · unfold map
    have h0 : rnd f (d - c) ≤ 0 := rnd_le_of_repr (repr_zero f) (by linarith)
    have h1 : rnd f (v - a) ≤ rnd f (w - a) := rnd_mono (by linarith)
    have h2 := rnd_mono (f := f) (mul_le_mul_of_nonpos_right h1 h0)
    have h3 := rnd_mono (f := f) (div_le_div_of_nonneg_right h2 hw.le)
    exact rnd_mono (by linarith)
end

/-- **C150** fails for `smoothStep`: of the last `double` before 1 it is `1 + 6 * 2^-52`, more than its value at 1. -/
theorem C150_smooth_false : smoothStep (rnd binary64) true (1 - 1 / 2 ^ 53) 0 1 = .ok (1 + 6 / 2 ^ 52) ∧ smoothStep (rnd binary64) true 1 0 1 = .ok 1 := by
  decide +kernel

/-- **C150** fails for `map`: the end of `[0, 1]` mapped to `[-1, 2^-60]` goes to 0, and mapped to `[-1, 1 + 3 * 2^-52]` beyond its end. -/
theorem C150_map_false : map (rnd binary64) 1 0 1 (-1) (1 / 2 ^ 60) = 0 ∧ map (rnd binary64) 1 0 1 (-1) (1 + 3 / 2 ^ 52) = 1 + 4 / 2 ^ 52 := by
  decide +kernel

theorem C150_false : ¬ C150Claim binary64 := by
  intro h
  have r1 : Repr binary64 1 := ⟨1, 0, by decide, by decide, by norm_num⟩
  have r0 : Repr binary64 0 := repr_zero _
  have r2 : Repr binary64 (1 - 1 / 2 ^ 53) := ⟨2 ^ 53 - 1, -53, by decide, by decide, by norm_num⟩
  have := (h.1 _ _ _ _ _ _ r2 r1 r0 r1 (by norm_num) (by norm_num) C150_smooth_false.1 C150_smooth_false.2).2.1
  norm_num at this

/-- The partial theorems apply to `double` and `float`. -/
example : ∃ s, smoothStep (rnd binary32) true (1 / 4) 0 1 = .ok s ∧ |s - 53 / 512| ≤ 128 / 2 ^ 24 := by
  have r : ∀ n : Int, |n| ≤ 8 → Repr binary32 (n / 4) := fun n hn => ⟨n, -2, by decide, lt_of_le_of_lt hn (by decide), by norm_num [div_eq_mul_inv]⟩
  have r1 := r 1 (by decide)
  have r4 := r 4 (by decide)
  push_cast at r1 r4
  rw [show (4 : ℚ) / 4 = 1 by norm_num] at r4
  obtain ⟨s, h1, -, -, -, h2⟩ := C150_smooth_partial (f := binary32) (by decide) (by decide) true (1 / 4) 0 1 r1 (repr_zero _) r4 (by norm_num)
  refine ⟨s, h1, ?_⟩
  have e : perlin ((1 / 4 - 0) / (1 - 0)) = 53 / 512 := by unfold perlin; norm_num
  rw [e] at h2
  have u : unitRoundoff binary32 = 1 / 2 ^ 24 := by unfold unitRoundoff binary32; norm_num
  rw [u] at h2
  linarith

end Verif.ScalarM
