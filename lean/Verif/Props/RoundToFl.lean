import Verif.Props.Round
import Verif.Lemmas.FloatSum

/-!
# C158: `roundTo` and `roundUpTo` in floating point
-/

namespace Verif.ScalarM

open Verif.Ieee

/-- The property in full, for positive doubles with a step whose half is a double: `roundTo` gives the double nearest to a nearest
multiple of the step and keeps the order of its arguments, `roundUpTo` gives nothing below its argument and leaves its own results alone. -/
def C158Claim : Prop := ∀ v, Repr binary64 v → Repr binary64 (v / 2) → 0 < v → ∀ x, Repr binary64 x → 0 < x →
  (∃ z, ScalarS.Nearest v x z ∧ roundTo (rnd binary64) x v = rnd binary64 z) ∧
  (∀ y, Repr binary64 y → x ≤ y → roundTo (rnd binary64) x v ≤ roundTo (rnd binary64) y v) ∧
  x ≤ roundUpTo (rnd binary64) x v ∧
  roundUpTo (rnd binary64) (roundUpTo (rnd binary64) x v) v = roundUpTo (rnd binary64) x v

theorem abs'_pos {x : ℚ} (hx : 0 ≤ x) : abs' x = x := by rw [abs'_eq, abs_of_nonneg hx]

/-- The parts of a positive number: `x = k v + r`. -/
theorem fmod_parts {x v : ℚ} (hx : 0 ≤ x) (hv : 0 < v) :
    ∃ k : Int, 0 ≤ k ∧ fmod x v = x - v * k ∧ 0 ≤ fmod x v ∧ fmod x v < v := by
  refine ⟨⌊x / v⌋, Int.floor_nonneg.2 (div_nonneg hx hv.le), ?_, ?_, ?_⟩
  · rw [fmod, trunc_of_nonneg (div_nonneg hx hv.le)]
  · rw [fmod_nonneg_eq hx hv]
    exact mul_nonneg (Int.fract_nonneg _) hv.le
  · rw [fmod_nonneg_eq hx hv]
    have := mul_lt_mul_of_pos_right (Int.fract_lt_one (x / v)) hv
    linarith

theorem mult_mul_int {e : Int} {v : ℚ} (h : Mult e v) (k : Int) : Mult e (v * k) := by
  obtain ⟨n, rfl⟩ := h
  exact ⟨n * k, by push_cast; ring⟩

theorem mult_fmod {e : Int} {x v : ℚ} (hx : Mult e x) (hv : Mult e v) : Mult e (fmod x v) :=
  hx.sub (mult_mul_int hv _)

theorem lt_grid (f : Fmt) {x : ℚ} (hx : 0 < x) : x < 2 ^ (ulpExp f x + f.p) := by
  refine lt_of_lt_of_le (lt_log x) (zpow_le_zpow.2 ?_)
  have := le_max_left (Int.log 2 x - ((f.p : Int) - 1)) f.emin
  rw [ulpExp_of_pos hx]
  omega

/-- The remainder `std::fmod` computes is exact: it is a number of the format. This is why no rounding appears in `fmod`. -/
theorem C158_fmod (f : Fmt) {x v : ℚ} (hx : Repr f x) (hv : Repr f v) (x0 : 0 < x) (v0 : 0 < v) : Repr f (fmod x v) := by
  obtain ⟨k, k0, e, r0, r1⟩ := fmod_parts x0.le v0
  have rx : fmod x v ≤ x := by
    rw [e]
    have : 0 ≤ v * (k : ℚ) := mul_nonneg v0.le (by exact_mod_cast k0)
    linarith
  rcases le_total (ulpExp f x) (ulpExp f v) with h | h
  · refine repr_of_mult (mult_fmod (mult_repr hx) ((mult_repr hv).mono h)) (ulpExp_ge f x) ?_
    rw [abs_of_nonneg r0]
    exact le_trans rx (lt_grid f x0).le
  · refine repr_of_mult (mult_fmod ((mult_repr hx).mono h) (mult_repr hv)) (ulpExp_ge f v) ?_
    rw [abs_of_nonneg r0]
    exact le_trans r1.le (lt_grid f v0).le

/-- Going up a step costs two roundings. -/
theorem up_err (f : Fmt) {x v r M : ℚ} (hx : Repr f x) (hv : Repr f v) (hr : Mult f.emin r) (x0 : 0 < x) (v0 : 0 < v)
    (r1 : r ≤ v) (hM : M = x + v - r) (hMv : v ≤ M) :
    |rnd f (rnd f (x + v) - r) - M| ≤ 4 * unitRoundoff f * M := by
  have a := rnd_add_err hx hv
  have b := rnd_mult_err (f := f) ((mult_emin (repr_rnd f (x + v))).sub hr)
  have u0 : 0 < unitRoundoff f := two_zpow_pos _
  have u1 : unitRoundoff f ≤ 1 / 2 := by
    have : unitRoundoff f ≤ (2 : ℚ) ^ (-1 : Int) := zpow_le_zpow.2 (by have := f.hp; omega)
    norm_num at this ⊢
    exact this
  generalize rnd f (x + v) = s at *
  generalize rnd f (s - r) = z at *
  generalize unitRoundoff f = u at *
  rw [abs_of_pos (by linarith : 0 < x + v)] at a
  have M0 : 0 < M := by linarith
  have a1 : |(s - r) - M| ≤ 2 * u * M := by
    have e1 : (s - r) - M = s - (x + v) := by rw [hM]; ring
    rw [e1]
    have : u * (x + v) ≤ u * (2 * M) := mul_le_mul_of_nonneg_left (by linarith) u0.le
    linarith
  have a2 : |s - r| ≤ M + 2 * u * M := by
    have := abs_add_le ((s - r) - M) M
    rw [sub_add_cancel, abs_of_pos M0] at this
    linarith
  have a3 : u * |s - r| ≤ u * (M + 2 * u * M) := mul_le_mul_of_nonneg_left a2 u0.le
  have a4 : u * (2 * u * M) ≤ u * M := by
    apply mul_le_mul_of_nonneg_left _ u0.le
    have := mul_le_mul_of_nonneg_right u1 M0.le
    linarith
  have a5 := abs_add_le (z - (s - r)) ((s - r) - M)
  rw [sub_add_sub_cancel] at a5
  linarith

/-- C158, partial: `roundTo` is off the nearest multiple by four roundings at most, in the relative sense, and where it rounds down it is
the number nearest to that multiple.
Missing: results rounded up need not be the number nearest to the multiple, and so the order is not kept (`C158_false`). -/
theorem C158_roundTo_partial (f : Fmt) {x v : ℚ} (hx : Repr f x) (hv : Repr f v) (hh : Repr f (v / 2)) (x0 : 0 < x) (v0 : 0 < v) :
    ∃ z, ScalarS.Nearest v x z ∧ |roundTo (rnd f) x v - z| ≤ 4 * unitRoundoff f * z ∧
      (z ≤ x → roundTo (rnd f) x v = rnd f z) := by
  refine ⟨roundTo id x v, ((C41_roundTo_partial x v v0).1).2 (.inl x0.le), ?_⟩
  obtain ⟨k, k0, e, r0, r1⟩ := fmod_parts x0.le v0
  have kq : 0 ≤ v * (k : ℚ) := mul_nonneg v0.le (by exact_mod_cast k0)
  have hm := mult_fmod (mult_emin hx) (mult_emin hv)
  have hs : ∀ w : ℚ, copySign w x = |w| := fun w => by rw [copySign, if_neg (not_lt.2 x0.le), abs'_eq]
  unfold roundTo
  simp only [abs'_pos x0.le, if_neg x0.ne', hs, rnd_of_repr hh, id]
  by_cases hc : fmod x v ≥ v / 2
  · rw [if_pos hc, if_pos hc, abs_of_nonneg (by linarith : 0 ≤ x + v - fmod x v)]
    refine ⟨?_, fun h => by linarith⟩
    have h0 := up_err f hx hv hm x0 v0 r1.le rfl (by linarith : v ≤ x + v - fmod x v)
    refine le_trans ?_ h0
    have := abs_abs_sub_abs_le (rnd f (rnd f (x + v) - fmod x v)) (x + v - fmod x v)
    rwa [abs_of_nonneg (by linarith : 0 ≤ x + v - fmod x v)] at this
  · rw [if_neg hc, if_neg hc]
    have z0 : 0 ≤ x - fmod x v := by rw [e]; linarith
    have hr := rnd_mult_err (f := f) ((mult_emin hx).sub hm)
    have hn := rnd_nonneg (f := f) z0
    rw [abs_of_nonneg z0] at hr ⊢
    rw [abs_of_nonneg hn]
    refine ⟨le_trans hr ?_, fun _ => rfl⟩
    have : 0 ≤ unitRoundoff f * (x - fmod x v) := mul_nonneg (two_zpow_pos _).le z0
    linarith

/-- C158, partial: so is `roundUpTo` off the least multiple not below its argument; multiples are left alone.
Missing: the result may be below its argument (`C158_false`). -/
theorem C158_roundUpTo_partial (f : Fmt) {x v : ℚ} (hx : Repr f x) (hv : Repr f v) (x0 : 0 < x) (v0 : 0 < v) :
    ∃ z, ScalarS.LeastAbove v x z ∧ |roundUpTo (rnd f) x v - z| ≤ 4 * unitRoundoff f * z ∧
      (ScalarS.Mult v x → roundUpTo (rnd f) x v = x) := by
  refine ⟨roundUpTo id x v, ((C41_roundUpTo_partial x v v0).1).2 (.inl x0.le), ?_⟩
  obtain ⟨k, k0, e, r0, r1⟩ := fmod_parts x0.le v0
  have kq : 0 ≤ v * (k : ℚ) := mul_nonneg v0.le (by exact_mod_cast k0)
  have hm := mult_fmod (mult_emin hx) (mult_emin hv)
  unfold roundUpTo
  simp only [id]
  by_cases hc : fmod x v = 0
  · rw [if_pos hc, if_pos hc, sub_self, abs_zero]
    exact ⟨mul_nonneg (mul_nonneg (by norm_num) (two_zpow_pos _).le) x0.le, fun _ => rfl⟩
  · rw [if_neg hc, if_neg hc]
    refine ⟨up_err f hx hv hm x0 v0 r1.le rfl (by linarith), fun h => absurd ((fmod_eq_zero v0).1 h) hc⟩

/-- C158: on a grid of powers of two (whole numbers, quarters) there is no error at all as long as `x + v` keeps within the precision:
the result is a nearest multiple, and the least multiple above. -/
theorem C158_grid (f : Fmt) {x v : ℚ} {e : Int} (he : f.emin < e) (hx : Mult e x) (hv : Mult e v) (x0 : 0 < x) (v0 : 0 < v)
    (hb : x + v ≤ 2 ^ (e + f.p)) :
    ScalarS.Nearest v x (roundTo (rnd f) x v) ∧ ScalarS.LeastAbove v x (roundUpTo (rnd f) x v) := by
  obtain ⟨k, k0, hk, r0, r1⟩ := fmod_parts x0.le v0
  have kq : 0 ≤ v * (k : ℚ) := mul_nonneg v0.le (by exact_mod_cast k0)
  have hm := mult_fmod hx hv
  have hs : rnd f (x + v) = x + v :=
    rnd_of_repr (repr_of_mult (hx.add hv) he.le (by rwa [abs_of_pos (by linarith)]))
  have hu : rnd f (x + v - fmod x v) = x + v - fmod x v :=
    rnd_of_repr (repr_of_mult ((hx.add hv).sub hm) he.le (by rw [abs_of_nonneg (by linarith)]; linarith))
  have hd : rnd f (x - fmod x v) = x - fmod x v :=
    rnd_of_repr (repr_of_mult (hx.sub hm) he.le (by rw [abs_of_nonneg (by linarith)]; linarith))
  have hh : rnd f (v / 2) = v / 2 := by
    refine rnd_of_repr (repr_of_mult (e := e - 1) ?_ (by omega) ?_)
    · obtain ⟨n, rfl⟩ := hv
      exact ⟨n, by rw [zpow_sub₀ (by norm_num), zpow_one]; ring⟩
    · rw [abs_of_pos (by linarith), show e - 1 + (f.p : Int) = e + f.p - 1 by ring, zpow_sub₀ (by norm_num), zpow_one]
      linarith
  have e1 : roundTo (rnd f) x v = roundTo id x v := by
    unfold roundTo
    simp only [abs'_pos x0.le, hs, hu, hd, hh, id]
  have e2 : roundUpTo (rnd f) x v = roundUpTo id x v := by
    unfold roundUpTo
    simp only [hs, hu, id]
  rw [e1, e2]
  exact ⟨((C41_roundTo_partial x v v0).1).2 (.inl x0.le), ((C41_roundUpTo_partial x v v0).1).2 (.inl x0.le)⟩

/-- 37 to the nearest multiple of 8, and up. -/
example : roundTo (rnd binary64) 37 8 = 40 ∧ roundUpTo (rnd binary64) 33 8 = 40 := by decide +kernel

example : ScalarS.Nearest 8 37 (roundTo (rnd binary64) 37 8) :=
  (C158_grid binary64 (e := 0) (by decide) ⟨37, by norm_num⟩ ⟨8, by norm_num⟩ (by norm_num) (by norm_num)
    (by have : (45 : ℚ) ≤ 2 ^ (53 : Int) := by norm_num
        simpa [binary64] using (by linarith : (37 : ℚ) + 8 ≤ 2 ^ (53 : Int)))).1

/-- The double called `0.1`, and so on. -/
def dec (n d : Nat) : ℚ := rnd binary64 (n / d)

/-- `roundTo(0.05, 0.1)` is above `roundTo(0.06, 0.1)`. -/
theorem C158_order : dec 5 100 ≤ dec 6 100 ∧
    roundTo (rnd binary64) (dec 6 100) (dec 1 10) < roundTo (rnd binary64) (dec 5 100) (dec 1 10) := by decide +kernel

/-- Rounding the result again changes it: `roundTo(roundTo(0.05, 0.1), 0.1)` is `0.1`, `roundTo(0.05, 0.1)` is not. -/
theorem C158_twice : roundTo (rnd binary64) (roundTo (rnd binary64) (dec 5 100) (dec 1 10)) (dec 1 10) = dec 1 10 ∧
    roundTo (rnd binary64) (dec 5 100) (dec 1 10) ≠ dec 1 10 := by decide +kernel

/-- `roundUpTo(2, 0.01)` is below 2. -/
theorem C158_below : roundUpTo (rnd binary64) 2 (dec 1 100) < 2 := by decide +kernel

/-- `roundUpTo(0.3, 0.1)` is the double next above 0.3, and rounding that up again gives 0.4. -/
theorem C158_upTwice : roundUpTo (rnd binary64) (dec 3 10) (dec 1 10) = dec 3 10 + 2 ^ (-54 : Int) ∧
    roundUpTo (rnd binary64) (roundUpTo (rnd binary64) (dec 3 10) (dec 1 10)) (dec 1 10) = dec 4 10 := by decide +kernel

/-- With the least double as the step, `v / 2` is rounded to zero and every number is moved up a step, multiple as it is. -/
theorem C158_least {x : ℚ} (hx : Repr binary64 x) (x0 : 0 < x) :
    roundTo (rnd binary64) x (2 ^ (-1074 : Int)) = rnd binary64 (x + 2 ^ (-1074 : Int)) := by
  have h0 : rnd binary64 (2 ^ (-1074 : Int) / 2) = 0 := by decide +kernel
  have hr : fmod x (2 ^ (-1074 : Int)) = 0 := by
    obtain ⟨n, hn⟩ := mult_emin hx
    exact (fmod_eq_zero (two_zpow_pos _)).1 ⟨n, hn⟩
  have hp : (0 : ℚ) < 2 ^ (-1074 : Int) := two_zpow_pos _
  unfold roundTo
  simp only [abs'_pos x0.le, if_neg x0.ne', hr, h0, ge_iff_le, le_refl, if_true, sub_zero]
  rw [rnd_of_repr (repr_rnd _ _), copySign, if_neg (not_lt.2 x0.le), abs'_pos (rnd_nonneg (by linarith))]

/-- C158 fails. -/
theorem C158_false : ¬C158Claim := by
  intro h
  have a := (h (dec 1 100) (repr_rnd _ _) (by
    have : dec 1 100 / 2 = rnd binary64 (1 / 200) := by decide +kernel
    rw [this]; exact repr_rnd _ _) (by decide +kernel) 2 (by
    have : (2 : ℚ) = rnd binary64 2 := by decide +kernel
    rw [this]; exact repr_rnd _ _) (by norm_num)).2.2.1
  exact absurd C158_below (not_lt.2 a)

end Verif.ScalarM
