import Verif.Lemmas.IeeeRel

/-!
# Rounding: multiples of powers of two, nearest numbers
-/

namespace Verif.Ieee

variable {f : Fmt} {x y z : ℚ} {e : Int}

/-- `x` is a multiple of `2 ^ e`. -/
def Mult (e : Int) (x : ℚ) : Prop := ∃ n : Int, x = n * (2 : ℚ) ^ e

theorem Mult.add (hx : Mult e x) (hy : Mult e y) : Mult e (x + y) := by
  obtain ⟨a, rfl⟩ := hx
  obtain ⟨b, rfl⟩ := hy
  exact ⟨a + b, by push_cast; ring⟩

theorem Mult.neg (hx : Mult e x) : Mult e (-x) := by
  obtain ⟨a, rfl⟩ := hx
  exact ⟨-a, by push_cast; ring⟩

theorem Mult.sub (hx : Mult e x) (hy : Mult e y) : Mult e (x - y) := by
  rw [sub_eq_add_neg]
  exact hx.add hy.neg

theorem Mult.mono {e' : Int} (hx : Mult e x) (h : e' ≤ e) : Mult e' x := by
  obtain ⟨a, rfl⟩ := hx
  obtain ⟨n, hn⟩ := zpow_int (e := e - e') (by omega)
  refine ⟨a * n, ?_⟩
  push_cast
  rw [← hn, mul_assoc, zpow_mul]
  congr 2
  ring

theorem mult_zero : Mult e 0 := ⟨0, by simp⟩

theorem mult_repr (h : Repr f x) : Mult (ulpExp f x) x := repr_grid h

/-- A multiple of `2 ^ e` of magnitude at most `2 ^ (e + p)` is a number of the format. -/
theorem repr_of_mult (hx : Mult e x) (he : f.emin ≤ e) (hb : |x| ≤ 2 ^ (e + f.p)) : Repr f x := by
  obtain ⟨n, rfl⟩ := hx
  have hp := f.hp
  have h1 : |(n : ℚ)| ≤ 2 ^ (f.p : Int) := by
    rw [abs_mul, abs_of_pos (two_zpow_pos e), add_comm, ← zpow_mul] at hb
    exact le_of_mul_le_mul_right hb (two_zpow_pos e)
  have h2 : |n| ≤ 2 ^ f.p := by
    rw [← Int.cast_abs, zpow_natCast] at h1
    exact_mod_cast h1
  rcases h2.lt_or_eq with h | h
  · exact ⟨n, e, he, h, rfl⟩
  · have h3 : Repr f ((2 : ℚ) ^ (f.p + e : Int)) := repr_two_zpow (by omega)
    have h4 : (2 : ℚ) ^ (f.p + e : Int) = ((2 ^ f.p : Int) : ℚ) * 2 ^ e := by
      rw [← zpow_mul]; push_cast; rw [zpow_natCast]
    rcases abs_choice n with h5 | h5
    · rw [← h5, h]; rw [h4] at h3; exact h3
    · have : n = -(2 ^ f.p) := by omega
      rw [this]
      have := repr_neg h3
      rw [h4] at this
      push_cast at this ⊢
      rw [neg_mul]; exact this

theorem ulpExp_le {k : Int} (h0 : x ≠ 0) (he : f.emin ≤ k) (hx : |x| < 2 ^ (k + f.p)) : ulpExp f x ≤ k := by
  have hp := f.hp
  have h1 := log_le_self (abs_pos.2 h0)
  have h2 := zpow_lt_zpow.1 (lt_of_le_of_lt h1 hx)
  exact max_le (by omega) he

theorem le_ulpExp {k : Int} (hx : (2 : ℚ) ^ (k + f.p - 1) ≤ |x|) : k ≤ ulpExp f x := by
  have h2 := zpow_lt_zpow.1 (lt_of_le_of_lt hx (lt_log |x|))
  exact le_max_of_le_left (by omega)

/-- The magnitude of a number in units of its last place. -/
theorem abs_lt_ulp (f : Fmt) (x : ℚ) : |x| < 2 ^ (ulpExp f x + f.p) := by
  refine lt_of_lt_of_le (lt_log |x|) (zpow_le_zpow.2 ?_)
  have := le_max_left (Int.log 2 |x| - (f.p - 1)) f.emin
  unfold ulpExp
  omega

theorem ulp_cases (f : Fmt) (hx : x ≠ 0) : ulpExp f x = f.emin ∨ (2 : ℚ) ^ (ulpExp f x + f.p - 1) ≤ |x| := by
  by_cases h : ulpExp f x = f.emin
  · exact .inl h
  · refine .inr (le_trans (zpow_le_zpow.2 ?_) (log_le_self (abs_pos.2 hx)))
    unfold ulpExp at h ⊢
    omega

theorem mult_rnd (f : Fmt) (x : ℚ) : Mult (ulpExp f x) (rnd f x) := ⟨_, rfl⟩

/-- Two multiples of `2 ^ e` that differ by less than `2 ^ e` are equal. -/
theorem mult_eq (hx : Mult e x) (hy : Mult e y) (h : |x - y| < 2 ^ e) : x = y := by
  obtain ⟨a, rfl⟩ := hx
  obtain ⟨b, rfl⟩ := hy
  have hp := two_zpow_pos e
  rw [← sub_mul, abs_mul, abs_of_pos hp] at h
  have h1 : |(a : ℚ) - b| < 1 := by
    by_contra hc
    push Not at hc
    nlinarith
  have h2 : |a - b| < 1 := by exact_mod_cast h1
  rw [Int.abs_lt_one_iff] at h2
  rw [show a = b by omega]

theorem rnd_nearest_mult (hy : Mult (ulpExp f x) y) : |rnd f x - x| ≤ |y - x| := by
  by_contra hc
  push Not at hc
  have h1 := rnd_close f x
  have h2 : y = rnd f x := mult_eq hy (mult_rnd f x) (by
    have := abs_sub_le y x (rnd f x)
    rw [abs_sub_comm x] at this
    linarith)
  rw [h2] at hc
  exact lt_irrefl _ hc

/-- Rounding gives the nearest number of the format. -/
theorem rnd_nearest (hy : Repr f y) : |rnd f x - x| ≤ |y - x| := by
  by_cases hm : ulpExp f x ≤ ulpExp f y
  · exact rnd_nearest_mult ((mult_repr hy).mono hm)
  push Not at hm
  by_cases h0 : x = 0
  · rw [h0, rnd_zero, sub_zero, abs_zero]; exact abs_nonneg _
  have hge := ulpExp_ge f y
  have hp := f.hp
  have hE : ulpExp f x = Int.log 2 |x| - (f.p - 1) := by
    unfold ulpExp at hm ⊢
    omega
  have h1 := log_le_self (abs_pos.2 h0)
  have h2 : |y| < 2 ^ Int.log 2 |x| := lt_of_lt_of_le (abs_lt_ulp f y) (zpow_le_zpow.2 (by omega))
  have h3 : Mult (ulpExp f x) ((2 : ℚ) ^ Int.log 2 |x|) :=
    Mult.mono (e := Int.log 2 |x|) ⟨1, by simp⟩ (by omega)
  have h4 : |x| - |y| ≤ |y - x| := by rw [abs_sub_comm]; exact abs_sub_abs_le_abs_sub x y
  rcases le_total 0 x with hx | hx
  · refine (rnd_nearest_mult h3).trans ?_
    rw [abs_of_nonneg hx] at h1 h2 h4 ⊢
    rw [abs_sub_comm, abs_of_nonneg (by linarith)]
    linarith
  · refine (rnd_nearest_mult h3.neg).trans ?_
    rw [abs_of_nonpos hx] at h1 h2 h4 ⊢
    rw [abs_of_nonneg (by linarith)]
    linarith

/-- Rounding keeps multiples. -/
theorem mult_of_rnd (hx : Mult e x) (he : f.emin ≤ e) : Mult e (rnd f x) := by
  by_cases h : e ≤ ulpExp f x
  · exact (mult_rnd f x).mono h
  · push Not at h
    by_cases h0 : x = 0
    · rw [h0, rnd_zero]; exact mult_zero
    rw [rnd_of_repr (repr_of_mult hx he ((abs_lt_ulp f x).le.trans (zpow_le_zpow.2 (by omega))))]
    exact hx

/-- The error of a sum is a number of the format. -/
theorem repr_sum_err (hx : Repr f x) (hy : Repr f y) (h : Mult (ulpExp f y) x) : Repr f (x + y - rnd f (x + y)) := by
  have hm := h.add (mult_repr hy)
  refine repr_of_mult (hm.sub (mult_of_rnd hm (ulpExp_ge f y))) (ulpExp_ge f y) ?_
  rw [abs_sub_comm]
  refine (rnd_nearest (x := x + y) hx).trans ?_
  rw [show x - (x + y) = -y by ring, abs_neg]
  exact (abs_lt_ulp f y).le

theorem mult_of_le (hx : Repr f x) (hy : y ≠ 0) (h : |y| ≤ |x|) : Mult (ulpExp f y) x :=
  (mult_repr hx).mono (ulpExp_le hy (ulpExp_ge f x) (lt_of_le_of_lt h (abs_lt_ulp f x)))

/-- What the first subtraction of the sums gives is exact. -/
theorem repr_sum_sub (hx : Repr f x) (hy : Repr f y) (h : Mult (ulpExp f y) x) : Repr f (rnd f (x + y) - x) := by
  have hm := h.add (mult_repr hy)
  have he := ulpExp_ge f y
  have hp := f.hp
  by_cases hs : |x + y| ≤ 2 ^ (ulpExp f y + f.p)
  · rw [rnd_of_repr (repr_of_mult hm he hs), add_sub_cancel_left]
    exact hy
  push Not at hs
  have hc := rnd_close f (x + y)
  have hy1 := abs_lt_ulp f y
  have ht : |rnd f (x + y) - x| ≤ |y| + 2 ^ (ulpExp f (x + y)) / 2 := by
    have : rnd f (x + y) - x = (rnd f (x + y) - (x + y)) + y := by ring
    rw [this]
    refine (abs_add_le _ _).trans ?_
    linarith
  have hj : ulpExp f y + 1 ≤ ulpExp f (x + y) := le_ulpExp (by
    refine le_trans (le_of_eq ?_) hs.le
    congr 1; ring)
  have hms := (mult_rnd f (x + y))
  rcases hj.eq_or_lt with hj | hj
  · refine repr_of_mult ((hms.mono (by omega)).sub h) he (ht.trans ?_)
    have hy2 : |y| ≤ 2 ^ (ulpExp f y + f.p) - 2 ^ ulpExp f y := by
      obtain ⟨n, hn⟩ := mult_repr hy
      have hpos := two_zpow_pos (ulpExp f y)
      have e1 : |y| = (|n| : Int) * 2 ^ ulpExp f y := by
        conv_lhs => rw [hn]
        rw [abs_mul, abs_of_pos hpos, Int.cast_abs]
      rw [e1, add_comm, ← zpow_mul] at hy1 ⊢
      have h2 := lt_of_mul_lt_mul_right hy1 hpos.le
      rw [zpow_natCast] at h2 ⊢
      have h3 : |n| + 1 ≤ 2 ^ f.p := by exact_mod_cast h2
      have h4 : ((|n| : Int) : ℚ) + 1 ≤ 2 ^ f.p := by exact_mod_cast h3
      nlinarith
    rw [← hj, zpow_add₀ (by norm_num)]
    rw [zpow_one]
    linarith
  · have two : ∀ k : Int, (2 : ℚ) ^ (k + 1) = 2 * 2 ^ k := fun k => by rw [zpow_add₀ (by norm_num), zpow_one, mul_comm]
    have h0 : x + y ≠ 0 := by
      intro h0
      rw [h0, abs_zero] at hs
      exact absurd hs (not_lt.2 (two_zpow_pos _).le)
    have hn : (2 : ℚ) ^ (ulpExp f (x + y) + f.p - 1) ≤ |x + y| := (ulp_cases f h0).resolve_left (by omega)
    have hy2 : |y| ≤ 2 ^ (ulpExp f (x + y) - 2 + f.p) := hy1.le.trans (zpow_le_zpow.2 (by omega))
    have e1 : (2 : ℚ) ^ (ulpExp f (x + y) + f.p - 1) = 2 * 2 ^ (ulpExp f (x + y) - 2 + f.p) := by
      rw [← two]; congr 1; ring
    have hx1 : (2 : ℚ) ^ (ulpExp f (x + y) - 1 + f.p - 1) ≤ |x| := by
      have := abs_add_le x y
      rw [show ulpExp f (x + y) - 1 + f.p - 1 = ulpExp f (x + y) - 2 + f.p by ring]
      linarith
    refine repr_of_mult (e := ulpExp f (x + y) - 1) ((hms.mono (by omega)).sub ((mult_repr hx).mono (le_ulpExp hx1))) (by omega) (ht.trans ?_)
    have e2 : (2 : ℚ) ^ (ulpExp f (x + y) - 1 + f.p) = 2 * 2 ^ (ulpExp f (x + y) - 2 + f.p) := by
      rw [← two]; congr 1; ring
    have e3 : (2 : ℚ) ^ ulpExp f (x + y) = 2 * 2 ^ (ulpExp f (x + y) - 1) := by
      rw [← two]; congr 1; ring
    have e4 : (2 : ℚ) ^ (ulpExp f (x + y) - 1) ≤ 2 ^ (ulpExp f (x + y) - 2 + f.p) := zpow_le_zpow.2 (by omega)
    rw [e2, e3]
    linarith

end Verif.Ieee
