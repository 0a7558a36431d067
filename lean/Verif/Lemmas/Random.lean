import Verif.Model.Mt19937
import Verif.Lemmas.Scalar

/-!
# Lemmas on random numbers
-/

namespace Verif.Ieee

variable {f : Fmt}

/-- A product with a factor at most the number before one rounds strictly below (away from the subnormal numbers). -/
theorem rnd_mul_lt {D u : ℚ} (hD : Repr f D) (hn : (2 : ℚ) ^ (f.emin + f.p) ≤ D) (h0 : 0 ≤ u)
    (hu : u ≤ 1 - 1 / 2 ^ f.p) : rnd f (D * u) < D := by
  have hp := f.hp
  have hDpos : 0 < D := lt_of_lt_of_le (two_zpow_pos _) hn
  have hk0 := log_le_self hDpos
  have hk1 := lt_log D
  obtain ⟨k, hk⟩ : ∃ k, Int.log 2 D = k := ⟨_, rfl⟩
  rw [hk] at hk0 hk1
  have hkge : f.emin + f.p ≤ k := by
    have := zpow_lt_zpow.mp (lt_of_le_of_lt hn hk1)
    omega
  have hE : ulpExp f D = k - (f.p - 1) := by
    rw [ulpExp_of_pos hDpos, hk]
    omega
  have hx : D * u ≤ D - D * (1 / 2 ^ f.p) := by nlinarith
  have hhalf : (2 : ℚ) ^ (k - f.p) = 2 ^ k * (1 / 2 ^ f.p) := by
    rw [zpow_sub₀ (by norm_num), zpow_natCast]; field_simp
  have hgap : (2 : ℚ) ^ (k - f.p) ≤ D * (1 / 2 ^ f.p) := by
    rw [hhalf]
    exact mul_le_mul_of_nonneg_right hk0 (by positivity)
  have hulp : (2 : ℚ) ^ (k - (f.p - 1) : Int) = 2 * 2 ^ (k - (f.p : Int)) := by
    have : (k - ((f.p : Int) - 1)) = (k - f.p) + 1 := by ring
    rw [this, zpow_add₀ (by norm_num)]
    ring
  rcases hk0.eq_or_lt with heq | hlt
  · -- a power of two: the number before it is half as far
    have hpred : Repr f (D - 2 ^ (k - (f.p : Int))) := by
      refine ⟨2 ^ f.p - 1, k - f.p, by omega, ?_, ?_⟩
      · have h1 : (1 : Int) ≤ 2 ^ f.p := one_le_pow₀ (by norm_num)
        rw [abs_of_nonneg (by omega)]
        omega
      · push_cast
        rw [← heq, sub_mul, one_mul, ← zpow_natCast, zpow_mul]
        congr 2
        ring
    have := rnd_le_of_repr hpred (x := D * u) (by linarith)
    have h2 := two_zpow_pos (k - (f.p : Int))
    linarith
  · obtain ⟨n, hnD⟩ := repr_grid hD
    rw [hE] at hnD
    have hEpos := two_zpow_pos (k - ((f.p : Int) - 1))
    -- the number before it is one unit lower and not below the power of two
    obtain ⟨t, ht⟩ := zpow_int (e := f.p - 1) (by omega)
    have hkt : (2 : ℚ) ^ k = t * 2 ^ (k - ((f.p : Int) - 1)) := by
      rw [← ht, zpow_mul]; congr 1; ring
    have htn : t < n := by
      rw [hkt, hnD] at hlt
      have := lt_of_mul_lt_mul_right hlt hEpos.le
      exact_mod_cast this
    have hpredk : (2 : ℚ) ^ k ≤ ((n - 1 : Int) : ℚ) * 2 ^ (k - ((f.p : Int) - 1)) := by
      rw [hkt]
      have : (t : ℚ) ≤ ((n - 1 : Int) : ℚ) := by exact_mod_cast (by omega : t ≤ n - 1)
      exact mul_le_mul_of_nonneg_right this hEpos.le
    have hpredD : ((n - 1 : Int) : ℚ) * 2 ^ (k - ((f.p : Int) - 1)) = D - 2 ^ (k - ((f.p : Int) - 1)) := by
      rw [hnD]; push_cast; ring
    have hstrict : (2 : ℚ) ^ (k - (f.p : Int)) < D * (1 / 2 ^ f.p) := by
      rw [hhalf]
      exact mul_lt_mul_of_pos_right hlt (by positivity)
    have hxlt : D * u < D - 2 ^ (k - (f.p : Int)) := by linarith
    rcases le_or_gt (D * u) (((n - 1 : Int) : ℚ) * 2 ^ (k - ((f.p : Int) - 1))) with hle | hgt
    · have hr : Repr f (((n - 1 : Int) : ℚ) * 2 ^ (k - ((f.p : Int) - 1))) := by
        refine ⟨n - 1, _, by omega, ?_, rfl⟩
        have ht0 : 0 ≤ t := by
          have : (0 : ℚ) < t := by rw [← ht]; exact two_zpow_pos _
          exact_mod_cast this.le
        have h2 : D < 2 ^ (f.p : Int) * 2 ^ (k - ((f.p : Int) - 1)) := by
          rw [zpow_mul, show (f.p : Int) + (k - (f.p - 1)) = k + 1 by ring]
          exact hk1
        rw [hnD] at h2
        have h3 := lt_of_mul_lt_mul_right h2 hEpos.le
        rw [zpow_natCast] at h3
        have h4 : n < 2 ^ f.p := by exact_mod_cast h3
        rw [abs_of_nonneg (by omega)]
        omega
      have := rnd_le_of_repr hr hle
      rw [hpredD] at this
      linarith
    · have hlog : Int.log 2 (D * u) = k := log_eq (by linarith) (by linarith [two_zpow_pos (k - (f.p : Int))])
      have hpos : 0 < D * u := lt_of_le_of_lt (le_trans (two_zpow_pos k).le hpredk) hgt
      have hEx : ulpExp f (D * u) = k - (f.p - 1) := by
        rw [ulpExp_of_pos hpos, hlog]
        omega
      have hr : rne (D * u / 2 ^ (k - ((f.p : Int) - 1))) = n - 1 := by
        apply rne_eq_of_lt_half
        · rw [le_div_iff₀ hEpos]
          exact hgt.le
        · rw [div_lt_iff₀ hEpos]
          have : (((n - 1 : Int) : ℚ) + 1 / 2) * 2 ^ (k - ((f.p : Int) - 1)) = D - 2 ^ (k - (f.p : Int)) := by
            rw [add_mul, hpredD, hulp]; ring
          rw [this]
          exact hxlt
      rw [rnd, hEx, hr, hpredD]
      linarith

/-- The difference of two representable numbers is representable when it is small. -/
theorem repr_sub_small {a b : ℚ} (ha : Repr f a) (hb : Repr f b) (h0 : 0 ≤ b - a)
    (h : b - a < 2 ^ (f.emin + f.p)) : Repr f (b - a) := by
  have key : ∀ {x : ℚ}, Repr f x → ∃ n : Int, x = n * 2 ^ f.emin := by
    rintro x ⟨m, e, he, -, rfl⟩
    obtain ⟨n, hn⟩ := zpow_int (e := e - f.emin) (by omega)
    refine ⟨m * n, ?_⟩
    push_cast
    rw [← hn, mul_assoc, zpow_mul]
    congr 2
    ring
  obtain ⟨m, hm⟩ := key ha
  obtain ⟨n, hn⟩ := key hb
  have e : b - a = ((n - m : Int) : ℚ) * 2 ^ f.emin := by rw [hm, hn]; push_cast; ring
  refine ⟨n - m, f.emin, le_refl _, ?_, e⟩
  have hpos := two_zpow_pos f.emin
  rw [e] at h h0
  rw [add_comm, ← zpow_mul] at h
  have h1 := lt_of_mul_lt_mul_right h hpos.le
  rw [zpow_natCast] at h1
  have h2 : n - m < 2 ^ f.p := by exact_mod_cast h1
  have h3 : (0 : ℚ) ≤ ((n - m : Int) : ℚ) := by
    by_contra hc
    push Not at hc
    have := mul_neg_of_neg_of_pos hc hpos
    linarith
  have h4 : 0 ≤ n - m := by exact_mod_cast h3
  rw [abs_of_nonneg h4]
  exact h2

end Verif.Ieee

namespace Verif.RandomM

open Verif.ScalarM Verif.Ieee

/-- The scaled draw does not exceed the exact width of the interval. -/
theorem scaled_le {f : Fmt} {a b u : ℚ} (ha : Repr f a) (hb : Repr f b) (hab : a ≤ b) (h0 : 0 ≤ u)
    (hu : u ≤ 1 - 1 / 2 ^ f.p) : rnd f (rnd f (b - a) * u) ≤ b - a := by
  have hd : 0 ≤ b - a := by linarith
  have hu1 : u ≤ 1 := by
    have : (0 : ℚ) < 1 / 2 ^ f.p := by positivity
    linarith
  have hD0 : 0 ≤ rnd f (b - a) := rnd_nonneg hd
  have hle : rnd f (rnd f (b - a) * u) ≤ rnd f (b - a) :=
    rnd_le_of_repr (repr_rnd f _) (by nlinarith)
  rcases lt_or_ge (b - a) (2 ^ (f.emin + f.p)) with hs | hs
  · rw [rnd_of_repr (repr_sub_small ha hb hd hs)] at hle ⊢
    exact hle
  · by_contra hc
    push Not at hc
    have hge := le_rnd_of_repr (repr_two_zpow (f := f) (e := f.emin + f.p) (by omega)) hs
    have hlt := rnd_mul_lt (repr_rnd f (b - a)) hge h0 hu
    -- a representable number above the exact width is not below its rounding
    have := rnd_le_of_repr (repr_rnd f (rnd f (b - a) * u)) hc.le
    linarith

theorem trunc_mono {x y : ℚ} (h : x ≤ y) : trunc x ≤ trunc y := by
  unfold trunc
  split <;> split
  · exact Int.ceil_le_ceil h
  · rename_i h1 h2
    have : ⌈x⌉ ≤ 0 := Int.ceil_le.mpr (by push_cast; linarith)
    have : 0 ≤ ⌊y⌋ := Int.floor_nonneg.mpr (by linarith)
    omega
  · linarith
  · exact Int.floor_le_floor h

@[simp] theorem trunc_int (n : Int) : trunc (n : ℚ) = n := by
  unfold trunc
  split <;> simp

theorem trunc_lt {x : ℚ} {n : Int} (hx : 0 ≤ x) (h : x < n) : trunc x < n := by
  rw [trunc_of_nonneg hx]
  exact Int.floor_lt.mpr h

/-- `random` in machine arithmetic stays in its interval. -/
theorem randomVal_mem {f : Fmt} {a b u : ℚ} (ha : Repr f a) (hb : Repr f b) (hab : a ≤ b) (h0 : 0 ≤ u)
    (hu : u ≤ 1 - 1 / 2 ^ f.p) : a ≤ randomVal (rnd f) a b u ∧ randomVal (rnd f) a b u ≤ b := by
  have hs := scaled_le ha hb hab h0 hu
  have h1 : 0 ≤ rnd f (rnd f (b - a) * u) := rnd_nonneg (mul_nonneg (rnd_nonneg (by linarith)) h0)
  exact ⟨le_rnd_of_repr ha (by linarith), rnd_le_of_repr hb (by linarith)⟩

end Verif.RandomM
