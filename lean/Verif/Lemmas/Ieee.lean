import Verif.Model.Ieee
import Mathlib.Tactic.Linarith
import Mathlib.Tactic.FieldSimp
import Mathlib.Tactic.Ring
import Mathlib.Tactic.Positivity
import Mathlib.Tactic.NormNum
import Mathlib.Tactic.Push

/-!
# Rounding to nearest even: odd, monotone, exact on representable numbers
-/

namespace Verif.Ieee

variable {f : Fmt} {x y : ℚ}

theorem two_zpow_pos (e : Int) : (0 : ℚ) < 2 ^ e := zpow_pos (by norm_num) e

theorem zpow_mul (a b : Int) : (2 : ℚ) ^ a * 2 ^ b = 2 ^ (a + b) := (zpow_add₀ (by norm_num) a b).symm

theorem zpow_div (a b : Int) : (2 : ℚ) ^ a / 2 ^ b = 2 ^ (a - b) := (zpow_sub₀ (by norm_num) a b).symm

theorem zpow_int {e : Int} (h : 0 ≤ e) : ∃ n : Int, (2 : ℚ) ^ e = n := by
  refine ⟨2 ^ e.toNat, ?_⟩
  have : e = (e.toNat : Int) := (Int.toNat_of_nonneg h).symm
  conv_lhs => rw [this, zpow_natCast]
  push_cast
  rfl

theorem zpow_le_zpow {a b : Int} : (2 : ℚ) ^ a ≤ 2 ^ b ↔ a ≤ b := zpow_le_zpow_iff_right₀ (by norm_num)

theorem zpow_lt_zpow {a b : Int} : (2 : ℚ) ^ a < 2 ^ b ↔ a < b := zpow_lt_zpow_iff_right₀ (by norm_num)

/-! ## The nearest integer -/

theorem rne_int (n : Int) : rne (n : ℚ) = n := by
  simp [rne]

theorem rne_eq_of_lt_half {n : Int} (h0 : (n : ℚ) ≤ x) (h1 : x < n + 1 / 2) : rne x = n := by
  have hf : ⌊x⌋ = n := by
    rw [Int.floor_eq_iff]
    exact ⟨h0, by linarith⟩
  have : x - ⌊x⌋ < 1 / 2 := by rw [hf]; linarith
  rw [rne, if_pos this, hf]

theorem rne_eq_of_half_lt {n : Int} (h0 : (n : ℚ) - 1 / 2 < x) (h1 : x ≤ n) : rne x = n := by
  by_cases hx : x = n
  · rw [hx, rne_int]
  have hlt : x < n := lt_of_le_of_ne h1 hx
  have hf : ⌊x⌋ = n - 1 := by
    rw [Int.floor_eq_iff]
    push_cast
    exact ⟨by linarith, by linarith⟩
  have e : x - ⌊x⌋ = x - n + 1 := by rw [hf]; push_cast; ring
  rw [rne, e, if_neg (by linarith), if_pos (by linarith), hf]
  ring

theorem rne_close (x : ℚ) : |(rne x : ℚ) - x| ≤ 1 / 2 := by
  have h0 := Int.floor_le x
  have h1 := Int.lt_floor_add_one x
  unfold rne
  split
  · rename_i h
    rw [abs_le]
    exact ⟨by linarith, by linarith⟩
  · rename_i h
    push Not at h
    split
    · rw [abs_le]
      push_cast
      exact ⟨by linarith, by linarith⟩
    · rename_i h'
      push Not at h'
      split <;> rw [abs_le] <;> push_cast <;> exact ⟨by linarith, by linarith⟩

theorem rne_tie {x : ℚ} (h : x - ⌊x⌋ = 1 / 2) : rne x % 2 = 0 := by
  unfold rne
  rw [if_neg (by linarith), if_neg (by linarith)]
  split
  · assumption
  · omega

theorem rne_mono (h : x ≤ y) : rne x ≤ rne y := by
  have hf : ⌊x⌋ ≤ ⌊y⌋ := Int.floor_le_floor h
  have hx : rne x = ⌊x⌋ ∨ rne x = ⌊x⌋ + 1 := by
    unfold rne
    split
    · exact .inl rfl
    · split
      · exact .inr rfl
      · split
        · exact .inl rfl
        · exact .inr rfl
  have hy : rne y = ⌊y⌋ ∨ rne y = ⌊y⌋ + 1 := by
    unfold rne
    split
    · exact .inl rfl
    · split
      · exact .inr rfl
      · split
        · exact .inl rfl
        · exact .inr rfl
  rcases Int.lt_or_eq_of_le hf with hl | he
  · omega
  · have : x - ⌊x⌋ ≤ y - ⌊y⌋ := by rw [he]; linarith
    unfold rne
    rw [he] at this ⊢
    generalize x - (⌊y⌋ : ℚ) = dx at this ⊢
    generalize y - (⌊y⌋ : ℚ) = dy at this ⊢
    generalize ⌊y⌋ = k
    by_cases a : dx < 1 / 2
    · rw [if_pos a]
      split
      · omega
      · split
        · omega
        · split <;> omega
    · rw [if_neg a, if_neg (show ¬dy < 1 / 2 by linarith)]
      by_cases b : 1 / 2 < dx
      · rw [if_pos b, if_pos (show 1 / 2 < dy by linarith)]
      · rw [if_neg b]
        by_cases c : 1 / 2 < dy
        · rw [if_pos c]; split <;> omega
        · rw [if_neg c]

theorem rne_neg (x : ℚ) : rne (-x) = -rne x := by
  by_cases hi : x = ⌊x⌋
  · rw [hi, ← Int.cast_neg, rne_int, rne_int]
  have h0 : (⌊x⌋ : ℚ) < x := lt_of_le_of_ne (Int.floor_le x) (Ne.symm hi)
  have h1 := Int.lt_floor_add_one x
  have hn : ⌊-x⌋ = -⌊x⌋ - 1 := by
    rw [Int.floor_eq_iff]
    push_cast
    exact ⟨by linarith, by linarith⟩
  have e : -x - ⌊-x⌋ = 1 - (x - ⌊x⌋) := by rw [hn]; push_cast; ring
  unfold rne
  rw [e, hn]
  by_cases ha : x - ⌊x⌋ < 1 / 2
  · rw [if_neg (by linarith), if_pos (by linarith), if_pos ha]; ring
  · by_cases hb : 1 / 2 < x - ⌊x⌋
    · rw [if_pos (by linarith), if_neg ha, if_pos hb]; ring
    · rw [if_neg (by linarith), if_neg (by linarith), if_neg ha, if_neg hb]
      split <;> split <;> omega

theorem rne_le_int {n : Int} (h : x ≤ n) : rne x ≤ n := by
  have := rne_mono h
  rwa [rne_int] at this

theorem int_le_rne {n : Int} (h : (n : ℚ) ≤ x) : n ≤ rne x := by
  have := rne_mono h
  rwa [rne_int] at this

/-! ## Rounding in a format -/

theorem ulpExp_neg (f : Fmt) (x : ℚ) : ulpExp f (-x) = ulpExp f x := by simp [ulpExp]

theorem rnd_neg (f : Fmt) (x : ℚ) : rnd f (-x) = -rnd f x := by
  unfold rnd
  rw [ulpExp_neg, neg_div, rne_neg]
  push_cast
  ring

@[simp] theorem rnd_zero (f : Fmt) : rnd f 0 = 0 := by
  have : rne 0 = 0 := by simpa using rne_int 0
  simp [rnd, this]

theorem log_le_self (h : 0 < x) : (2 : ℚ) ^ Int.log 2 x ≤ x := by
  simpa using Int.zpow_log_le_self (b := 2) (by norm_num) h

theorem lt_log (x : ℚ) : x < (2 : ℚ) ^ (Int.log 2 x + 1) := by
  simpa using Int.lt_zpow_succ_log_self (b := 2) (by norm_num) x

theorem log_mono (hx : 0 < x) (h : x ≤ y) : Int.log 2 x ≤ Int.log 2 y := Int.log_mono_right hx h

theorem log_eq {x : ℚ} {k : Int} (h0 : (2 : ℚ) ^ k ≤ x) (h1 : x < 2 ^ (k + 1)) : Int.log 2 x = k := by
  have hx : 0 < x := lt_of_lt_of_le (two_zpow_pos k) h0
  have a := log_le_self hx
  have b := lt_log x
  have c : (2 : ℚ) ^ Int.log 2 x < 2 ^ (k + 1) := lt_of_le_of_lt a h1
  have d : (2 : ℚ) ^ k < 2 ^ (Int.log 2 x + 1) := lt_of_le_of_lt h0 b
  rw [zpow_lt_zpow] at c d
  omega

theorem ulpExp_ge (f : Fmt) (x : ℚ) : f.emin ≤ ulpExp f x := le_max_right _ _

theorem ulpExp_of_pos (hx : 0 < x) : ulpExp f x = max (Int.log 2 x - (f.p - 1)) f.emin := by
  rw [ulpExp, abs_of_pos hx]

/-- Representable numbers are integer multiples of the unit in their last place. -/
theorem repr_grid (h : Repr f x) : ∃ n : Int, x = n * (2 : ℚ) ^ ulpExp f x := by
  obtain ⟨m, e, he, hm, hx⟩ := h
  by_cases h0 : x = 0
  · exact ⟨0, by simp [h0]⟩
  have hpos : 0 < |x| := abs_pos.mpr h0
  have hE : ulpExp f x ≤ e := by
    by_contra hlt
    push Not at hlt
    have hk : ulpExp f x = Int.log 2 |x| - (f.p - 1) := by
      unfold ulpExp at hlt ⊢
      omega
    have h1 := log_le_self hpos
    have h2 : |x| = |(m : ℚ)| * 2 ^ e := by
      rw [hx, abs_mul, abs_of_pos (two_zpow_pos e)]
    have h3 : |(m : ℚ)| < 2 ^ (f.p : Int) := by
      rw [← Int.cast_abs, zpow_natCast]
      exact_mod_cast hm
    have h4 : |x| < 2 ^ ((f.p : Int) + e) := by
      rw [h2, ← zpow_mul]
      exact mul_lt_mul_of_pos_right h3 (two_zpow_pos e)
    have h5 := zpow_lt_zpow.mp (lt_of_le_of_lt h1 h4)
    omega
  obtain ⟨n, hn⟩ := zpow_int (e := e - ulpExp f x) (by omega)
  refine ⟨m * n, ?_⟩
  conv_lhs => rw [hx]
  push_cast
  rw [← hn, mul_assoc, zpow_mul]
  congr 2
  ring

theorem rnd_of_repr (h : Repr f x) : rnd f x = x := by
  obtain ⟨n, hn⟩ := repr_grid h
  have hd : x / (2 : ℚ) ^ ulpExp f x = n := by
    rw [div_eq_iff (two_zpow_pos _).ne']
    exact hn
  rw [rnd, hd, rne_int]
  exact hn.symm

theorem repr_neg (h : Repr f x) : Repr f (-x) := by
  obtain ⟨m, e, he, hm, hx⟩ := h
  exact ⟨-m, e, he, by simpa using hm, by rw [hx]; push_cast; ring⟩

theorem repr_zero (f : Fmt) : Repr f 0 := ⟨0, f.emin, le_refl _, by simp, by simp⟩

/-- Powers of two not below the least one are representable. -/
theorem repr_two_zpow {e : Int} (h : f.emin ≤ e) : Repr f ((2 : ℚ) ^ e) :=
  ⟨1, e, h, by rw [abs_one]; exact one_lt_pow₀ (by norm_num) (by have := f.hp; omega), by simp⟩

theorem rnd_nonneg (h : 0 ≤ x) : 0 ≤ rnd f x := by
  unfold rnd
  have : (0 : Int) ≤ rne (x / (2 : ℚ) ^ ulpExp f x) := int_le_rne (by
    have := two_zpow_pos (ulpExp f x)
    push_cast
    positivity)
  have h2 : (0 : ℚ) ≤ (rne (x / (2 : ℚ) ^ ulpExp f x) : ℚ) := by exact_mod_cast this
  exact mul_nonneg h2 (two_zpow_pos _).le

theorem rnd_le_two_zpow (hx : 0 < x) {k : Int} (hk : x ≤ 2 ^ k) (hE : ulpExp f x ≤ k) : rnd f x ≤ 2 ^ k := by
  obtain ⟨n, hn⟩ := zpow_int (e := k - ulpExp f x) (by omega)
  have h1 : x / 2 ^ ulpExp f x ≤ n := by
    rw [← hn, ← zpow_div]
    exact div_le_div_of_nonneg_right hk (two_zpow_pos _).le
  have h2 := rne_le_int h1
  have h3 : ((rne (x / 2 ^ ulpExp f x) : Int) : ℚ) ≤ n := by exact_mod_cast h2
  unfold rnd
  calc _ ≤ (n : ℚ) * 2 ^ ulpExp f x := mul_le_mul_of_nonneg_right h3 (two_zpow_pos _).le
    _ = 2 ^ k := by rw [← hn, zpow_mul]; congr 1; ring

theorem two_zpow_le_rnd {k : Int} (hk : 2 ^ k ≤ x) (hE : ulpExp f x ≤ k) : 2 ^ k ≤ rnd f x := by
  obtain ⟨n, hn⟩ := zpow_int (e := k - ulpExp f x) (by omega)
  have h1 : (n : ℚ) ≤ x / 2 ^ ulpExp f x := by
    rw [← hn, ← zpow_div]
    exact div_le_div_of_nonneg_right hk (two_zpow_pos _).le
  have h2 := int_le_rne h1
  have h3 : (n : ℚ) ≤ ((rne (x / 2 ^ ulpExp f x) : Int) : ℚ) := by exact_mod_cast h2
  unfold rnd
  calc (2 : ℚ) ^ k = (n : ℚ) * 2 ^ ulpExp f x := by rw [← hn, zpow_mul]; congr 1; ring
    _ ≤ _ := mul_le_mul_of_nonneg_right h3 (two_zpow_pos _).le

theorem rnd_mono_pos (hx : 0 < x) (h : x ≤ y) : rnd f x ≤ rnd f y := by
  have hy : 0 < y := lt_of_lt_of_le hx h
  have hlog := log_mono hx h
  have hp := f.hp
  by_cases hE : ulpExp f x = ulpExp f y
  · unfold rnd
    rw [hE]
    have h1 : x / 2 ^ ulpExp f y ≤ y / 2 ^ ulpExp f y := div_le_div_of_nonneg_right h (two_zpow_pos _).le
    have h2 : ((rne (x / 2 ^ ulpExp f y) : Int) : ℚ) ≤ (rne (y / 2 ^ ulpExp f y) : Int) := by
      exact_mod_cast rne_mono h1
    exact mul_le_mul_of_nonneg_right h2 (two_zpow_pos _).le
  · have ex := ulpExp_of_pos (f := f) hx
    have ey := ulpExp_of_pos (f := f) hy
    have hk : ulpExp f y ≤ Int.log 2 y := by omega
    have hxk : x ≤ 2 ^ Int.log 2 y := by
      have h1 := lt_log x
      have h2 : (2 : ℚ) ^ (Int.log 2 x + 1) ≤ 2 ^ Int.log 2 y := zpow_le_zpow.mpr (by omega)
      linarith
    exact le_trans (rnd_le_two_zpow hx hxk (by omega)) (two_zpow_le_rnd (log_le_self hy) hk)

theorem rnd_mono (h : x ≤ y) : rnd f x ≤ rnd f y := by
  rcases lt_trichotomy x 0 with hx | hx | hx
  · rcases le_or_gt 0 y with hy | hy
    · have h1 : rnd f x ≤ 0 := by
        have := rnd_nonneg (f := f) (x := -x) (by linarith)
        rw [rnd_neg] at this
        linarith
      exact le_trans h1 (rnd_nonneg hy)
    · have := rnd_mono_pos (f := f) (x := -y) (y := -x) (by linarith) (by linarith)
      rw [rnd_neg, rnd_neg] at this
      linarith
  · rw [hx, rnd_zero]
    exact rnd_nonneg (by linarith)
  · exact rnd_mono_pos hx h

/-- Rounding does not cross a representable number. -/
theorem rnd_le_of_repr (hy : Repr f y) (h : x ≤ y) : rnd f x ≤ y := by
  have := rnd_mono (f := f) h
  rwa [rnd_of_repr hy] at this

theorem le_rnd_of_repr (hx : Repr f x) (h : x ≤ y) : x ≤ rnd f y := by
  have := rnd_mono (f := f) h
  rwa [rnd_of_repr hx] at this

/-- The result of rounding is representable. -/
theorem repr_rnd (f : Fmt) (x : ℚ) : Repr f (rnd f x) := by
  have key : ∀ x : ℚ, 0 < x → Repr f (rnd f x) := by
    intro x hx
    have hp := f.hp
    have hE := ulpExp_of_pos (f := f) hx
    have hk : Int.log 2 x + 1 ≤ ulpExp f x + f.p := by omega
    have hub : x ≤ 2 ^ (ulpExp f x + f.p) :=
      le_trans (lt_log x).le (zpow_le_zpow.mpr hk)
    have h1 : rnd f x ≤ 2 ^ (ulpExp f x + (f.p : Int)) := rnd_le_two_zpow hx hub (by omega)
    rcases h1.lt_or_eq with hlt | heq
    · refine ⟨rne (x / 2 ^ ulpExp f x), ulpExp f x, ulpExp_ge f x, ?_, rfl⟩
      have h0 : (0 : ℚ) ≤ rnd f x := rnd_nonneg hx.le
      have h2 : ((rne (x / 2 ^ ulpExp f x) : Int) : ℚ) < 2 ^ (f.p : Int) := by
        unfold rnd at hlt
        rw [add_comm, ← zpow_mul] at hlt
        exact lt_of_mul_lt_mul_right hlt (two_zpow_pos _).le
      have h3 : (0 : Int) ≤ rne (x / 2 ^ ulpExp f x) := int_le_rne (by
        have := two_zpow_pos (ulpExp f x)
        push_cast
        positivity)
      rw [abs_of_nonneg h3]
      rw [zpow_natCast] at h2
      exact_mod_cast h2
    · rw [heq]
      exact repr_two_zpow (by have := ulpExp_ge f x; omega)
  rcases lt_trichotomy x 0 with hx | hx | hx
  · have := repr_neg (key (-x) (by linarith))
    rwa [rnd_neg, neg_neg] at this
  · rw [hx, rnd_zero]
    exact repr_zero f
  · exact key x hx

/-- Integers of magnitude at most `2 ^ p` are representable. -/
theorem repr_int {n : Int} (he : f.emin ≤ 0) (hn : |n| ≤ 2 ^ f.p) : Repr f (n : ℚ) := by
  rcases hn.lt_or_eq with h | h
  · exact ⟨n, 0, he, h, by simp⟩
  · have h2 : Repr f ((2 : ℚ) ^ (f.p : Int)) := repr_two_zpow (by omega)
    rcases abs_eq (by positivity : (0 : Int) ≤ 2 ^ f.p) |>.mp h with h3 | h3
    · rw [h3]; rw [zpow_natCast] at h2; push_cast; exact h2
    · rw [h3]; rw [zpow_natCast] at h2; push_cast; exact repr_neg h2

end Verif.Ieee
