import Verif.Spec.Time
import Verif.Lemmas.IeeeRel

/-!
# C58: time formatting
-/

namespace Verif.Time

open Ieee

/-- Rounding with relative error at most `u` from one upwards, and not below one. -/
def Close (u : ℚ) (fl : ℚ → ℚ) : Prop := ∀ x, 1 ≤ x → 1 ≤ fl x ∧ |fl x - x| ≤ u * x

theorem step {u : ℚ} {fl : ℚ → ℚ} (hc : Close u fl) (hu0 : 0 ≤ u) (hu1 : u ≤ 1) {ns d N T : ℚ} {k : Nat} (hd : 0 < d)
    (hN : 0 < N) (hn : d ≤ ns) (h0 : (1 - u) ^ k * T ≤ ns * N) (h1 : ns * N ≤ (1 + u) ^ k * T) :
    1 ≤ fl (ns / d) ∧ (1 - u) ^ (k + 1) * T ≤ fl (ns / d) * (N * d) ∧ fl (ns / d) * (N * d) ≤ (1 + u) ^ (k + 1) * T := by
  rw [pow_succ', pow_succ', mul_assoc (1 - u), mul_assoc (1 + u)]
  generalize (1 - u) ^ k * T = lo at *
  generalize (1 + u) ^ k * T = hi at *
  have hq : 1 ≤ ns / d := by rw [le_div_iff₀ hd]; linarith
  obtain ⟨a, b⟩ := hc _ hq
  rw [abs_le] at b
  have e : ns / d * (N * d) = ns * N := by field_simp
  have hNd : 0 < N * d := by positivity
  refine ⟨a, ?_, ?_⟩
  · have : (1 - u) * (ns / d) * (N * d) ≤ fl (ns / d) * (N * d) := by
      apply mul_le_mul_of_nonneg_right _ hNd.le
      linarith [b.1]
    have h2 : (1 - u) * lo ≤ (1 - u) * (ns * N) := mul_le_mul_of_nonneg_left h0 (by linarith)
    calc _ ≤ _ := h2
      _ = (1 - u) * (ns / d) * (N * d) := by rw [mul_assoc, e]
      _ ≤ _ := this
  · have : fl (ns / d) * (N * d) ≤ (1 + u) * (ns / d) * (N * d) := by
      apply mul_le_mul_of_nonneg_right _ hNd.le
      linarith [b.2]
    have h2 : (1 + u) * (ns * N) ≤ (1 + u) * hi := mul_le_mul_of_nonneg_left h1 (by linarith)
    calc _ ≤ _ := this
      _ = (1 + u) * (ns * N) := by rw [mul_assoc, e]
      _ ≤ _ := h2

theorem weak_lo {u T : ℚ} (hu0 : 0 ≤ u) (hu1 : u ≤ 1) (hT : 0 ≤ T) {k : Nat} (hk : k ≤ 8) {x : ℚ} (h : (1 - u) ^ k * T ≤ x) :
    (1 - u) ^ 8 * T ≤ x :=
  le_trans (mul_le_mul_of_nonneg_right (pow_le_pow_of_le_one (by linarith) (by linarith) hk) hT) h

theorem weak_hi {u T : ℚ} (hu0 : 0 ≤ u) (hT : 0 ≤ T) {k : Nat} (hk : k ≤ 8) {x : ℚ} (h : x ≤ (1 + u) ^ k * T) :
    x ≤ (1 + u) ^ 8 * T :=
  le_trans h (mul_le_mul_of_nonneg_right (pow_le_pow_right₀ (by linarith) hk) hT)

set_option exponentiation.threshold 2000 in
/-- **C58 (any rounding).** For every non-negative duration, scale, and rounding of relative error at most `u`: the number times the
unit is the duration up to eight roundings, the number is at least one unless the unit is nanoseconds, and smaller than the next
unit: so the largest suitable unit is used. -/
theorem C58_rounded {u : ℚ} {fl : ℚ → ℚ} (hu0 : 0 ≤ u) (hu1 : u ≤ 1) (hc : Close u fl) (t : ℚ) (scale : Int) (ht : 0 ≤ t)
    (hs : 0 < scale) (h1 : |fl (t * scale) - t * scale| ≤ u * (t * scale)) (hmax : t * scale ≤ 2 ^ 1024) :
    let r := formatTime fl scale t
    (1 - u) ^ 8 * (t * scale) ≤ r.1 * r.2.nanos ∧ r.1 * r.2.nanos ≤ (1 + u) ^ 8 * (t * scale) ∧ (r.2 ≠ .ns → 1 ≤ r.1) ∧
    (∀ v, r.2.next = some v → r.1 * r.2.nanos < v.nanos) := by
  have hT : 0 ≤ t * scale := mul_nonneg ht (by exact_mod_cast hs.le)
  unfold formatTime
  generalize t * (scale : ℚ) = T at *
  rw [abs_le] at h1
  have a0 : (1 - u) ^ 1 * T ≤ fl T * 1 := by linarith [h1.1]
  have b0 : fl T * 1 ≤ (1 + u) ^ 1 * T := by linarith [h1.2]
  generalize fl T = n0 at *
  unfold table
  simp only [loop]
  have fin : ∀ (n : ℚ) (un : Unt) (k : Nat), k ≤ 8 → (1 - u) ^ k * T ≤ n * un.nanos → n * un.nanos ≤ (1 + u) ^ k * T →
      (un ≠ .ns → 1 ≤ n) → (∀ v, un.next = some v → n * un.nanos < v.nanos) →
      (1 - u) ^ 8 * T ≤ n * un.nanos ∧ n * un.nanos ≤ (1 + u) ^ 8 * T ∧ (un ≠ .ns → 1 ≤ n) ∧
      (∀ v, un.next = some v → n * un.nanos < v.nanos) :=
    fun n un k hk h1 h2 h3 h4 => ⟨weak_lo hu0 hu1 hT hk h1, weak_hi hu0 hT hk h2, h3, h4⟩
  by_cases c0 : n0 < 1000
  · rw [if_pos c0]
    exact fin n0 .ns 1 (by norm_num) a0 b0 (fun h => absurd rfl h) (by rintro v ⟨⟩; simp only [Unt.nanos]; linarith)
  rw [if_neg c0]
  obtain ⟨p1, a1, b1⟩ := step hc hu0 hu1 (d := 1000) (by norm_num) (by norm_num) (not_lt.1 c0) a0 b0
  generalize fl (n0 / 1000) = n1 at *
  by_cases c1 : n1 < 1000
  · rw [if_pos c1]
    exact fin n1 .us 2 (by norm_num) (by simp only [Unt.nanos]; norm_num at a1 ⊢; exact a1) (by simp only [Unt.nanos]; norm_num at b1 ⊢; exact b1) (fun _ => p1)
      (by rintro v ⟨⟩; simp only [Unt.nanos]; linarith)
  rw [if_neg c1]
  obtain ⟨p2, a2, b2⟩ := step hc hu0 hu1 (d := 1000) (by norm_num) (by norm_num) (not_lt.1 c1) a1 b1
  generalize fl (n1 / 1000) = n2 at *
  by_cases c2 : n2 < 1000
  · rw [if_pos c2]
    exact fin n2 .ms 3 (by norm_num) (by simp only [Unt.nanos]; norm_num at a2 ⊢; exact a2) (by simp only [Unt.nanos]; norm_num at b2 ⊢; exact b2) (fun _ => p2)
      (by rintro v ⟨⟩; simp only [Unt.nanos]; linarith)
  rw [if_neg c2]
  obtain ⟨p3, a3, b3⟩ := step hc hu0 hu1 (d := 1000) (by norm_num) (by norm_num) (not_lt.1 c2) a2 b2
  generalize fl (n2 / 1000) = n3 at *
  by_cases c3 : n3 < 60
  · rw [if_pos c3]
    exact fin n3 .s 4 (by norm_num) (by simp only [Unt.nanos]; norm_num at a3 ⊢; exact a3) (by simp only [Unt.nanos]; norm_num at b3 ⊢; exact b3) (fun _ => p3)
      (by rintro v ⟨⟩; simp only [Unt.nanos]; linarith)
  rw [if_neg c3]
  obtain ⟨p4, a4, b4⟩ := step hc hu0 hu1 (d := 60) (by norm_num) (by norm_num) (not_lt.1 c3) a3 b3
  generalize fl (n3 / 60) = n4 at *
  by_cases c4 : n4 < 60
  · rw [if_pos c4]
    exact fin n4 .m 5 (by norm_num) (by simp only [Unt.nanos]; norm_num at a4 ⊢; exact a4) (by simp only [Unt.nanos]; norm_num at b4 ⊢; exact b4) (fun _ => p4)
      (by rintro v ⟨⟩; simp only [Unt.nanos]; linarith)
  rw [if_neg c4]
  obtain ⟨p5, a5, b5⟩ := step hc hu0 hu1 (d := 60) (by norm_num) (by norm_num) (not_lt.1 c4) a4 b4
  generalize fl (n4 / 60) = n5 at *
  by_cases c5 : n5 < 24
  · rw [if_pos c5]
    exact fin n5 .h 6 (by norm_num) (by simp only [Unt.nanos]; norm_num at a5 ⊢; exact a5) (by simp only [Unt.nanos]; norm_num at b5 ⊢; exact b5) (fun _ => p5)
      (by rintro v ⟨⟩; simp only [Unt.nanos]; linarith)
  rw [if_neg c5]
  obtain ⟨p6, a6, b6⟩ := step hc hu0 hu1 (d := 24) (by norm_num) (by norm_num) (not_lt.1 c5) a5 b5
  generalize fl (n5 / 24) = n6 at *
  by_cases c6 : n6 < 365
  · rw [if_pos c6]
    exact fin n6 .d 7 (by norm_num) (by simp only [Unt.nanos]; norm_num at a6 ⊢; exact a6) (by simp only [Unt.nanos]; norm_num at b6 ⊢; exact b6) (fun _ => p6)
      (by rintro v ⟨⟩; simp only [Unt.nanos]; linarith)
  rw [if_neg c6]
  obtain ⟨p7, a7, b7⟩ := step hc hu0 hu1 (d := 365) (by norm_num) (by norm_num) (not_lt.1 c6) a6 b6
  generalize fl (n6 / 365) = n7 at *
  have c7 : n7 < 10 ^ 300 := by
    have h2 : (1 + u) ^ 8 * T ≤ 2 ^ 8 * 2 ^ 1024 :=
      mul_le_mul (pow_le_pow_left₀ (by linarith) (by linarith) 8) hmax hT (by positivity)
    have h3 : n7 * 31536000000000000 ≤ 2 ^ 8 * 2 ^ 1024 := by
      refine le_trans ?_ h2
      norm_num at b7 ⊢
      exact b7
    have h4 : (2 : ℚ) ^ 8 * 2 ^ 1024 < 10 ^ 300 * 31536000000000000 := by norm_num
    by_contra hc
    have := not_lt.1 hc
    linarith
  rw [if_pos c7]
  exact fin n7 .y 8 (by norm_num) (by simp only [Unt.nanos]; norm_num at a7 ⊢; exact a7) (by simp only [Unt.nanos]; norm_num at b7 ⊢; exact b7) (fun _ => p7)
      (by rintro v ⟨⟩)

/-- The property, for a given arithmetic. -/
def C58Claim (fl : ℚ → ℚ) : Prop :=
  ∀ (t : ℚ) (scale : Int), 0 ≤ t → 0 < scale → t * scale ≤ 2 ^ 1024 →
    let r := formatTime fl scale t
    r.1 * r.2.nanos = t * scale ∧ (r.2 ≠ .ns → 1 ≤ r.1) ∧ (∀ v, r.2.next = some v → r.1 * r.2.nanos < v.nanos)

/-- **C58 (exact arithmetic).** The product is the duration itself. -/
theorem C58_exact_partial : C58Claim id := by
  intro t scale ht hs hm
  obtain ⟨h1, h2, h3, h4⟩ := C58_rounded (u := 0) (fl := id) (le_refl _) (by norm_num) (fun x hx => ⟨hx, by simp⟩) t scale ht hs
    (by simp) hm
  refine ⟨le_antisymm (by simpa using h2) (by simpa using h1), h3, h4⟩

theorem close_binary64 : Close (2 ^ (-53 : Int)) (rnd binary64) := by
  intro x hx
  have h1 : Repr binary64 1 := by
    have := repr_int (f := binary64) (n := 1) (by decide) (by decide)
    simpa using this
  refine ⟨le_rnd_of_repr h1 hx, ?_⟩
  have := rnd_rel (f := binary64) (x := x) (by
    rw [abs_of_nonneg (by linarith)]
    refine le_trans ?_ hx
    show (2 : ℚ) ^ ((-1074 : Int) + ((53 : Nat) : Int) - 1) ≤ 1
    rw [← zpow_zero (2 : ℚ)]
    exact zpow_le_zpow.mpr (by norm_num))
  rwa [abs_of_nonneg (show (0 : ℚ) ≤ x by linarith)] at this

/-- **C58 (partial, `double`).** In `double` arithmetic, for a duration in the normal range or zero, the product is the duration up to
eight rounding errors; the other two statements hold as they are. Missing: the product is not exact, see `C58_false`. -/
theorem C58_double_partial (t : ℚ) (scale : Int) (ht : 0 ≤ t) (hs : 0 < scale)
    (hn : t = 0 ∨ (2 : ℚ) ^ (-1022 : Int) ≤ t * scale) (hm : t * scale ≤ 2 ^ 1024) :
    let r := formatTime (rnd binary64) scale t
    |r.1 * r.2.nanos - t * scale| ≤ ((1 + 2 ^ (-53 : Int)) ^ 8 - 1) * (t * scale) ∧ (r.2 ≠ .ns → 1 ≤ r.1) ∧
    (∀ v, r.2.next = some v → r.1 * r.2.nanos < v.nanos) := by
  have hT : 0 ≤ t * scale := mul_nonneg ht (by exact_mod_cast hs.le)
  have h1 : |rnd binary64 (t * scale) - t * scale| ≤ 2 ^ (-53 : Int) * (t * scale) := by
    rcases hn with h | h
    · simp [h]
    · have := rnd_rel (f := binary64) (x := t * scale) (by
        rw [abs_of_nonneg hT]
        exact h)
      rwa [abs_of_nonneg hT] at this
  obtain ⟨a, b, c, d⟩ := C58_rounded (by positivity) (by norm_num) close_binary64 t scale ht hs h1 hm
  refine ⟨?_, c, d⟩
  rw [abs_le]
  refine ⟨?_, by linarith⟩
  have h2 : (1 : ℚ) - (1 - 2 ^ (-53 : Int)) ^ 8 ≤ (1 + 2 ^ (-53 : Int)) ^ 8 - 1 := by norm_num
  have h3 := mul_le_mul_of_nonneg_right h2 hT
  linarith

set_option exponentiation.threshold 2000 in
/-- **C58 (disproved for `double`).** 61 seconds come out as a number of minutes whose product with a minute is not 61 seconds. -/
theorem C58_false : ¬ C58Claim (rnd binary64) := by
  intro h
  have := (h 61 1000000000 (by norm_num) (by norm_num) (by norm_num)).1
  revert this
  decide +kernel

/-- Ninety minutes. -/
example : formatTime id 1000000000 5400 = (3 / 2, .h) := by decide +kernel

end Verif.Time
