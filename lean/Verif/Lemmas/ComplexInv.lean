import Verif.Model.ComplexInv
import Verif.Props.ComplexFn

/-! # Lemmas about the complex inverse functions -/

namespace Verif.Cx

theorem copySignZ_false (x y : ℝ) : copySignZ false x y = copySign x y := by
  simp [copySignZ, copySign]

theorem copySignZ_true (x y : ℝ) : copySignZ true x y = -copySign x (-y) := by
  unfold copySignZ copySign
  rcases lt_trichotomy y 0 with h | h | h
  · rw [if_pos (Or.inl h), if_neg (by linarith)]
  · rw [if_pos (Or.inr ⟨h, rfl⟩), if_neg (by linarith)]
  · rw [if_neg, if_pos (by linarith), neg_neg]
    rintro (h' | ⟨h', -⟩) <;> linarith

theorem sqrtZ_false (k : FabsConst) (z : Cx ℝ) : sqrtZ k false z = sqrt k z := by
  unfold sqrtZ sqrt
  simp only [copySignZ_false]

theorem sqrtZ_true (k : FabsConst) (z : Cx ℝ) : sqrtZ k true z = conj (sqrt k (conj z)) := by
  have hf : fabs k (conj z) = fabs k z := by unfold fabs conj; simp only [abs_neg]
  unfold sqrtZ sqrt
  rw [hf]
  simp only [copySignZ_true]
  show _ = conj _
  have e1 : (conj z).re = z.re := rfl
  have e2 : (conj z).im = -z.im := rfl
  simp only [e1, e2]
  split
  · simp [conj]
  · split
    · simp [conj, neg_div]
    · simp [conj, neg_div]

/-- The constants are exact. -/
structure Exact (k : FabsConst) : Prop where
  digits : 0 < k.digits
  root2 : k.root2 = Real.sqrt 2
  onePlusRoot2 : k.onePlusRoot2 = 1 + Real.sqrt 2

theorem Exact.good {k : FabsConst} (h : Exact k) : Good k 0 :=
  ⟨h.digits, by rw [h.root2]; positivity, by rw [h.root2, h.onePlusRoot2]; simp⟩

theorem sqrtZ_spec {k : FabsConst} (hk : Exact k) (nz : Bool) (x y : ℝ) {s : Cx ℝ} (hs : sqrtZ k nz ⟨x, y⟩ = s) :
    s.re ^ 2 - s.im ^ 2 = x ∧ 2 * s.re * s.im = y ∧ 0 ≤ s.re ∧ (s.re = 0 → if nz then s.im ≤ 0 else 0 ≤ s.im) := by
  subst hs
  cases nz
  · rw [sqrtZ_false]
    obtain ⟨a, b, c, d⟩ := sqrt_square hk.good (by norm_num) ⟨x, y⟩
    rw [zero_mul] at a
    have a := abs_nonpos_iff.1 a
    exact ⟨by linarith, b, c, d⟩
  · rw [sqrtZ_true]
    obtain ⟨a, b, c, d⟩ := sqrt_square hk.good (by norm_num) (conj ⟨x, y⟩)
    rw [zero_mul] at a
    have a := abs_nonpos_iff.1 a
    have e1 : (conj (⟨x, y⟩ : Cx ℝ)).re = x := rfl
    have e2 : (conj (⟨x, y⟩ : Cx ℝ)).im = -y := rfl
    rw [e1] at a
    rw [e2] at b
    generalize sqrt k (conj ⟨x, y⟩) = s at *
    refine ⟨?_, ?_, c, ?_⟩
    · show s.re ^ 2 - (-s.im) ^ 2 = x; linarith [neg_sq s.im]
    · show 2 * s.re * (-s.im) = y; linarith
    · intro h; simp only [if_true]; show -s.im ≤ 0; linarith [d h]

theorem sqrtZ_le {x y b : ℝ} {s : Cx ℝ} (h1 : s.re ^ 2 - s.im ^ 2 = x) (h2 : 2 * s.re * s.im = y) (hb : 0 ≤ b)
    (h : Real.sqrt (x ^ 2 + y ^ 2) ≤ b ^ 2) : |s.re| ≤ b ∧ |s.im| ≤ b := by
  have e : x ^ 2 + y ^ 2 = (s.re ^ 2 + s.im ^ 2) ^ 2 := by rw [← h1, ← h2]; ring
  rw [e, Real.sqrt_sq (by positivity)] at h
  exact ⟨abs_le_of_sq_le_sq (by nlinarith [sq_nonneg s.im]) hb, abs_le_of_sq_le_sq (by nlinarith [sq_nonneg s.re]) hb⟩

theorem cos_atan2 {x y : ℝ} (h : 0 < x ^ 2 + y ^ 2) : Real.cos (atan2 y x) = x / Real.sqrt (x ^ 2 + y ^ 2) := by
  unfold atan2
  have hn : (⟨x, y⟩ : ℂ) ≠ 0 := by
    intro hc
    have h1 := congrArg Complex.re hc
    have h2 := congrArg Complex.im hc
    simp only [Complex.zero_re, Complex.zero_im] at h1 h2
    rw [h1, h2] at h; norm_num at h
  rw [Complex.cos_arg hn]
  have := norm_toC ⟨x, y⟩
  unfold toC at this
  rw [this]

theorem sin_atan2 (x y : ℝ) : Real.sin (atan2 y x) = y / Real.sqrt (x ^ 2 + y ^ 2) := by
  unfold atan2
  rw [Complex.sin_arg]
  have := norm_toC ⟨x, y⟩
  unfold toC at this
  rw [this]

theorem cos_two_atan2 {x y : ℝ} (h : 0 < x ^ 2 + y ^ 2) : Real.cos (2 * atan2 y x) = (x ^ 2 - y ^ 2) / (x ^ 2 + y ^ 2) := by
  rw [Real.cos_two_mul, cos_atan2 h, div_pow, Real.sq_sqrt h.le]
  field_simp
  ring

theorem sin_two_atan2 {x y : ℝ} (h : 0 < x ^ 2 + y ^ 2) : Real.sin (2 * atan2 y x) = 2 * x * y / (x ^ 2 + y ^ 2) := by
  rw [Real.sin_two_mul, cos_atan2 h, sin_atan2]
  rw [show 2 * (y / Real.sqrt (x ^ 2 + y ^ 2)) * (x / Real.sqrt (x ^ 2 + y ^ 2)) = 2 * x * y / (Real.sqrt (x ^ 2 + y ^ 2)) ^ 2 by ring, Real.sq_sqrt h.le]

theorem cosh_arsinh' {b s : ℝ} (hs : 0 ≤ s) (h : 1 + b ^ 2 = s ^ 2) : Real.cosh (Real.arsinh b) = s := by
  rw [Real.cosh_arsinh, h, Real.sqrt_sq hs]

/-- The algebra behind `acos`. -/
theorem acos_core {a b c d x y : ℝ} (h1 : a ^ 2 - b ^ 2 = 1 + x) (h2 : 2 * a * b = -y) (h3 : c ^ 2 - d ^ 2 = 1 - x) (h4 : 2 * c * d = -y) :
    Real.cosh (Real.arsinh (a * d + b * c)) * Real.cos (2 * atan2 c a) = x ∧
    -Real.sinh (Real.arsinh (a * d + b * c)) * Real.sin (2 * atan2 c a) = y := by
  have hab : a * b = c * d := by linarith
  have hp : 0 < a ^ 2 + c ^ 2 := by nlinarith [sq_nonneg b, sq_nonneg d]
  have hch := cosh_arsinh' (b := a * d + b * c) (s := (a ^ 2 + b ^ 2 + c ^ 2 + d ^ 2) / 2) (by positivity) (by
    have : (a * b - c * d) ^ 2 = 0 := by rw [hab]; ring
    have : (a ^ 2 - b ^ 2 + c ^ 2 - d ^ 2) ^ 2 = 4 := by
      rw [show a ^ 2 - b ^ 2 + c ^ 2 - d ^ 2 = 2 by linarith]; norm_num
    nlinarith)
  rw [hch, Real.sinh_arsinh, cos_two_atan2 hp, sin_two_atan2 hp]
  constructor
  · have hx : x = (a ^ 2 - b ^ 2 - c ^ 2 + d ^ 2) / 2 := by linarith
    have hsq : (a * b) ^ 2 = (c * d) ^ 2 := by rw [hab]
    rw [hx, ← mul_div_assoc, div_eq_iff hp.ne']
    linear_combination hsq
  · rw [← mul_div_assoc, div_eq_iff hp.ne', show y = -(2 * a * b) by linarith]
    linear_combination 2 * a ^ 2 * hab

/-- The algebra behind `acosh`. -/
theorem acosh_core {a b c d x y : ℝ} (h1 : a ^ 2 - b ^ 2 = x - 1) (h2 : 2 * a * b = -y) (h3 : c ^ 2 - d ^ 2 = x + 1) (h4 : 2 * c * d = y) :
    Real.cosh (Real.arsinh (a * c - b * d)) * Real.cos (2 * atan2 (-b) c) = x ∧
    Real.sinh (Real.arsinh (a * c - b * d)) * Real.sin (2 * atan2 (-b) c) = y := by
  have hab : a * b = -(c * d) := by linarith
  have hp : 0 < c ^ 2 + (-b) ^ 2 := by nlinarith [sq_nonneg a, sq_nonneg d]
  have hch := cosh_arsinh' (b := a * c - b * d) (s := (a ^ 2 + b ^ 2 + c ^ 2 + d ^ 2) / 2) (by positivity) (by
    have : (a * b + c * d) ^ 2 = 0 := by rw [hab]; ring
    have : (c ^ 2 + b ^ 2 - a ^ 2 - d ^ 2) ^ 2 = 4 := by
      rw [show c ^ 2 + b ^ 2 - a ^ 2 - d ^ 2 = 2 by linarith]; norm_num
    nlinarith)
  rw [hch, Real.sinh_arsinh, cos_two_atan2 hp, sin_two_atan2 hp]
  constructor
  · have hx : x = (a ^ 2 - b ^ 2 + c ^ 2 - d ^ 2) / 2 := by linarith
    have hsq : (a * b) ^ 2 = (c * d) ^ 2 := by rw [hab]; ring
    rw [hx, ← mul_div_assoc, div_eq_iff hp.ne']
    linear_combination -hsq
  · rw [← mul_div_assoc, div_eq_iff hp.ne', show y = 2 * c * d by linarith]
    linear_combination -2 * c ^ 2 * hab

/-- The algebra behind `asinh`. -/
theorem asinh_core {a b c d x y : ℝ} (h1 : a ^ 2 - b ^ 2 = 1 - y) (h2 : 2 * a * b = x) (h3 : c ^ 2 - d ^ 2 = 1 + y) (h4 : 2 * c * d = -x) :
    Real.sinh (Real.arsinh (b * c - a * d)) * Real.cos (atan2 y (a * c - b * d)) = x ∧
    Real.cosh (Real.arsinh (b * c - a * d)) * Real.sin (atan2 y (a * c - b * d)) = y := by
  have hab : a * b = -(c * d) := by linarith
  have hS : 0 < (a ^ 2 + b ^ 2 + c ^ 2 + d ^ 2) / 2 := by nlinarith [sq_nonneg b, sq_nonneg d]
  have hch := cosh_arsinh' (b := b * c - a * d) (s := (a ^ 2 + b ^ 2 + c ^ 2 + d ^ 2) / 2) hS.le (by
    have : (a * b + c * d) ^ 2 = 0 := by rw [hab]; ring
    have : (a ^ 2 - b ^ 2 + c ^ 2 - d ^ 2) ^ 2 = 4 := by
      rw [show a ^ 2 - b ^ 2 + c ^ 2 - d ^ 2 = 2 by linarith]; norm_num
    nlinarith)
  have hr : (a * c - b * d) ^ 2 + y ^ 2 = ((a ^ 2 + b ^ 2 + c ^ 2 + d ^ 2) / 2) ^ 2 := by
    have hz : (a * b + c * d) ^ 2 = 0 := by rw [hab]; ring
    rw [show y = (c ^ 2 - d ^ 2 - a ^ 2 + b ^ 2) / 2 by linarith]
    nlinarith
  have hr0 : 0 < (a * c - b * d) ^ 2 + y ^ 2 := by rw [hr]; positivity
  rw [hch, Real.sinh_arsinh, cos_atan2 hr0, sin_atan2, hr, Real.sqrt_sq hS.le]
  constructor
  · rw [← mul_div_assoc, div_eq_iff hS.ne', show x = 2 * a * b by linarith]
    linear_combination -(a ^ 2 + b ^ 2) * hab
  · rw [← mul_div_assoc, mul_comm, mul_div_assoc, div_self hS.ne', mul_one]

theorem arcLog_zero (b : ℝ) : arcLog 0 b = Real.arsinh b := by simp [arcLog]

theorem sqrt_shift_le {x y x' y' r : ℝ} (h : Real.sqrt (x ^ 2 + y ^ 2) + 1 ≤ r) (hx : |x' - x| = 1 ∧ |y'| = |y|  ∨ |x' - y| = 1 ∧ |y'| = |x| ∨ |x' + x| = 1 ∧ |y'| = |y|  ∨ |x' + y| = 1 ∧ |y'| = |x|) :
    Real.sqrt (x' ^ 2 + y' ^ 2) ≤ r := by
  set n := Real.sqrt (x ^ 2 + y ^ 2) with hn
  have n0 : 0 ≤ n := Real.sqrt_nonneg _
  have n2 : n ^ 2 = x ^ 2 + y ^ 2 := Real.sq_sqrt (by positivity)
  have ax : |x| ≤ n := Real.abs_le_sqrt (by nlinarith [sq_nonneg y])
  have ay : |y| ≤ n := Real.abs_le_sqrt (by nlinarith [sq_nonneg x])
  rw [abs_le] at ax ay
  rw [Real.sqrt_le_left (by linarith)]
  have key : x' ^ 2 + y' ^ 2 ≤ (n + 1) ^ 2 := by
    rw [← sq_abs y']
    rcases hx with ⟨a, b⟩ | ⟨a, b⟩ | ⟨a, b⟩ | ⟨a, b⟩ <;> rw [b, sq_abs] <;> rcases (abs_eq (by norm_num : (0 : ℝ) ≤ 1)).1 a with a | a
    · rw [show x' = x + 1 by linarith]; nlinarith
    · rw [show x' = x - 1 by linarith]; nlinarith
    · rw [show x' = y + 1 by linarith]; nlinarith
    · rw [show x' = y - 1 by linarith]; nlinarith
    · rw [show x' = 1 - x by linarith]; nlinarith
    · rw [show x' = -1 - x by linarith]; nlinarith
    · rw [show x' = 1 - y by linarith]; nlinarith
    · rw [show x' = -1 - y by linarith]; nlinarith
  nlinarith

theorem sqrtZ_sign {x y : ℝ} {s : Cx ℝ} {nz : Bool} (h : s.re ^ 2 - s.im ^ 2 = x ∧ 2 * s.re * s.im = y ∧ 0 ≤ s.re ∧ (s.re = 0 → if nz then s.im ≤ 0 else 0 ≤ s.im)) :
    (0 < y ∨ y = 0 ∧ nz = false → 0 ≤ s.im) ∧ (y < 0 ∨ y = 0 ∧ nz = true → s.im ≤ 0) := by
  obtain ⟨-, h2, h3, h4⟩ := h
  refine ⟨?_, ?_⟩
  · rintro (h | ⟨h, rfl⟩)
    · by_contra hc
      nlinarith
    · rcases h3.eq_or_lt with h0 | h0
      · simpa using h4 h0.symm
      · have : s.im = 0 := by
          rw [h] at h2
          rcases mul_eq_zero.1 h2 with h' | h'
          · linarith
          · exact h'
        exact this.ge
  · rintro (h | ⟨h, rfl⟩)
    · by_contra hc
      nlinarith
    · rcases h3.eq_or_lt with h0 | h0
      · simpa using h4 h0.symm
      · have : s.im = 0 := by
          rw [h] at h2
          rcases mul_eq_zero.1 h2 with h' | h'
          · linarith
          · exact h'
        exact this.le

/-! ### Logarithms -/

theorem rlog_pos {x : ℝ} (h : 0 < x) : rlog x = some (Real.log x) := if_pos h

theorem log_one_add_error {x : ℝ} (h : |x| ≤ 1 / 2) : |x - 1 / 2 * x * x - Real.log (1 + x)| ≤ 2 * |x| ^ 3 := by
  have := Real.abs_log_sub_add_sum_range_le (x := -x) (by rw [abs_neg]; linarith) 2
  rw [Finset.sum_range_succ, Finset.sum_range_succ, Finset.sum_range_zero, abs_neg, sub_neg_eq_add] at this
  norm_num at this
  have h2 : |x| ^ 3 / (1 - |x|) ≤ 2 * |x| ^ 3 := by
    rw [div_le_iff₀ (by linarith)]
    nlinarith [pow_nonneg (abs_nonneg x) 3]
  rw [show x - 1 / 2 * x * x - Real.log (1 + x) = -(-x + x ^ 2 / 2 + Real.log (1 + x)) by ring, abs_neg]
  exact this.trans h2

/-- `logP1` is `log(1 + x)`, up to the third power of a tiny argument. -/
theorem logP1_spec {k : LogConst} (he : k.eps ≤ 1 / 2) {x : ℝ} (hx : -1 < x) (hm : x ≠ k.max) :
    ∃ l, logP1 k x = some l ∧ |l - Real.log (1 + x)| ≤ 2 * |x| ^ 3 ∧ (x = 0 ∨ k.eps ≤ |x| → l = Real.log (1 + x)) := by
  have p : 0 < 1 + x := by linarith
  unfold logP1
  rw [if_neg hm, rlog_pos p]
  by_cases h1 : x ≤ -(1 / 2) ∨ 2 ≤ x
  · rw [if_pos h1]
    exact ⟨_, rfl, by simp, fun _ => rfl⟩
  · rw [if_neg h1]
    by_cases h2 : |x| < k.eps
    · rw [if_pos h2]
      by_cases h3 : x = 0
      · rw [if_pos h3]
        exact ⟨_, rfl, by simp [h3], fun _ => by simp [h3]⟩
      · rw [if_neg h3]
        refine ⟨_, rfl, log_one_add_error (by linarith), ?_⟩
        rintro (h | h)
        · exact absurd h h3
        · linarith
    · rw [if_neg h2]
      have e : addSmallX2 1 x = ⟨1 + x, 0⟩ := by
        unfold addSmallX2
        simp
      rw [e]
      simp only [rlog_pos p]
      exact ⟨Real.log (1 + x) + 0 / (1 + x), rfl, by simp, fun _ => by simp⟩

theorem logP1_nonneg {k : LogConst} (he : k.eps ≤ 1 / 2) {x l : ℝ} (hx : 0 ≤ x) (hm : x ≠ k.max) (h : logP1 k x = some l) : 0 ≤ l := by
  obtain ⟨l', h', a, b⟩ := logP1_spec he (by linarith) hm
  rw [h] at h'
  cases h'
  by_cases hx' : x = 0 ∨ k.eps ≤ |x|
  · rw [b hx']
    exact Real.log_nonneg (by linarith)
  · push Not at hx'
    rw [abs_of_nonneg hx] at hx'
    unfold logP1 at h
    rw [if_neg (by rintro (h | h) <;> linarith), if_pos (by rw [abs_of_nonneg hx]; exact hx'.2), if_neg hx'.1] at h
    cases h
    nlinarith

theorem normMinusOne_eq (high : ℝ → ℝ) (x y : ℝ) : normMinusOne high x y = x ^ 2 + y ^ 2 - 1 := by
  unfold normMinusOne addX1 addSmallX2' addSmallX2 addX2 sqrX2 sqrError
  ring

/-! ### atanh -/

theorem tanh_core {z : ℂ} (h1 : z ≠ 1) (h2 : z ≠ -1) {u v : ℝ} (hu : Real.exp (4 * u) * ‖1 - z‖ ^ 2 = ‖1 + z‖ ^ 2)
    (hv : ‖(1 + z) * (1 - (starRingEnd ℂ) z)‖ * Complex.exp ((2 * v : ℝ) * Complex.I) = (1 + z) * (1 - (starRingEnd ℂ) z)) :
    Complex.tanh ⟨u, v⟩ = z := by
  have p1 : 1 - z ≠ 0 := sub_ne_zero.2 (Ne.symm h1)
  have p2 : 1 + z ≠ 0 := fun h => h2 (by linear_combination h)
  have n1 : 0 < ‖1 - z‖ := norm_pos_iff.2 p1
  have n2 : 0 < ‖1 + z‖ := norm_pos_iff.2 p2
  have hc : ‖1 - (starRingEnd ℂ) z‖ = ‖1 - z‖ := by
    rw [← Complex.norm_conj (1 - z), map_sub, map_one]
  have hE : Real.exp (2 * u) * ‖1 - z‖ = ‖1 + z‖ := by
    have : (Real.exp (2 * u) * ‖1 - z‖) ^ 2 = ‖1 + z‖ ^ 2 := by
      rw [← hu, mul_pow, ← Real.exp_nat_mul]
      congr 2
      push_cast; ring
    exact (pow_left_inj₀ (by positivity) n2.le (by norm_num)).1 this
  have hE2 : Complex.exp (2 * (⟨u, v⟩ : ℂ)) * (1 - z) = 1 + z := by
    have e : (2 * (⟨u, v⟩ : ℂ)) = ((2 * u : ℝ) : ℂ) + ((2 * v : ℝ) : ℂ) * Complex.I := by
      apply Complex.ext <;> simp
    have hq : (1 - z) * (1 - (starRingEnd ℂ) z) = ((‖1 - z‖ ^ 2 : ℝ) : ℂ) := by
      have := Complex.mul_conj (1 - z)
      rw [map_sub, map_one] at this
      rw [this, Complex.normSq_eq_norm_sq]
    have hne : (1 - (starRingEnd ℂ) z) ≠ 0 := by rw [← norm_pos_iff, hc]; exact n1
    rw [norm_mul, hc] at hv
    apply mul_right_cancel₀ hne
    rw [mul_assoc, hq, e, Complex.exp_add]
    rw [← hv, ← hE, ← Complex.ofReal_exp]
    push_cast
    ring
  have hcosh : Complex.cosh ⟨u, v⟩ ≠ 0 := by
    intro h0
    have h3 : Complex.exp ⟨u, v⟩ + Complex.exp (-⟨u, v⟩) = 0 := by
      have := Complex.two_cosh (⟨u, v⟩ : ℂ)
      rw [h0] at this; linear_combination -this
    have h4 : Complex.exp (2 * (⟨u, v⟩ : ℂ)) = -1 := by
      have e : Complex.exp (2 * (⟨u, v⟩ : ℂ)) = Complex.exp ⟨u, v⟩ * Complex.exp ⟨u, v⟩ := by rw [← Complex.exp_add]; ring_nf
      have e2 : Complex.exp (⟨u, v⟩ : ℂ) * Complex.exp (-⟨u, v⟩) = 1 := by rw [← Complex.exp_add]; simp
      rw [e]
      linear_combination Complex.exp ⟨u, v⟩ * h3 - e2
    rw [h4] at hE2
    have : (2 : ℂ) = 0 := by linear_combination -hE2
    norm_num at this
  rw [Complex.tanh_eq_sinh_div_cosh, div_eq_iff hcosh]
  have e : Complex.exp (2 * (⟨u, v⟩ : ℂ)) = Complex.exp ⟨u, v⟩ * Complex.exp ⟨u, v⟩ := by rw [← Complex.exp_add]; ring_nf
  have e2 : Complex.exp (⟨u, v⟩ : ℂ) * Complex.exp (-⟨u, v⟩) = 1 := by rw [← Complex.exp_add]; simp
  have a := Complex.two_cosh (⟨u, v⟩ : ℂ)
  have b := Complex.two_sinh (⟨u, v⟩ : ℂ)
  rw [e] at hE2
  have hx : Complex.exp (⟨u, v⟩ : ℂ) ≠ 0 := Complex.exp_ne_zero _
  apply mul_left_cancel₀ hx
  apply mul_left_cancel₀ (two_ne_zero (α := ℂ))
  linear_combination hE2 - (1 + z) * e2 + Complex.exp ⟨u, v⟩ * b - z * Complex.exp ⟨u, v⟩ * a

/-- `(1 + z) (1 - conj z)` -/
theorem q_eq (x y : ℝ) : (1 + (⟨x, y⟩ : ℂ)) * (1 - (starRingEnd ℂ) ⟨x, y⟩) = ⟨1 - x ^ 2 - y ^ 2, 2 * y⟩ := by
  apply Complex.ext
  · simp [Complex.mul_re]; ring
  · simp [Complex.mul_im]; ring

theorem normSq_one_sub (x y : ℝ) : ‖1 - (⟨x, y⟩ : ℂ)‖ ^ 2 = (1 - x) ^ 2 + y ^ 2 := by
  rw [← Complex.normSq_eq_norm_sq, Complex.normSq_apply]; simp; ring

theorem normSq_one_add (x y : ℝ) : ‖1 + (⟨x, y⟩ : ℂ)‖ ^ 2 = (1 + x) ^ 2 + y ^ 2 := by
  rw [← Complex.normSq_eq_norm_sq, Complex.normSq_apply]; simp; ring

theorem exp_atan2Z (nz : Bool) (a b : ℝ) :
    ‖(⟨a, b⟩ : ℂ)‖ * Complex.exp ((atan2Z nz b a : ℝ) * Complex.I) = ⟨a, b⟩ := by
  unfold atan2Z
  split
  · rename_i h
    have := Complex.norm_mul_exp_arg_mul_I (⟨a, b⟩ : ℂ)
    unfold atan2
    have h2 := congrArg (starRingEnd ℂ) this
    rw [map_mul, Complex.conj_ofReal, ← Complex.exp_conj, map_mul, Complex.conj_ofReal, Complex.conj_I] at h2
    push_cast
    rw [neg_mul, ← mul_neg, h2]
    apply Complex.ext
    · simp
    · simp [h.1]
  · exact Complex.norm_mul_exp_arg_mul_I (⟨a, b⟩ : ℂ)

theorem abs_atan2Z_le (nz : Bool) (a b : ℝ) : |atan2Z nz b a| ≤ Real.pi := by
  unfold atan2Z
  split
  · rw [abs_neg]; exact Complex.abs_arg_le_pi _
  · exact Complex.abs_arg_le_pi _

theorem exp_four_log {x y : ℝ} (h : 0 < (1 - |x|) ^ 2 + y ^ 2) {u : ℝ} (hu : u = copySign (1 / 4 * Real.log (1 + 4 * |x| / ((1 - |x|) * (1 - |x|) + |y| * |y|))) x) :
    Real.exp (4 * u) * ((1 - x) ^ 2 + y ^ 2) = (1 + x) ^ 2 + y ^ 2 := by
  have hd : (1 - |x|) * (1 - |x|) + |y| * |y| = (1 - |x|) ^ 2 + y ^ 2 := by rw [abs_mul_abs_self]; ring
  rw [hd] at hu
  have hx : 0 ≤ 4 * |x| / ((1 - |x|) ^ 2 + y ^ 2) := by positivity
  have hl : 0 ≤ 1 / 4 * Real.log (1 + 4 * |x| / ((1 - |x|) ^ 2 + y ^ 2)) := mul_nonneg (by norm_num) (Real.log_nonneg (by linarith))
  have hE : Real.exp (4 * (1 / 4 * Real.log (1 + 4 * |x| / ((1 - |x|) ^ 2 + y ^ 2)))) = ((1 + |x|) ^ 2 + y ^ 2) / ((1 - |x|) ^ 2 + y ^ 2) := by
    rw [show ∀ t : ℝ, 4 * (1 / 4 * t) = t by intro t; ring, Real.exp_log (by linarith)]
    field_simp
    ring
  unfold copySign at hu
  rw [abs_of_nonneg hl] at hu
  by_cases hs : x < 0
  · rw [if_pos hs] at hu
    rw [hu, mul_neg, Real.exp_neg, hE]
    have e : |x| = -x := abs_of_neg hs
    have hp : 0 < (1 + |x|) ^ 2 + y ^ 2 := by nlinarith [abs_nonneg x, sq_nonneg y]
    rw [e] at h hp ⊢
    rw [inv_div, show 1 + -x = 1 - x by ring, show 1 - -x = 1 + x by ring]
    rw [show 1 + -x = 1 - x by ring] at hp
    exact div_mul_cancel₀ _ hp.ne'
  · rw [if_neg hs] at hu
    have e : |x| = x := abs_of_nonneg (not_lt.1 hs)
    rw [hu, hE, e]
    rw [e] at h
    exact div_mul_cancel₀ _ h.ne'

theorem copySign_sub (a b x : ℝ) (ha : 0 ≤ a) (hb : 0 ≤ b) : |copySign a x - copySign b x| = |a - b| := by
  unfold copySign
  rw [abs_of_nonneg ha, abs_of_nonneg hb]
  split
  · rw [show -a - -b = -(a - b) by ring, abs_neg]
  · rfl

theorem exp_quarter {t : ℝ} (ht : 0 < t) :
    ‖(⟨-t ^ 2, 2 * t⟩ : ℂ)‖ * Complex.exp ((Real.pi / 2 + atan2 t 2 : ℝ) * Complex.I) = ⟨-t ^ 2, 2 * t⟩ := by
  have e : (⟨-t ^ 2, 2 * t⟩ : ℂ) = (t * Complex.I) * ⟨2, t⟩ := by
    apply Complex.ext
    · simp; ring
    · simp; ring
  have hn : ‖(⟨-t ^ 2, 2 * t⟩ : ℂ)‖ = t * ‖(⟨2, t⟩ : ℂ)‖ := by
    rw [e, norm_mul, norm_mul, Complex.norm_I, mul_one, Complex.norm_real, Real.norm_of_nonneg ht.le]
  have := Complex.norm_mul_exp_arg_mul_I (⟨2, t⟩ : ℂ)
  rw [hn, e]
  unfold atan2
  push_cast
  rw [add_mul, Complex.exp_add, Complex.exp_pi_div_two_mul_I]
  linear_combination t * Complex.I * this

theorem exp_quarter_neg {t : ℝ} (ht : 0 < t) :
    ‖(⟨-t ^ 2, -(2 * t)⟩ : ℂ)‖ * Complex.exp ((-(Real.pi / 2 + atan2 t 2) : ℝ) * Complex.I) = ⟨-t ^ 2, -(2 * t)⟩ := by
  have h2 := congrArg (starRingEnd ℂ) (exp_quarter ht)
  rw [map_mul, Complex.conj_ofReal, ← Complex.exp_conj, map_mul, Complex.conj_ofReal, Complex.conj_I] at h2
  have e : (starRingEnd ℂ) (⟨-t ^ 2, 2 * t⟩ : ℂ) = ⟨-t ^ 2, -(2 * t)⟩ := by apply Complex.ext <;> simp
  rw [← e, Complex.norm_conj, Complex.ofReal_neg, neg_mul, ← mul_neg, h2]

theorem quarter_le {t : ℝ} : 0 ≤ Real.pi / 2 + atan2 t 2 ∧ Real.pi / 2 + atan2 t 2 ≤ Real.pi := by
  have : |atan2 t 2| ≤ Real.pi / 2 := Complex.abs_arg_le_pi_div_two_iff.2 (by norm_num)
  rw [abs_le] at this
  constructor <;> linarith

end Verif.Cx
