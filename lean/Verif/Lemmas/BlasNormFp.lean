import Verif.Model.BlasNormFp
import Verif.Lemmas.Blas1
import Verif.Lemmas.VecFp
import Verif.Lemmas.FloatSum

/-! Rounding errors of the scaled sum of squares of `nrm2`. -/

namespace Verif.Blas

open Verif.Num Verif.IntSqrt Verif.Ieee

section Numbers

variable {u h r t p q Q E F q' m : ℚ}

/-- The square of a rounded quotient. -/
theorem quot_sq (hu : 0 < u) (hu4 : u ≤ 1 / 4) (hh : 0 < h) (hh4 : h ≤ 1 / 4) (r0 : 0 ≤ r) (r1 : r ≤ 1) (t0 : 0 ≤ t)
    (ht : |t - r| ≤ u * r + h) (hp : |p - t ^ 2| ≤ 2 * u * t ^ 2 + 2 * h) :
    |p - r ^ 2| ≤ r ^ 2 * ((1 + u) ^ 4 - 1) + 8 * h := by
  have ht' : t ≤ r * (1 + u) + h := by linarith [(abs_le.1 ht).2]
  have a1 : |t ^ 2 - r ^ 2| ≤ r ^ 2 * (2 * u + u ^ 2) + 11 / 4 * h := by
    have e : t ^ 2 - r ^ 2 = (t - r) * (t + r) := by ring
    rw [e, abs_mul, abs_of_nonneg (by linarith : 0 ≤ t + r)]
    calc |t - r| * (t + r) ≤ (u * r + h) * (r * (1 + u) + h + r) :=
          mul_le_mul ht (by linarith) (by linarith) (by positivity)
      _ = r ^ 2 * (2 * u + u ^ 2) + h * (2 * r + 2 * (u * r) + h) := by ring
      _ ≤ r ^ 2 * (2 * u + u ^ 2) + h * (11 / 4) := by
          have : u * r ≤ 1 / 4 * 1 := mul_le_mul hu4 r1 r0 (by norm_num)
          have := mul_le_mul_of_nonneg_left (show 2 * r + 2 * (u * r) + h ≤ 11 / 4 by linarith) hh.le
          linarith
      _ = _ := by ring
  have a2 : t ^ 2 ≤ r ^ 2 * (1 + u) ^ 2 + 11 / 4 * h := by nlinarith [(abs_le.1 a1).2]
  have a3 : |p - r ^ 2| ≤ |p - t ^ 2| + |t ^ 2 - r ^ 2| := by
    have := abs_add_le (p - t ^ 2) (t ^ 2 - r ^ 2); simpa using this
  have a4 : 2 * u * t ^ 2 ≤ 2 * u * (r ^ 2 * (1 + u) ^ 2 + 11 / 4 * h) := mul_le_mul_of_nonneg_left a2 (by positivity)
  have a5 : u * h ≤ 1 / 4 * h := mul_le_mul_of_nonneg_right hu4 hh.le
  have a6 : 0 ≤ r ^ 2 * (u ^ 2 * (1 + u) ^ 2) := by positivity
  nlinarith

/-- A step that keeps the scale. -/
theorem keep_err (hu : 0 < u) (hh : 0 < h) (h8 : 8 * h ≤ u) (hq : |q - Q| ≤ E * Q)
    (hp : |p - r ^ 2| ≤ r ^ 2 * E + 8 * h) (hE : 0 ≤ E) (q0 : 0 ≤ q) (p0 : 0 ≤ p) (Q1 : 1 ≤ Q)
    (hq' : |q' - (q + p)| ≤ u * |q + p|) : |q' - (Q + r ^ 2)| ≤ ((1 + E) * (1 + u) ^ 2 - 1) * (Q + r ^ 2) := by
  rw [abs_of_nonneg (by linarith : 0 ≤ q + p)] at hq'
  have r2 : 0 ≤ r ^ 2 := sq_nonneg r
  set T := Q + r ^ 2 with hT
  have T1 : 1 ≤ T := by linarith
  have d : |q + p - T| ≤ (E + u) * T := by
    have e : q + p - T = (q - Q) + (p - r ^ 2) := by rw [hT]; ring
    rw [e]
    have := abs_add_le (q - Q) (p - r ^ 2)
    have : u * 1 ≤ u * T := mul_le_mul_of_nonneg_left T1 hu.le
    nlinarith
  have d2 : q + p ≤ (1 + E + u) * T := by linarith [(abs_le.1 d).2]
  have d3 : |q' - T| ≤ |q' - (q + p)| + |q + p - T| := by
    have := abs_add_le (q' - (q + p)) (q + p - T); simpa using this
  have d4 : u * (q + p) ≤ u * ((1 + E + u) * T) := mul_le_mul_of_nonneg_left d2 hu.le
  have d5 : 0 ≤ (E * u + E * u ^ 2) * T := by positivity
  nlinarith

/-- A step that changes the scale. -/
theorem change_err (hu : 0 < u) (hu4 : u ≤ 1 / 4) (hh : 0 < h) (hq : |q - Q| ≤ E * Q)
    (hp : |p - r ^ 2| ≤ r ^ 2 * F + 8 * h) (hE : 0 ≤ E) (hF : 0 ≤ F) (q0 : 0 ≤ q) (p0 : 0 ≤ p) (Q0 : 0 ≤ Q) (m0 : 0 ≤ m)
    (hqh : 20 * (q * h) + 2 * h ≤ u)
    (hm : |m - q * p| ≤ u * |q * p| + h) (hq' : |q' - (1 + m)| ≤ u * |1 + m|) :
    |q' - (1 + Q * r ^ 2)| ≤ ((1 + E) * (1 + F) * (1 + u) ^ 3 - 1) * (1 + Q * r ^ 2) := by
  rw [abs_of_nonneg (by positivity : 0 ≤ q * p)] at hm
  rw [abs_of_nonneg (by linarith : 0 ≤ 1 + m)] at hq'
  have r2 : 0 ≤ r ^ 2 := sq_nonneg r
  set W := Q * r ^ 2 with hW
  have W0 : 0 ≤ W := by positivity
  set G := (1 + E) * (1 + F) - 1 with hG
  have G0 : 0 ≤ G := by rw [hG]; nlinarith
  have a1 : |q * p - W| ≤ G * W + 8 * (q * h) := by
    have e : q * p - W = q * (p - r ^ 2) + r ^ 2 * (q - Q) := by rw [hW]; ring
    have b1 : |q * (p - r ^ 2)| ≤ q * (r ^ 2 * F + 8 * h) := by
      rw [abs_mul, abs_of_nonneg q0]; exact mul_le_mul_of_nonneg_left hp q0
    have b2 : |r ^ 2 * (q - Q)| ≤ r ^ 2 * (E * Q) := by
      rw [abs_mul, abs_of_nonneg r2]; exact mul_le_mul_of_nonneg_left hq r2
    have b3 : q ≤ (1 + E) * Q := by linarith [(abs_le.1 hq).2]
    have b4 : q * (r ^ 2 * F) ≤ (1 + E) * Q * (r ^ 2 * F) := mul_le_mul_of_nonneg_right b3 (by positivity)
    have b5 := abs_add_le (q * (p - r ^ 2)) (r ^ 2 * (q - Q))
    rw [e]
    have : G * W = (1 + E) * Q * (r ^ 2 * F) + r ^ 2 * (E * Q) := by rw [hG, hW]; ring
    linarith
  have a2 : q * p ≤ (1 + G) * W + 8 * (q * h) := by linarith [(abs_le.1 a1).2]
  have qh0 : 0 ≤ q * h := by positivity
  have a3 : |m - W| ≤ ((1 + G) * (1 + u) - 1) * W + 10 * (q * h) + h := by
    have b1 : |m - W| ≤ |m - q * p| + |q * p - W| := by
      have := abs_add_le (m - q * p) (q * p - W); simpa using this
    have b2 : u * (q * p) ≤ u * ((1 + G) * W + 8 * (q * h)) := mul_le_mul_of_nonneg_left a2 hu.le
    have b3 : u * (q * h) ≤ 1 / 4 * (q * h) := mul_le_mul_of_nonneg_right hu4 qh0
    nlinarith
  set T := 1 + W with hT
  have T1 : 1 ≤ T := by linarith
  set G' := (1 + G) * (1 + u) - 1 with hG'
  have G'0 : 0 ≤ G' := by rw [hG']; nlinarith
  have a4 : |1 + m - T| ≤ (G' + u / 2) * T := by
    have e : 1 + m - T = m - W := by rw [hT]; ring
    rw [e]
    have : u / 2 * 1 ≤ u / 2 * T := mul_le_mul_of_nonneg_left T1 (by linarith)
    have : G' * W ≤ G' * T := mul_le_mul_of_nonneg_left (by linarith) G'0
    linarith
  have a5 : 1 + m ≤ (1 + G' + u / 2) * T := by linarith [(abs_le.1 a4).2]
  have a6 : |q' - T| ≤ |q' - (1 + m)| + |1 + m - T| := by
    have := abs_add_le (q' - (1 + m)) (1 + m - T); simpa using this
  have a7 : u * (1 + m) ≤ u * ((1 + G' + u / 2) * T) := mul_le_mul_of_nonneg_left a5 hu.le
  have e : (1 + E) * (1 + F) * (1 + u) ^ 3 - 1 = (1 + G') * (1 + u) ^ 2 - 1 := by rw [hG', hG]; ring
  rw [e]
  have a8 : 0 ≤ G' * u * (1 + u) * T := by positivity
  have a9 : 0 ≤ u * T := by positivity
  have a10 : 0 ≤ u * u * T := by positivity
  nlinarith

end Numbers

/-- What is used of `std::pow(t, 2.0)` for quotients from 0 to 1: the square of 0 is 0, and other squares are off by at most two
roundings. -/
structure GoodSq (sq : ℚ → ℚ) : Prop where
  zero : sq 0 = 0
  near : ∀ t, 0 ≤ t → t ≤ 1 → Repr binary64 t → 0 ≤ sq t ∧ Repr binary64 (sq t) ∧
    |sq t - t ^ 2| ≤ 2 * (2 : ℚ) ^ (-53 : ℤ) * t ^ 2 + 2 * (2 : ℚ) ^ (-1075 : ℤ)

theorem unit_b64 : unitRoundoff binary64 = (2 : ℚ) ^ (-53 : ℤ) := rfl

theorem tiny_b64 : halfTiny binary64 = (2 : ℚ) ^ (-1075 : ℤ) := rfl

/-- The correctly rounded square is one. -/
theorem goodSq_rnd : GoodSq fun t => rnd binary64 (t ^ 2) where
  zero := by
    show rnd binary64 ((0 : ℚ) ^ 2) = 0
    norm_num [rnd_zero]
  near t t0 _ _ := by
    refine ⟨rnd_nonneg (sq_nonneg t), repr_rnd _ _, ?_⟩
    have h := rnd_err binary64 (t ^ 2)
    rw [unit_b64, tiny_b64, abs_of_nonneg (sq_nonneg t)] at h
    have a : 0 ≤ (2 : ℚ) ^ (-53 : ℤ) * t ^ 2 := by positivity
    have b : (0 : ℚ) < (2 : ℚ) ^ (-1075 : ℤ) := zpow_pos (by norm_num) _
    generalize (2 : ℚ) ^ (-1075 : ℤ) = y at *
    linarith

/-- The state after `k` numbers whose squares add up to `S`. -/
structure NrmInv (k : Nat) (s q S : ℚ) : Prop where
  s0 : 0 ≤ s
  q0 : 0 ≤ q
  rs : Repr binary64 s
  rq : Repr binary64 q
  lo : s ^ 2 ≤ S
  hi : S ≤ k * s ^ 2
  start : s = 0 → q = 1
  err : |s ^ 2 * q - S| ≤ ((1 + (2 : ℚ) ^ (-53 : ℤ)) ^ (7 * k) - 1) * S

theorem pow7_le {k : Nat} (hk : k ≤ 2 ^ 40) : (1 + (2 : ℚ) ^ (-53 : ℤ)) ^ (7 * k) - 1 ≤ 29 / 4 * k * (2 : ℚ) ^ (-53 : ℤ) := by
  have e : (2 : ℚ) ^ (-53 : ℤ) = 1 / 2 ^ 53 := by norm_num
  have hk' : (k : ℚ) ≤ 2 ^ 40 := by exact_mod_cast hk
  have hk0 : (0 : ℚ) ≤ k := Nat.cast_nonneg k
  rw [e]
  have lt : ((7 * k : Nat) : ℚ) * (1 / 2 ^ 53) ≤ 1 / 2 ^ 10 := by push_cast; linarith
  have h := pow_unit_le (u := 1 / 2 ^ 53) (n := 7 * k) (by norm_num) (by linarith)
  refine h.trans ?_
  rw [div_le_iff₀ (by linarith)]
  push_cast at lt ⊢
  nlinarith

theorem one_lt_big : (2 : ℚ) ^ 60 < 2 ^ 1024 := pow_lt_pow_right₀ (by norm_num) (by norm_num)

theorem small_big {x : ℚ} (h : x ≤ 2 ^ 60) : x < 2 ^ 1024 := lt_of_le_of_lt h one_lt_big

theorem repr_nat60 (n : Nat) (h : n ≤ 60) : Repr binary64 ((2 : ℚ) ^ n) := by
  have := repr_two_zpow (f := binary64) (e := (n : ℤ)) (by
    show (-1074 : ℤ) ≤ _
    omega)
  simpa using this

theorem rnd_le60 {x : ℚ} (n : Nat) (h : n ≤ 60) (hx : x ≤ 2 ^ n) : rnd binary64 x ≤ 2 ^ n :=
  rnd_le_of_repr (repr_nat60 n h) hx

theorem div_big {a b : ℚ} (hb : 0 < b) : (Fp.fin false a / Fp.fin false b : Fp) = big (rnd binary64 (a / b)) := by
  show (if b = 0 then _ else _) = _
  rw [if_neg hb.ne']
  rfl

theorem mul_big (a b : ℚ) : (Fp.fin false a * Fp.fin false b : Fp) = big (rnd binary64 (a * b)) := rfl

theorem add_big {a b : ℚ} (ha : 0 ≤ a) (hb : 0 ≤ b) (ra : Repr binary64 a) (rb : Repr binary64 b) (la : a ≤ 2 ^ 60)
    (lb : b ≤ 2 ^ 60) : (Fp.fin false a + Fp.fin false b : Fp) = big (rnd binary64 (a + b)) := by
  have h := addF_big ha hb ra rb
  rw [big_lt (small_big la), big_lt (small_big lb)] at h
  exact h

/-- The square of a rounded quotient of numbers `x ≤ y`: a number from 0 to 2 near the square of the quotient. -/
theorem pow2F_quot {sq : ℚ → ℚ} (hsq : GoodSq sq) {x y : ℚ} (x0 : 0 ≤ x) (hxy : x ≤ y) (y0 : 0 < y) :
    ∃ p, sq (rnd binary64 (x / y)) = p ∧ pow2F sq (Fp.fin false x / Fp.fin false y) = .fin false p ∧ 0 ≤ p ∧ p ≤ 2 ∧
      Repr binary64 p ∧
      |p - (x / y) ^ 2| ≤ (x / y) ^ 2 * ((1 + (2 : ℚ) ^ (-53 : ℤ)) ^ 4 - 1) + 8 * (2 : ℚ) ^ (-1075 : ℤ) := by
  set r := x / y with hr
  have r0 : 0 ≤ r := by positivity
  have r1 : r ≤ 1 := by rw [hr, div_le_one y0]; exact hxy
  set t := rnd binary64 r with ht
  have t0 : 0 ≤ t := rnd_nonneg r0
  have t1 : t ≤ 1 := by simpa using rnd_le60 (x := r) 0 (by norm_num) (by simpa using r1)
  obtain ⟨p0, rp, hp⟩ := hsq.near t t0 t1 (repr_rnd _ _)
  have e := rnd_err binary64 r
  rw [unit_b64, tiny_b64, abs_of_nonneg r0, ← ht] at e
  have hh : (0 : ℚ) < (2 : ℚ) ^ (-1075 : ℤ) := zpow_pos (by norm_num) _
  have hh8 : (2 : ℚ) ^ (-1075 : ℤ) ≤ (2 : ℚ) ^ (-60 : ℤ) := zpow_le_zpow_right₀ (by norm_num) (by norm_num)
  have e60 : (2 : ℚ) ^ (-60 : ℤ) = 1 / 2 ^ 60 := by norm_num
  have e53 : (2 : ℚ) ^ (-53 : ℤ) = 1 / 2 ^ 53 := by norm_num
  generalize (2 : ℚ) ^ (-1075 : ℤ) = w at *
  rw [e60] at hh8
  rw [e53] at *
  have p2 : sq t ≤ 2 := by
    have : t ^ 2 ≤ 1 := by nlinarith
    have := (abs_le.1 hp).2
    nlinarith
  refine ⟨sq t, rfl, ?_, p0, p2, rp, ?_⟩
  · rw [div_big y0, ← hr, ← ht, big_lt (small_big (t1.trans (by norm_num)))]
    show (if (2 : ℚ) ^ 1024 ≤ sq t then _ else _) = _
    rw [if_neg (not_le.2 (small_big (p2.trans (by norm_num))))]
  · exact quot_sq (by norm_num) (by norm_num) hh (by linarith) r0 r1 t0 e hp

theorem ltF_fin (a b : ℚ) : ltF (.fin false a) (.fin false b) = decide (a < b) := rfl

theorem step_inv {sq : ℚ → ℚ} (hsq : GoodSq sq) {k : Nat} (hk : k < 2 ^ 40) {s q S : ℚ} (I : NrmInv k s q S) (b : Bool) {a : ℚ}
    (a0 : 0 ≤ a) (ra : Repr binary64 a) :
    ∃ s' q', ssqStepF sq (.fin false s, .fin false q) (.fin b a) = (.fin false s', .fin false q') ∧
      NrmInv (k + 1) s' q' (S + a ^ 2) := by
  have S0 : 0 ≤ S := (sq_nonneg s).trans I.lo
  have hkq : (k : ℚ) ≤ 2 ^ 40 := by exact_mod_cast hk.le
  have hk0 : (0 : ℚ) ≤ k := Nat.cast_nonneg k
  set U : ℚ := (2 : ℚ) ^ (-53 : ℤ) with hU
  have e53 : U = 1 / 2 ^ 53 := by rw [hU]; norm_num
  have U0 : 0 < U := by rw [e53]; norm_num
  have one_le : ∀ n : Nat, 1 ≤ (1 + U) ^ n := fun n => one_le_pow₀ (by linarith)
  have mono : ∀ n m : Nat, n ≤ m → (1 + U) ^ n ≤ (1 + U) ^ m := fun n m h => pow_le_pow_right₀ (by linarith) h
  have Ele := pow7_le hk.le
  rw [← hU] at Ele
  have E1 : (1 + U) ^ (7 * k) - 1 ≤ 1 := by
    refine Ele.trans ?_
    rw [e53]; nlinarith
  by_cases ha : a = 0
  · subst ha
    refine ⟨s, q, ?_, ?_⟩
    · unfold ssqStepF nonzeroF
      simp
    · refine ⟨I.s0, I.q0, I.rs, I.rq, by simpa using I.lo, ?_, I.start, ?_⟩
      · have := I.hi
        push_cast
        nlinarith [sq_nonneg s]
      · have := I.err
        simp only [ne_eq, OfNat.ofNat_ne_zero, not_false_eq_true, zero_pow, add_zero]
        refine this.trans (mul_le_mul_of_nonneg_right ?_ S0)
        have := mono (7 * k) (7 * (k + 1)) (by omega)
        linarith
  have a1 : 0 < a := lt_of_le_of_ne a0 (Ne.symm ha)
  -- facts for a positive scale
  have pos : 0 < s → 1 ≤ S / s ^ 2 ∧ |q - S / s ^ 2| ≤ ((1 + U) ^ (7 * k) - 1) * (S / s ^ 2) ∧ S / s ^ 2 ≤ k ∧ q ≤ 2 * k := by
    intro hs
    have s2 : 0 < s ^ 2 := by positivity
    have Q1 : 1 ≤ S / s ^ 2 := by rw [le_div_iff₀ s2]; linarith [I.lo]
    have hq : |q - S / s ^ 2| ≤ ((1 + U) ^ (7 * k) - 1) * (S / s ^ 2) := by
      have e : q - S / s ^ 2 = (s ^ 2 * q - S) / s ^ 2 := by field_simp
      rw [e, abs_div, abs_of_pos s2, ← mul_div_assoc]
      exact div_le_div_of_nonneg_right I.err s2.le
    have Qk : S / s ^ 2 ≤ k := by rw [div_le_iff₀ s2]; exact I.hi
    refine ⟨Q1, hq, Qk, ?_⟩
    have := (abs_le.1 hq).2
    have : ((1 + U) ^ (7 * k) - 1) * (S / s ^ 2) ≤ 1 * (S / s ^ 2) := mul_le_mul_of_nonneg_right E1 (by linarith)
    linarith
  have q2 : q ≤ 2 ^ 42 := by
    rcases I.s0.eq_or_lt with h | h
    · rw [I.start h.symm]; norm_num
    · have := (pos h).2.2.2
      linarith
  have wpos : (0 : ℚ) < (2 : ℚ) ^ (-1075 : ℤ) := zpow_pos (by norm_num) _
  have wle : (2 : ℚ) ^ (-1075 : ℤ) ≤ 1 / 2 ^ 100 := by
    have : (2 : ℚ) ^ (-1075 : ℤ) ≤ (2 : ℚ) ^ (-100 : ℤ) := zpow_le_zpow_right₀ (by norm_num) (by norm_num)
    have e : (2 : ℚ) ^ (-100 : ℤ) = 1 / 2 ^ 100 := by norm_num
    rwa [e] at this
  have r1 : Repr binary64 (1 : ℚ) := by simpa using repr_nat60 0 (by norm_num)
  have nz : nonzeroF (.fin b a) = true := by simp [nonzeroF, ha]
  by_cases hlt : s < a
  · -- the scale changes
    obtain ⟨p, ep, eF, p0, p2, rp, hp⟩ := pow2F_quot hsq I.s0 hlt.le a1
    set m := rnd binary64 (q * p) with hm
    have m0 : 0 ≤ m := rnd_nonneg (mul_nonneg I.q0 p0)
    have m2 : m ≤ 2 ^ 43 := rnd_le60 43 (by norm_num) (by nlinarith [I.q0])
    set q' := rnd binary64 (1 + m) with hq'
    have q'2 : q' ≤ 2 ^ 44 := rnd_le60 44 (by norm_num) (by linarith)
    have q'0 : 0 ≤ q' := rnd_nonneg (by linarith)
    refine ⟨a, q', ?_, a0, q'0, ra, repr_rnd _ _, by linarith, ?_, fun h => absurd h ha, ?_⟩
    · unfold ssqStepF
      rw [if_pos nz]
      show (if ltF (.fin false s) (.fin false a) then (Fp.fin false a, Fp.fin false 1 + Fp.fin false q * pow2F sq (Fp.fin false s / Fp.fin false a)) else _) = _
      rw [ltF_fin, if_pos (decide_eq_true hlt), eF, mul_big, ← hm, big_lt (small_big (m2.trans (by norm_num))),
        add_big (by norm_num) m0 r1 (repr_rnd _ _) (by norm_num) (m2.trans (by norm_num)), ← hq',
        big_lt (small_big (q'2.trans (by norm_num)))]
    · push_cast
      have : (k : ℚ) * s ^ 2 ≤ k * a ^ 2 := mul_le_mul_of_nonneg_left (by nlinarith [I.s0]) hk0
      linarith [I.hi]
    · rcases I.s0.eq_or_lt with h | h
      · have Sz : S = 0 := le_antisymm (by have := I.hi; rw [← h] at this; simpa using this) S0
        have pz : p = 0 := by rw [← ep, ← h]; simp [rnd_zero, hsq.zero]
        have mz : m = 0 := by rw [hm, pz]; simp [rnd_zero]
        have q1 : q' = 1 := by rw [hq', mz, add_zero]; exact rnd_of_repr r1
        rw [Sz, q1]
        have := one_le (7 * (k + 1))
        simp only [mul_one, zero_add, sub_self, abs_zero]
        exact mul_nonneg (by linarith) (sq_nonneg a)
      · obtain ⟨Q1, hq, Qk, qk⟩ := pos h
        have hmerr := rnd_err binary64 (q * p)
        rw [unit_b64, tiny_b64, ← hm, ← hU] at hmerr
        have hqerr := rnd_add_err r1 (repr_rnd binary64 (q * p))
        rw [unit_b64, ← hm, ← hq', ← hU] at hqerr
        rw [← hU] at hp
        have F0 := one_le 4
        have E0 := one_le (7 * k)
        have small : 20 * (q * (2 : ℚ) ^ (-1075 : ℤ)) + 2 * (2 : ℚ) ^ (-1075 : ℤ) ≤ U := by
          generalize (2 : ℚ) ^ (-1075 : ℤ) = w at *
          have : q * w ≤ 2 ^ 42 * (1 / 2 ^ 100) := mul_le_mul q2 wle wpos.le (by norm_num)
          rw [e53]
          norm_num at this wle ⊢
          linarith
        have key := change_err U0 (by rw [e53]; norm_num) wpos hq hp (by linarith) (by linarith) I.q0 p0 (by linarith) m0 small hmerr hqerr
        have e7 : (1 + ((1 + U) ^ (7 * k) - 1)) * (1 + ((1 + U) ^ 4 - 1)) * (1 + U) ^ 3 = (1 + U) ^ (7 * (k + 1)) := by ring
        rw [e7] at key
        have eS : S + a ^ 2 = a ^ 2 * (1 + S / s ^ 2 * (s / a) ^ 2) := by field_simp; ring
        rw [eS, ← mul_sub, abs_mul, abs_of_pos (by positivity : 0 < a ^ 2)]
        calc _ ≤ a ^ 2 * _ := mul_le_mul_of_nonneg_left key (by positivity)
          _ = _ := by ring
  · -- the scale is kept
    have hle : a ≤ s := not_lt.1 hlt
    have hs : 0 < s := lt_of_lt_of_le a1 hle
    obtain ⟨p, ep, eF, p0, p2, rp, hp⟩ := pow2F_quot hsq a0 hle hs
    set q' := rnd binary64 (q + p) with hq'
    have q'2 : q' ≤ 2 ^ 43 := rnd_le60 43 (by norm_num) (by linarith)
    have q'0 : 0 ≤ q' := rnd_nonneg (by linarith [I.q0])
    refine ⟨s, q', ?_, hs.le, q'0, I.rs, repr_rnd _ _, by nlinarith [I.lo], ?_, fun h => absurd h hs.ne', ?_⟩
    · unfold ssqStepF
      rw [if_pos nz]
      show (if ltF (.fin false s) (.fin false a) then _ else (Fp.fin false s, Fp.fin false q + pow2F sq (Fp.fin false a / Fp.fin false s))) = _
      rw [ltF_fin, if_neg (by simpa using hle), eF,
        add_big I.q0 p0 I.rq rp (q2.trans (by norm_num)) (p2.trans (by norm_num)), ← hq',
        big_lt (small_big (q'2.trans (by norm_num)))]
    · push_cast
      have : a ^ 2 ≤ s ^ 2 := by nlinarith
      linarith [I.hi]
    · obtain ⟨Q1, hq, Qk, qk⟩ := pos hs
      have hqerr := rnd_add_err I.rq rp
      rw [unit_b64, ← hq', ← hU] at hqerr
      rw [← hU] at hp
      have wU : 8 * (2 : ℚ) ^ (-1075 : ℤ) ≤ U := by
        generalize (2 : ℚ) ^ (-1075 : ℤ) = w at *
        rw [e53]
        norm_num at wle ⊢
        linarith
      set E := (1 + U) ^ (7 * k + 4) - 1 with hE
      have E0 : 0 ≤ E := by have := one_le (7 * k + 4); rw [hE]; linarith
      have hq2 : |q - S / s ^ 2| ≤ E * (S / s ^ 2) := hq.trans (mul_le_mul_of_nonneg_right (by
        have := mono (7 * k) (7 * k + 4) (by omega)
        rw [hE]; linarith) (by linarith))
      have hp2 : |p - (a / s) ^ 2| ≤ (a / s) ^ 2 * E + 8 * (2 : ℚ) ^ (-1075 : ℤ) := hp.trans (by
        have := mono 4 (7 * k + 4) (by omega)
        have := mul_le_mul_of_nonneg_left (show (1 + U) ^ 4 - 1 ≤ E by rw [hE]; linarith) (sq_nonneg (a / s))
        exact add_le_add this le_rfl)
      have key := keep_err U0 wpos wU hq2 hp2 E0 I.q0 p0 Q1 hqerr
      have e6 : (1 + E) * (1 + U) ^ 2 = (1 + U) ^ (7 * k + 6) := by rw [hE]; ring
      rw [e6] at key
      have eS : S + a ^ 2 = s ^ 2 * (S / s ^ 2 + (a / s) ^ 2) := by field_simp
      have T0 : 0 ≤ S / s ^ 2 + (a / s) ^ 2 := by positivity
      rw [eS, ← mul_sub, abs_mul, abs_of_pos (by positivity : 0 < s ^ 2)]
      have := mono (7 * k + 6) (7 * (k + 1)) (by omega)
      calc _ ≤ s ^ 2 * _ := mul_le_mul_of_nonneg_left key (by positivity)
        _ ≤ s ^ 2 * (((1 + U) ^ (7 * (k + 1)) - 1) * (S / s ^ 2 + (a / s) ^ 2)) :=
            mul_le_mul_of_nonneg_left (mul_le_mul_of_nonneg_right (by linarith) T0) (by positivity)
        _ = _ := by ring

end Verif.Blas
