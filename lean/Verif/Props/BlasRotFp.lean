import Verif.Model.BlasRotFp
import Verif.Props.BlasNormFp

/-!
# C157: `rotg` of cxxblas in floating point
-/

namespace Verif.Blas

open Verif.Num Verif.IntSqrt Verif.Ieee Verif.Vec

/-- What is expected of the rotation: `r` is the signed length of `(a, b)`, `c` and `s` are `a / r` and `b / r`, `c² + s² = 1` and
`c b = s a`, all up to a few roundings. -/
def GoodRot (a b : Fp) (g : GivensF) : Prop :=
  FiniteD g.a ∧ FiniteD g.c ∧ FiniteD g.s ∧ ∃ e : ℝ, (e = 1 ∨ e = -1) ∧
    let N := √((value a : ℝ) ^ 2 + (value b : ℝ) ^ 2)
    |(value g.a : ℝ) - e * N| ≤ 11 * (2 : ℝ) ^ (-53 : ℤ) * N ∧
    |(value g.c : ℝ) - e * value a / N| ≤ 14 * (2 : ℝ) ^ (-53 : ℤ) * (|(value a : ℝ)| / N) + (2 : ℝ) ^ (-1075 : ℤ) ∧
    |(value g.s : ℝ) - e * value b / N| ≤ 14 * (2 : ℝ) ^ (-53 : ℤ) * (|(value b : ℝ)| / N) + (2 : ℝ) ^ (-1075 : ℤ) ∧
    |(value g.c : ℝ) ^ 2 + (value g.s : ℝ) ^ 2 - 1| ≤ 30 * (2 : ℝ) ^ (-53 : ℤ) ∧
    |(value g.c : ℝ) * value b - value g.s * value a| ≤ 16 * (2 : ℝ) ^ (-53 : ℤ) * N

/-- The whole property: so it is for all finite numbers not both zero. -/
def C157Claim : Prop := ∀ a b, FiniteD a → FiniteD b → (value a ≠ 0 ∨ value b ≠ 0) → GoodRot a b (rotgF a b)

theorem quot_err {A N R C u h : ℝ} (hu : 0 < u) (hu' : u ≤ 1 / 1000) (A0 : 0 ≤ A) (N0 : 0 < N) (hR : |R - N| ≤ 11 * u * N)
    (hC : |C - A / R| ≤ u * |A / R| + h) : |C - A / N| ≤ 14 * u * (A / N) + h := by
  have R1 : (1 - 11 * u) * N ≤ R := by linarith [(abs_le.1 hR).1]
  have R0 : 0 < R := lt_of_lt_of_le (mul_pos (by linarith) N0) R1
  rw [abs_of_nonneg (by positivity : 0 ≤ A / R)] at hC
  have k0 : 0 ≤ A / N := by positivity
  have d : |A / R - A / N| ≤ 12 * u * (A / N) := by
    have e : A / R - A / N = (A / N) * ((N - R) / R) := by field_simp
    rw [e, abs_mul, abs_of_nonneg k0, abs_div, abs_of_pos R0, abs_sub_comm]
    have : |R - N| / R ≤ 12 * u := by
      rw [div_le_iff₀ R0]
      have : 12 * u * ((1 - 11 * u) * N) ≤ 12 * u * R := mul_le_mul_of_nonneg_left R1 (by linarith)
      have : 0 ≤ u * N * (1 / 1000 - u) := mul_nonneg (by positivity) (by linarith)
      have : 0 < u * N := by positivity
      nlinarith
    calc A / N * (|R - N| / R) ≤ A / N * (12 * u) := mul_le_mul_of_nonneg_left this k0
      _ = _ := by ring
  have d2 : A / R ≤ (1 + 12 * u) * (A / N) := by linarith [(abs_le.1 d).2]
  have d3 : |C - A / N| ≤ |C - A / R| + |A / R - A / N| := by
    have := abs_add_le (C - A / R) (A / R - A / N); simpa using this
  have d4 : u * (A / R) ≤ u * ((1 + 12 * u) * (A / N)) := mul_le_mul_of_nonneg_left d2 hu.le
  have d5 : 0 ≤ u * (A / N) * (1 / 12 - u) := mul_nonneg (by positivity) (by linarith)
  nlinarith

/-- From the errors of the two numbers to that of the rotation. -/
theorem unit_err {x y c s u h : ℝ} (hu : 0 < u) (hu' : u ≤ 1 / 10000) (h0 : 0 < h) (hh : h ≤ u ^ 2) (hxy : x ^ 2 + y ^ 2 = 1)
    (hc : |c - x| ≤ 14 * u * |x| + h) (hs : |s - y| ≤ 14 * u * |y| + h) :
    |c ^ 2 + s ^ 2 - 1| ≤ 30 * u ∧ |c * y - s * x| ≤ 15 * u := by
  have x1 : |x| ≤ 1 := (sq_le_one_iff_abs_le_one x).1 (by nlinarith [sq_nonneg y])
  have y1 : |y| ≤ 1 := (sq_le_one_iff_abs_le_one y).1 (by nlinarith [sq_nonneg x])
  have x0 := abs_nonneg x
  have y0 := abs_nonneg y
  have sx : |x| ^ 2 = x ^ 2 := sq_abs x
  have sy : |y| ^ 2 = y ^ 2 := sq_abs y
  have hu2 : u ^ 2 ≤ u / 10000 := by nlinarith
  have one : ∀ z d : ℝ, |d - z| ≤ 14 * u * |z| + h → |z| ≤ 1 → |d ^ 2 - z ^ 2| ≤ 28 * u * |z| ^ 2 + u := by
    intro z d hd z1
    have z0 := abs_nonneg z
    have e : d ^ 2 - z ^ 2 = 2 * (z * (d - z)) + (d - z) * (d - z) := by ring
    have a1 : |d - z| ≤ 15 * u := by nlinarith
    rw [e]
    have b1 := abs_add_le (2 * (z * (d - z))) ((d - z) * (d - z))
    rw [abs_mul, abs_mul, abs_mul, abs_two] at b1
    have b2 : |z| * |d - z| ≤ |z| * (14 * u * |z| + h) := mul_le_mul_of_nonneg_left hd z0
    have b3 : |d - z| * |d - z| ≤ 15 * u * (15 * u) := mul_le_mul a1 a1 (abs_nonneg _) (by positivity)
    have b4 : |z| * h ≤ 1 * h := mul_le_mul_of_nonneg_right z1 h0.le
    nlinarith
  constructor
  · have e : c ^ 2 + s ^ 2 - 1 = (c ^ 2 - x ^ 2) + (s ^ 2 - y ^ 2) := by rw [← hxy]; ring
    rw [e]
    have := abs_add_le (c ^ 2 - x ^ 2) (s ^ 2 - y ^ 2)
    have := one x c hc x1
    have := one y s hs y1
    nlinarith
  · have e : c * y - s * x = (c - x) * y - (s - y) * x := by ring
    rw [e]
    have b1 := abs_sub ((c - x) * y) ((s - y) * x)
    rw [abs_mul, abs_mul] at b1
    have b2 : |c - x| * |y| ≤ (14 * u * |x| + h) * |y| := mul_le_mul_of_nonneg_right hc y0
    have b3 : |s - y| * |x| ≤ (14 * u * |y| + h) * |x| := mul_le_mul_of_nonneg_right hs x0
    have b4 : 2 * (|x| * |y|) ≤ 1 := by nlinarith [sq_nonneg (|x| - |y|)]
    have b5 : |y| * h ≤ 1 * h := mul_le_mul_of_nonneg_right y1 h0.le
    have b6 : |x| * h ≤ 1 * h := mul_le_mul_of_nonneg_right x1 h0.le
    have b7 : u * (2 * (|x| * |y|)) ≤ u * 1 := mul_le_mul_of_nonneg_left b4 hu.le
    nlinarith

theorem toFp_fin (g : Bool) {x : ℚ} (h : rnd binary64 x < 2 ^ 1024) : toFp .dbl g x = .fin g (rnd binary64 x) := if_neg (not_le.2 h)

theorem toFp_div (g g' : Bool) {a b : ℚ} (hb : 0 < b) (h : rnd binary64 (a / b) < 2 ^ 1024) :
    (Fp.fin g a / Fp.fin g' b : Fp) = .fin (g != g') (rnd binary64 (a / b)) := by
  show (if b = 0 then _ else toFp .dbl (g != g') (a / b)) = _
  rw [if_neg hb.ne', toFp_fin _ h]

/-- The numbers of the computation. -/
theorem rot_numbers {A B : ℚ} (A0 : 0 ≤ A) (B0 : 0 ≤ B) (rA : Repr binary64 A) (rB : Repr binary64 B) (hpos : 0 < A ^ 2 + B ^ 2)
    (hsum : A + B ≤ 2 ^ 1023) :
    ∃ σ p q t : ℚ, σ = rnd binary64 (A + B) ∧ p = rnd binary64 (rnd binary64 (A / σ) ^ 2) ∧ q = rnd binary64 (rnd binary64 (B / σ) ^ 2) ∧
      t = rnd binary64 (p + q) ∧ 0 < σ ∧ σ ≤ 2 ^ 1023 ∧ A ≤ σ ∧ B ≤ σ ∧ 0 < t ∧ 0 ≤ p ∧ 0 ≤ q ∧ p ≤ 2 ∧ q ≤ 2 ∧ t ≤ 2 ^ 2 ∧
      |σ ^ 2 * t - (A ^ 2 + B ^ 2)| ≤ 7 * (2 : ℚ) ^ (-53 : ℤ) * (A ^ 2 + B ^ 2) := by
  have AB : 0 < A + B := by
    rcases A0.eq_or_lt with h | h
    · rcases B0.eq_or_lt with g | g
      · rw [← h, ← g] at hpos; norm_num at hpos
      · linarith
    · linarith
  set σ := rnd binary64 (A + B) with hσ
  have Aσ : A ≤ σ := le_rnd_of_repr rA (by linarith)
  have Bσ : B ≤ σ := le_rnd_of_repr rB (by linarith)
  have σ0 : 0 < σ := by
    rcases A0.eq_or_lt with h | h
    · linarith
    · linarith
  have r1023 : Repr binary64 ((2 : ℚ) ^ 1023) := by
    have := repr_two_zpow (f := binary64) (e := 1023) (by show (-1074 : ℤ) ≤ _; omega)
    exact_mod_cast this
  have σ1 : σ ≤ 2 ^ 1023 := rnd_le_of_repr r1023 hsum
  obtain ⟨p, ep, -, p0, p2, rp, hp⟩ := pow2F_quot goodSq_rnd A0 Aσ σ0
  obtain ⟨q, eq, -, q0, q2, rq, hq⟩ := pow2F_quot goodSq_rnd B0 Bσ σ0
  set t := rnd binary64 (p + q) with ht
  have t4 : t ≤ 2 ^ 2 := rnd_le60 2 (by norm_num) (by linarith)
  have hterr := rnd_add_err rp rq
  have hserr := rnd_add_err rA rB
  rw [unit_b64, abs_of_nonneg (by linarith : 0 ≤ p + q), ← ht] at hterr
  rw [unit_b64, abs_of_nonneg (by linarith : 0 ≤ A + B), ← hσ] at hserr
  have wle : (2 : ℚ) ^ (-1075 : ℤ) ≤ 1 / 2 ^ 100 := by
    have : (2 : ℚ) ^ (-1075 : ℤ) ≤ (2 : ℚ) ^ (-100 : ℤ) := zpow_le_zpow_right₀ (by norm_num) (by norm_num)
    have e : (2 : ℚ) ^ (-100 : ℤ) = 1 / 2 ^ 100 := by norm_num
    rwa [e] at this
  have wpos : (0 : ℚ) < (2 : ℚ) ^ (-1075 : ℤ) := zpow_pos (by norm_num) _
  have e53 : (2 : ℚ) ^ (-53 : ℤ) = 1 / 2 ^ 53 := by norm_num
  have F : (1 + (2 : ℚ) ^ (-53 : ℤ)) ^ 4 - 1 ≤ 9 / 2 * (1 / 2 ^ 53) := by rw [e53]; norm_num
  generalize (1 + (2 : ℚ) ^ (-53 : ℤ)) ^ 4 - 1 = E4 at *
  generalize (2 : ℚ) ^ (-1075 : ℤ) = w at *
  rw [e53] at hterr hserr ⊢
  set S := A ^ 2 + B ^ 2 with hS
  have σ2 : 0 < σ ^ 2 := by positivity
  set T := S / σ ^ 2 with hT
  have eT : (A / σ) ^ 2 + (B / σ) ^ 2 = T := by rw [hT, hS]; field_simp
  have T4 : 1 / 4 ≤ T := by
    rw [hT, le_div_iff₀ σ2]
    have h1 : σ ≤ (1 + 1 / 2 ^ 53) * (A + B) := by
      clear hsum σ1
      linarith [(abs_le.1 hserr).2]
    have h2 : σ ^ 2 ≤ 2 * (A + B) ^ 2 := by
      calc σ ^ 2 ≤ ((1 + 1 / 2 ^ 53) * (A + B)) ^ 2 := pow_le_pow_left₀ σ0.le h1 2
        _ = (1 + 1 / 2 ^ 53) ^ 2 * (A + B) ^ 2 := by ring
        _ ≤ 2 * (A + B) ^ 2 := mul_le_mul_of_nonneg_right (by norm_num) (sq_nonneg _)
    nlinarith [sq_nonneg (A - B)]
  have d1 : |p + q - T| ≤ 9 / 2 * (1 / 2 ^ 53) * T + 16 * w := by
    have e : p + q - T = (p - (A / σ) ^ 2) + (q - (B / σ) ^ 2) := by rw [← eT]; ring
    rw [e]
    have := abs_add_le (p - (A / σ) ^ 2) (q - (B / σ) ^ 2)
    have h1 : (A / σ) ^ 2 * E4 ≤ (A / σ) ^ 2 * (9 / 2 * (1 / 2 ^ 53)) := mul_le_mul_of_nonneg_left F (sq_nonneg _)
    have h2 : (B / σ) ^ 2 * E4 ≤ (B / σ) ^ 2 * (9 / 2 * (1 / 2 ^ 53)) := mul_le_mul_of_nonneg_left F (sq_nonneg _)
    rw [← eT]
    linarith
  have d2 : |t - T| ≤ 7 * (1 / 2 ^ 53) * T := by
    have h1 : |t - T| ≤ |t - (p + q)| + |p + q - T| := by
      have := abs_add_le (t - (p + q)) (p + q - T); simpa using this
    have h2 : p + q ≤ 2 * T := by
      have := (abs_le.1 d1).2
      norm_num at wle this ⊢
      linarith
    have h3 : p + q ≤ (1 + 1 / 2 ^ 50) * T + 16 * w := by
      have := (abs_le.1 d1).2
      norm_num at wle this ⊢
      linarith
    norm_num at wle d1 hterr h3 ⊢
    linarith
  have t0 : 0 < t := by
    have := (abs_le.1 d2).1
    norm_num at this
    linarith
  refine ⟨σ, p, q, t, rfl, ep.symm, eq.symm, rfl, σ0, σ1, Aσ, Bσ, t0, p0, q0, p2, q2, t4, ?_⟩
  have e : σ ^ 2 * t - S = σ ^ 2 * (t - T) := by rw [hT]; field_simp
  rw [e, abs_mul, abs_of_pos σ2]
  calc σ ^ 2 * |t - T| ≤ σ ^ 2 * (7 * (1 / 2 ^ 53) * T) := mul_le_mul_of_nonneg_left d2 σ2.le
    _ = _ := by rw [hT]; field_simp

theorem value_abs (b : Bool) {A : ℚ} (h : 0 ≤ A) : |value (.fin b A)| = A := by
  cases b <;> simp [value, Fp.signed, abs_of_nonneg h]

/-- The sign as a number. -/
noncomputable def sgn (b : Bool) : ℝ := if b then -1 else 1

theorem value_sgn (b : Bool) (A : ℚ) : (value (.fin b A) : ℝ) = sgn b * A := by
  cases b <;> simp [value, Fp.signed, sgn]

theorem sgn_ne (a b : Bool) : sgn (a != b) = sgn a * sgn b := by
  cases a <;> cases b <;> simp [sgn]

theorem sgn_sq (b : Bool) : sgn b * sgn b = 1 := by
  cases b <;> simp [sgn]

theorem sgn_abs (b : Bool) : |sgn b| = 1 := by
  cases b <;> simp [sgn]

/-- The computation, when nothing overflows. -/
theorem rotgF_fin {ba bb : Bool} {A B σ p q t R : ℚ} (A0 : 0 ≤ A) (B0 : 0 ≤ B) (rA : Repr binary64 A) (rB : Repr binary64 B)
    (la : A < 2 ^ 1024) (lb : B < 2 ^ 1024) (hpos : 0 < A ^ 2 + B ^ 2)
    (hσ : σ = rnd binary64 (A + B)) (hp : p = rnd binary64 (rnd binary64 (A / σ) ^ 2))
    (hq : q = rnd binary64 (rnd binary64 (B / σ) ^ 2)) (ht : t = rnd binary64 (p + q)) (hR : R = rnd binary64 (σ * sqrtRnd t))
    (σ0 : 0 < σ) (σl : σ < 2 ^ 1024) (Aσ : A ≤ σ) (Bσ : B ≤ σ) (t0 : 0 < t) (t4 : t ≤ 2 ^ 2) (p0 : 0 ≤ p) (q0 : 0 ≤ q) (p2 : p ≤ 2)
    (q2 : q ≤ 2) (R0 : 0 < R) (Rl : R < 2 ^ 1024) (cl : rnd binary64 (A / R) < 2 ^ 1024) (sl : rnd binary64 (B / R) < 2 ^ 1024) :
    ∃ z, rotgF (.fin ba A) (.fin bb B) = ⟨.fin (if B < A then ba else bb) R, z,
      .fin (ba != if B < A then ba else bb) (rnd binary64 (A / R)), .fin (bb != if B < A then ba else bb) (rnd binary64 (B / R))⟩ := by
  have one : ∀ x, x ≤ σ → rnd binary64 (x / σ) ≤ 2 ^ 60 := fun x hx =>
    (rnd_le60 0 (by norm_num) (by rw [div_le_iff₀ σ0]; simpa using hx)).trans (by norm_num)
  have e1 : (absF (.fin ba A) + absF (.fin bb B) : Fp) = .fin false σ := by
    have h := addF_big A0 B0 rA rB
    rw [big_lt la, big_lt lb, ← hσ, big_lt σl] at h
    exact h
  have e2 : ∀ g x, x ≤ σ → (absF (.fin g x) / .fin false σ : Fp) = .fin false (rnd binary64 (x / σ)) := by
    intro g x hx
    show (Fp.fin false x / Fp.fin false σ : Fp) = _
    rw [div_big σ0, big_lt (small_big (one x hx))]
  have e3 : (Fp.fin false (rnd binary64 (A / σ)) * Fp.fin false (rnd binary64 (A / σ)) : Fp) = .fin false p := by
    rw [mul_big, ← pow_two, ← hp, big_lt (small_big (p2.trans (by norm_num)))]
  have e4 : (Fp.fin false (rnd binary64 (B / σ)) * Fp.fin false (rnd binary64 (B / σ)) : Fp) = .fin false q := by
    rw [mul_big, ← pow_two, ← hq, big_lt (small_big (q2.trans (by norm_num)))]
  have e5 : (Fp.fin false p + Fp.fin false q : Fp) = .fin false t := by
    rw [add_big p0 q0 (by rw [hp]; exact repr_rnd _ _) (by rw [hq]; exact repr_rnd _ _) (p2.trans (by norm_num)) (q2.trans (by norm_num)),
      ← ht, big_lt (small_big (t4.trans (by norm_num)))]
  have e6 : (Fp.fin false σ * stdSqrt (.fin false t) : Fp) = .fin false R := by
    have : stdSqrt (.fin false t) = .fin false (sqrtRnd t) := by simp [stdSqrt, t0.ne']
    rw [this, mul_big, ← hR, big_lt Rl]
  have e7 : (ltF (absF (.fin bb B)) (absF (.fin ba A)) = true) ↔ B < A := by
    show ltF (.fin false B) (.fin false A) = true ↔ _
    rw [ltF_fin]; simp
  have e8 : (if ltF (if ltF (absF (.fin bb B)) (absF (.fin ba A)) = true then Fp.fin ba A else Fp.fin bb B) 0 = true
      then negF (.fin false R) else .fin false R) = .fin (if B < A then ba else bb) R := by
    have key : ∀ (g : Bool) (x : ℚ), 0 < x → (if ltF (.fin g x) 0 = true then negF (.fin false R) else Fp.fin false R) = .fin g R := by
      intro g x hx
      have : ltF (.fin g x) 0 = g := by
        show decide (Fp.signed g x < Fp.signed false 0) = g
        cases g <;> simp [Fp.signed, hx, hx.le]
      rw [this]
      cases g <;> rfl
    by_cases hlt : B < A
    · rw [if_pos (e7.2 hlt), if_pos hlt]
      exact key _ _ (lt_of_le_of_lt B0 hlt)
    · rw [if_neg (fun h => hlt (e7.1 h)), if_neg hlt]
      refine key _ _ (lt_of_le_of_ne B0 fun h => ?_)
      have : A = 0 := le_antisymm (by linarith [not_lt.1 hlt]) A0
      rw [← h, this] at hpos
      norm_num at hpos
  have e9 : nonzeroF (.fin false σ) = true := by simp [nonzeroF, σ0.ne']
  unfold rotgF
  simp only [e1, e2 ba A Aσ, e2 bb B Bσ, e3, e4, e5, e6]
  rw [if_pos e9, e8, toFp_div _ _ R0 cl, toFp_div _ _ R0 sl]
  exact ⟨_, rfl⟩

/-- **C157, the part that holds** `rotg` of finite doubles whose length is at least `2^-1021` and whose magnitudes add up to at most `2^1023`:
a rotation of the plane up to 30 roundings, which takes `(a, b)` to `(r, 0)`. Missing: smaller and larger numbers (`C157_tiny`,
`C157_huge`). -/
theorem C157_partial {a b : Fp} (ha : FiniteD a) (hb : FiniteD b) (hsum : |value a| + |value b| ≤ 2 ^ 1023)
    (hlow : ((2 : ℚ) ^ (-1021 : ℤ)) ^ 2 ≤ value a ^ 2 + value b ^ 2) : GoodRot a b (rotgF a b) := by
  obtain ⟨ba, A, rfl, A0, la, rA⟩ := ha
  obtain ⟨bb, B, rfl, B0, lb, rB⟩ := hb
  rw [value_abs _ A0, value_abs _ B0] at hsum
  have va : value (.fin ba A) ^ 2 = A ^ 2 := by rw [pow_two, value_sq, pow_two]
  have vb : value (.fin bb B) ^ 2 = B ^ 2 := by rw [pow_two, value_sq, pow_two]
  rw [va, vb] at hlow
  have hpos : 0 < A ^ 2 + B ^ 2 := lt_of_lt_of_le (pow_pos (zpow_pos (by norm_num) _) _) hlow
  obtain ⟨σ, p, q, t, hσ, hp, hq, ht, σ0, σ1, Aσ, Bσ, t0, p0, q0, p2, q2, t4, herr⟩ := rot_numbers A0 B0 rA rB hpos hsum
  set R := rnd binary64 (σ * sqrtRnd t) with hR
  set N : ℝ := √((A : ℝ) ^ 2 + (B : ℝ) ^ 2) with hN
  have hposR : (0 : ℝ) < (A : ℝ) ^ 2 + (B : ℝ) ^ 2 := by exact_mod_cast hpos
  have N0 : 0 < N := Real.sqrt_pos.2 hposR
  have N2 : N ^ 2 = (A : ℝ) ^ 2 + (B : ℝ) ^ 2 := Real.sq_sqrt hposR.le
  have A0R : (0 : ℝ) ≤ A := by exact_mod_cast A0
  have B0R : (0 : ℝ) ≤ B := by exact_mod_cast B0
  have AN : (A : ℝ) ≤ N := Real.le_sqrt_of_sq_le (by nlinarith)
  have BN : (B : ℝ) ≤ N := Real.le_sqrt_of_sq_le (by nlinarith)
  have NAB : N ≤ A + B := by
    rw [hN, Real.sqrt_le_left (by linarith)]; nlinarith
  have Nlow : (2 : ℝ) ^ (-1021 : ℤ) ≤ N := by
    refine Real.le_sqrt_of_sq_le ?_
    have := (Rat.cast_le (K := ℝ)).2 hlow
    push_cast at this
    exact this
  have Nhi : N ≤ 2 ^ 1023 := by
    have : (A : ℝ) + B ≤ 2 ^ 1023 := by exact_mod_cast hsum
    linarith
  have e53 : (2 : ℝ) ^ (-53 : ℤ) = 1 / 2 ^ 53 := by norm_num
  have h0 : (0 : ℝ) < (2 : ℝ) ^ (-1075 : ℤ) := zpow_pos (by norm_num) _
  have hN' : (2 : ℝ) ^ (-1075 : ℤ) ≤ (2 : ℝ) ^ (-53 : ℤ) * N := by
    have e : (2 : ℝ) ^ (-1075 : ℤ) = (2 : ℝ) ^ (-54 : ℤ) * (2 : ℝ) ^ (-1021 : ℤ) := by
      rw [← zpow_add₀ (by norm_num)]; congr 1
    rw [e]
    exact mul_le_mul (zpow_le_zpow_right₀ (by norm_num) (by norm_num)) Nlow (zpow_pos (by norm_num) _).le (by positivity)
  have hh : (2 : ℝ) ^ (-1075 : ℤ) ≤ ((2 : ℝ) ^ (-53 : ℤ)) ^ 2 := by
    have e : ((2 : ℝ) ^ (-53 : ℤ)) ^ 2 = (2 : ℝ) ^ (-106 : ℤ) := by
      rw [pow_two, ← zpow_add₀ (by norm_num)]; congr 1
    rw [e]
    exact zpow_le_zpow_right₀ (by norm_num) (by norm_num)
  -- the length
  have hRerr : |(R : ℝ) - N| ≤ 11 * (2 : ℝ) ^ (-53 : ℤ) * N := by
    have hr := rnd_err binary64 (σ * sqrtRnd t)
    rw [unit_b64, tiny_b64, ← hR] at hr
    have hrR : |(R : ℝ) - (σ : ℝ) * (sqrtRnd t : ℝ)| ≤
        (2 : ℝ) ^ (-53 : ℤ) * |(σ : ℝ) * (sqrtRnd t : ℝ)| + (2 : ℝ) ^ (-1075 : ℤ) := by
      have := (Rat.cast_le (K := ℝ)).2 hr
      push_cast at this
      exact this
    have herrR : |(σ : ℝ) ^ 2 * (t : ℝ) - ((A : ℝ) ^ 2 + (B : ℝ) ^ 2)| ≤ 7 * (2 : ℝ) ^ (-53 : ℤ) * ((A : ℝ) ^ 2 + (B : ℝ) ^ 2) := by
      have := (Rat.cast_le (K := ℝ)).2 herr
      push_cast at this
      exact this
    have key := final_err (by exact_mod_cast σ0.le) (by exact_mod_cast t0.le) hposR (by rw [e53]; norm_num) (by rw [e53]; norm_num)
      (by rw [e53]; norm_num) (by rw [e53]; norm_num) herrR (sqrtRnd_err t0) hrR
    rw [← hN] at key
    generalize (2 : ℝ) ^ (-1075 : ℤ) = h at *
    generalize (2 : ℝ) ^ (-53 : ℤ) = u at *
    linarith
  have Rlo : N / 2 ≤ R := by
    have h1 := (abs_le.1 hRerr).1
    rw [e53] at h1
    generalize N = x at *
    clear hN' hh Nlow Nhi e53 h0
    norm_num at h1
    linarith
  have Rhi : (R : ℝ) ≤ 3 / 2 * N := by
    have h1 := (abs_le.1 hRerr).2
    rw [e53] at h1
    generalize N = x at *
    clear hN' hh Nlow Nhi e53 h0
    norm_num at h1
    linarith
  have R0 : 0 < R := by
    have : (0 : ℝ) < R := by linarith
    exact_mod_cast this
  have two10 : (2 : ℝ) ^ 1024 = 2 * 2 ^ 1023 := by rw [← pow_succ']
  have Rl : R < 2 ^ 1024 := by
    have : (R : ℝ) < 2 ^ 1024 := by
      rw [two10]
      have : (0 : ℝ) < 2 ^ 1023 := pow_pos (by norm_num) _
      generalize (2 : ℝ) ^ 1023 = y at *
      clear hN' hh Nlow e53 h0 hRerr two10
      linarith
    exact_mod_cast this
  have quot : ∀ x : ℚ, (x : ℝ) ≤ N → rnd binary64 (x / R) ≤ 2 ^ 1 := by
    intro x hx
    refine rnd_le60 1 (by norm_num) ?_
    rw [div_le_iff₀ R0]
    have : (x : ℝ) ≤ 2 * R := by
      clear hN' hh Nlow Nhi e53 h0 hRerr two10
      linarith
    have : x ≤ 2 * R := by exact_mod_cast this
    linarith
  obtain ⟨z, hz⟩ := rotgF_fin (ba := ba) (bb := bb) A0 B0 rA rB la lb hpos hσ hp hq ht hR σ0
    (lt_of_le_of_lt σ1 (pow_lt_pow_right₀ (by norm_num) (by norm_num))) Aσ Bσ t0 t4 p0 q0 p2 q2 R0 Rl
    (small_big ((quot A AN).trans (by norm_num))) (small_big ((quot B BN).trans (by norm_num)))
  rw [hz]
  set g := (if B < A then ba else bb) with hg
  set C := rnd binary64 (A / R) with hC
  set S := rnd binary64 (B / R) with hS
  have cast_err : ∀ x : ℚ, |((rnd binary64 (x / R) : ℚ) : ℝ) - (x : ℝ) / (R : ℝ)| ≤
      (2 : ℝ) ^ (-53 : ℤ) * |(x : ℝ) / (R : ℝ)| + (2 : ℝ) ^ (-1075 : ℤ) := by
    intro x
    have hr := rnd_err binary64 (x / R)
    rw [unit_b64, tiny_b64] at hr
    have := (Rat.cast_le (K := ℝ)).2 hr
    push_cast at this
    exact this
  have u0 : (0 : ℝ) < (2 : ℝ) ^ (-53 : ℤ) := zpow_pos (by norm_num) _
  have u1 : (2 : ℝ) ^ (-53 : ℤ) ≤ 1 / 10000 := by rw [e53]; norm_num
  have errC := quot_err u0 (u1.trans (by norm_num)) A0R N0 hRerr (cast_err A)
  have errS := quot_err u0 (u1.trans (by norm_num)) B0R N0 hRerr (cast_err B)
  rw [← hC] at errC
  rw [← hS] at errS
  have hxy : ((A : ℝ) / N) ^ 2 + ((B : ℝ) / N) ^ 2 = 1 := by
    rw [div_pow, div_pow, ← add_div, ← N2, div_self (by positivity)]
  have kA : |(A : ℝ) / N| = A / N := abs_of_nonneg (by positivity)
  have kB : |(B : ℝ) / N| = B / N := abs_of_nonneg (by positivity)
  obtain ⟨rot1, rot2⟩ := unit_err u0 u1 h0 hh hxy (by rw [kA]; exact errC) (by rw [kB]; exact errS)
  have vaR : (value (.fin ba A) : ℝ) ^ 2 = (A : ℝ) ^ 2 := by exact_mod_cast va
  have vbR : (value (.fin bb B) : ℝ) ^ 2 = (B : ℝ) ^ 2 := by exact_mod_cast vb
  have absa : |(value (.fin ba A) : ℝ)| = A := by
    have := value_abs ba A0
    exact_mod_cast this
  have absb : |(value (.fin bb B) : ℝ)| = B := by
    have := value_abs bb B0
    exact_mod_cast this
  have C0 : 0 ≤ C := rnd_nonneg (by positivity)
  have S0 : 0 ≤ S := rnd_nonneg (by positivity)
  refine ⟨⟨_, _, rfl, R0.le, Rl, repr_rnd _ _⟩, ⟨_, _, rfl, C0, small_big ((quot A AN).trans (by norm_num)), repr_rnd _ _⟩,
    ⟨_, _, rfl, S0, small_big ((quot B BN).trans (by norm_num)), repr_rnd _ _⟩, sgn g, ?_, ?_⟩
  · cases g
    · left; rfl
    · right; rfl
  · simp only
    rw [vaR, vbR, ← hN, absa, absb]
    simp only [value_sgn, sgn_ne]
    refine ⟨?_, ?_, ?_, ?_, ?_⟩
    · rw [← mul_sub, abs_mul, sgn_abs, one_mul]; exact hRerr
    · have e : sgn ba * sgn g * (C : ℝ) - sgn g * (sgn ba * A) / N = sgn ba * sgn g * (C - A / N) := by ring
      rw [e, abs_mul, abs_mul, sgn_abs, sgn_abs, one_mul, one_mul]; exact errC
    · have e : sgn bb * sgn g * (S : ℝ) - sgn g * (sgn bb * B) / N = sgn bb * sgn g * (S - B / N) := by ring
      rw [e, abs_mul, abs_mul, sgn_abs, sgn_abs, one_mul, one_mul]; exact errS
    · have e : (sgn ba * sgn g * (C : ℝ)) ^ 2 + (sgn bb * sgn g * (S : ℝ)) ^ 2 - 1 = (C : ℝ) ^ 2 + (S : ℝ) ^ 2 - 1 := by
        have h1 : (sgn ba * sgn g * (C : ℝ)) ^ 2 = (sgn ba * sgn ba) * (sgn g * sgn g) * (C : ℝ) ^ 2 := by ring
        have h2 : (sgn bb * sgn g * (S : ℝ)) ^ 2 = (sgn bb * sgn bb) * (sgn g * sgn g) * (S : ℝ) ^ 2 := by ring
        rw [h1, h2, sgn_sq, sgn_sq, sgn_sq, one_mul, one_mul, one_mul]
      rw [e]; exact rot1
    · have e : sgn ba * sgn g * (C : ℝ) * (sgn bb * B) - sgn bb * sgn g * (S : ℝ) * (sgn ba * A) =
          sgn ba * sgn g * sgn bb * (N * ((C : ℝ) * (B / N) - S * (A / N))) := by field_simp
      rw [e, abs_mul, abs_mul, abs_mul, sgn_abs, sgn_abs, sgn_abs, one_mul, one_mul, one_mul, abs_mul, abs_of_pos N0]
      calc N * |(C : ℝ) * (B / N) - S * (A / N)| ≤ N * (15 * (2 : ℝ) ^ (-53 : ℤ)) := mul_le_mul_of_nonneg_left rot2 N0.le
        _ ≤ 16 * (2 : ℝ) ^ (-53 : ℤ) * N := by nlinarith [mul_pos u0 N0]

/-- **C157** For two zeros, of whatever signs, the rotation is the identity and both numbers become `+0`. -/
theorem C157_zero (ba bb : Bool) : rotgF (.fin ba 0) (.fin bb 0) = ⟨.fin false 0, .fin false 0, .fin false 1, .fin false 0⟩ := by
  cases ba <;> cases bb <;> decide +kernel

/-- **C157** The smallest numbers: `c = s = 1`, not a rotation. -/
theorem C157_tiny : rotgF (.fin false (2 ^ (-1074 : ℤ))) (.fin false (2 ^ (-1074 : ℤ))) =
    ⟨.fin false (2 ^ (-1074 : ℤ)), .fin false 1, .fin false 1, .fin false 1⟩ := by
  decide +kernel

/-- **C157** Large numbers whose sum overflows: all results are NaN, though the length is a double. -/
theorem C157_huge : (∃ s, (rotgF (.fin false (2 ^ 1023)) (.fin false (2 ^ 1023))).c = .nan s) ∧
    (2 ^ 1023 : ℝ) ^ 2 + (2 ^ 1023 : ℝ) ^ 2 < (2 ^ 1024) ^ 2 := by
  constructor
  · exact ⟨true, by decide +kernel⟩
  · rw [← pow_mul, ← pow_mul, ← two_mul, ← pow_succ']
    exact pow_lt_pow_right₀ (by norm_num) (by norm_num)

/-- **C157 is false of the code** -/
theorem C157_false : ¬ C157Claim := by
  intro h
  have fin : FiniteD (.fin false (2 ^ (-1074 : ℤ))) :=
    ⟨_, _, rfl, (zpow_pos (by norm_num) _).le, small_big ((zpow_le_one_of_nonpos₀ (by norm_num) (by norm_num)).trans (by norm_num)),
      repr_two_zpow (f := binary64) le_rfl⟩
  obtain ⟨-, -, -, e, -, h1⟩ := h _ _ fin fin (Or.inl (by
    show (2 : ℚ) ^ (-1074 : ℤ) ≠ 0
    exact (zpow_pos (by norm_num) _).ne'))
  rw [C157_tiny] at h1
  obtain ⟨-, -, -, h2, -⟩ := h1
  have : value (.fin false 1) = 1 := rfl
  rw [this] at h2
  norm_num at h2

/-- The hypotheses are met: 3 and -4. -/
example : FiniteD (.fin false 3) ∧ FiniteD (.fin true 4) ∧ |value (.fin false 3)| + |value (.fin true 4)| ≤ 2 ^ 1023 ∧
    ((2 : ℚ) ^ (-1021 : ℤ)) ^ 2 ≤ value (.fin false 3) ^ 2 + value (.fin true 4) ^ 2 := by
  have r : ∀ x, rnd binary64 x = x → Repr binary64 x := fun x h => by
    have := repr_rnd binary64 x
    rwa [h] at this
  refine ⟨⟨_, _, rfl, by norm_num, small_big (by norm_num), r _ (by decide +kernel)⟩,
    ⟨_, _, rfl, by norm_num, small_big (by norm_num), r _ (by decide +kernel)⟩, ?_, ?_⟩
  · rw [value_abs _ (by norm_num), value_abs _ (by norm_num)]
    calc (3 + 4 : ℚ) ≤ 2 ^ 3 := by norm_num
      _ ≤ 2 ^ 1023 := pow_le_pow_right₀ (by norm_num) (by norm_num)
  · calc ((2 : ℚ) ^ (-1021 : ℤ)) ^ 2 ≤ 1 :=
          pow_le_one₀ (zpow_pos (by norm_num) _).le (zpow_le_one_of_nonpos₀ (by norm_num) (by norm_num))
      _ ≤ _ := by norm_num [value, Fp.signed]

end Verif.Blas
