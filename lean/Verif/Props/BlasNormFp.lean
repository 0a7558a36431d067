import Verif.Lemmas.BlasNormFp
import Mathlib.Tactic.IntervalCases

/-!
# C155, C156: `nrm2` of cxxblas in floating point

For vectors of doubles, with overflow, underflow, infinities and NaN. `std::pow(t, 2.0)` is any function within two roundings
of the square (`GoodSq`); the correctly rounded square is one.
-/

namespace Verif.Blas

open Verif.Num Verif.IntSqrt Verif.Ieee Verif.Vec Finset

/-- A finite double. -/
def FiniteD (v : Fp) : Prop := ∃ b a, v = .fin b a ∧ 0 ≤ a ∧ a < 2 ^ 1024 ∧ Repr binary64 a

/-- The Euclidean norm of the numbers, without rounding. -/
noncomputable def euclid (n : Nat) (xv : Nat → Fp) : ℝ := √(∑ i ∈ range n, (value (xv i) : ℝ) ^ 2)

/-- The error of the root and of the product with the scale. -/
theorem final_err {s q S ρ r E u h : ℝ} (hs : 0 ≤ s) (hq : 0 ≤ q) (hS : 0 < S) (hu : 0 ≤ u) (hu8 : u ≤ 1 / 8) (hE0 : 0 ≤ E)
    (hE8 : E ≤ 1 / 8) (hE : |s ^ 2 * q - S| ≤ E * S) (hρ : |ρ - √q| ≤ u * √q) (hr : |r - s * ρ| ≤ u * |s * ρ| + h) :
    |r - √S| ≤ (E + 3 * u) * √S + h := by
  set A := s * √q with hA
  set N := √S with hN
  have N0 : 0 < N := Real.sqrt_pos.2 hS
  have A0 : 0 ≤ A := by positivity
  have A2 : A ^ 2 = s ^ 2 * q := by rw [hA, mul_pow, Real.sq_sqrt hq]
  have N2 : N ^ 2 = S := Real.sq_sqrt hS.le
  have a1 : |A - N| ≤ E * N := by
    rw [← A2, ← N2] at hE
    have e : A ^ 2 - N ^ 2 = (A - N) * (A + N) := by ring
    rw [e, abs_mul, abs_of_pos (by linarith : 0 < A + N)] at hE
    have : |A - N| * (A + N) ≤ E * N * (A + N) := by nlinarith [mul_nonneg (mul_nonneg hE0 N0.le) A0]
    exact le_of_mul_le_mul_right this (by linarith)
  have a2 : A ≤ (1 + E) * N := by linarith [(abs_le.1 a1).2]
  have a3 : |s * ρ - A| ≤ u * A := by
    have e : s * ρ - A = s * (ρ - √q) := by rw [hA]; ring
    rw [e, abs_mul, abs_of_nonneg hs]
    calc s * |ρ - √q| ≤ s * (u * √q) := mul_le_mul_of_nonneg_left hρ hs
      _ = u * A := by rw [hA]; ring
  have a4 : |s * ρ| ≤ (1 + u) * A := by
    have := abs_add_le (s * ρ - A) A
    rw [sub_add_cancel, abs_of_nonneg A0] at this
    linarith
  have a5 : |r - N| ≤ |r - s * ρ| + |s * ρ - A| + |A - N| := by
    have h1 := abs_add_le (r - s * ρ) (s * ρ - A)
    have h2 := abs_add_le (r - A) (A - N)
    simp only [sub_add_sub_cancel] at h1 h2
    linarith
  have a6 : u * |s * ρ| ≤ u * ((1 + u) * A) := mul_le_mul_of_nonneg_left a4 hu
  have a7 : (2 * u + u * u) * A ≤ (2 * u + u * u) * ((1 + E) * N) := mul_le_mul_of_nonneg_left a2 (by positivity)
  have a8 : (2 * u + u * u) * (1 + E) ≤ 3 * u := by nlinarith
  have a9 : (2 * u + u * u) * (1 + E) * N ≤ 3 * u * N := mul_le_mul_of_nonneg_right a8 N0.le
  nlinarith

theorem first_cell {m : Mem Fp} {x incX : Int} {n : Nat} {xv : Nat → Fp} (hx : VecAt m x incX n xv) (hn : 0 < n) :
    m (start n x incX) = .val (xv 0) := by
  have := hx 0 hn
  rw [← start_elem] at this
  simpa using this

/-- The states of the loop. -/
def states (sq : ℚ → ℚ) (xv : Nat → Fp) : Nat → Fp × Fp
  | 0 => (0, .fin false 1)
  | k + 1 => ssqStepF sq (states sq xv k) (xv k)

theorem nrm2F_states {sq : ℚ → ℚ} {n : Nat} (hn : 2 ≤ n) {x incX : Int} {m : Mem Fp} {xv : Nat → Fp} (hx : VecAt m x incX n xv) :
    nrm2F sq n x incX m = .ok ((states sq xv n).1 * stdSqrt (states sq xv n).2, m) := by
  unfold nrm2F
  rw [if_neg (by omega), if_neg (by omega)]
  have hf := fold_trace (fun i st => do
    let v ← load (start n x incX + i * incX)
    pure (ssqStepF sq st v)) (states sq xv) m n fun i hi => by
      simp only [start_elem]
      rw [bind_ok (load_ok (hx i hi))]; rfl
  rw [show states sq xv 0 = (0, .fin false 1) from rfl] at hf
  rw [bind_ok hf, pure_ok]

theorem states_inv {sq : ℚ → ℚ} (hsq : GoodSq sq) {n : Nat} (hn : n ≤ 2 ^ 40) {xv : Nat → Fp} (hfin : ∀ i, i < n → FiniteD (xv i)) :
    ∃ s q, states sq xv n = (.fin false s, .fin false q) ∧ NrmInv n s q (∑ i ∈ range n, value (xv i) ^ 2) := by
  induction n with
  | zero =>
    have r1 : Repr binary64 (1 : ℚ) := by simpa using repr_nat60 0 (by norm_num)
    have r0 : Repr binary64 (0 : ℚ) := by
      have := repr_rnd binary64 0
      rwa [rnd_zero] at this
    exact ⟨0, 1, rfl, le_refl _, by norm_num, r0, r1, by simp, by simp, fun _ => rfl, by simp⟩
  | succ n ih =>
    obtain ⟨s, q, e, I⟩ := ih (by omega) fun i hi => hfin i (by omega)
    obtain ⟨b, a, ev, a0, -, ra⟩ := hfin n (by omega)
    obtain ⟨s', q', e', I'⟩ := step_inv hsq (by omega) I b a0 ra
    refine ⟨s', q', ?_, ?_⟩
    · show ssqStepF sq (states sq xv n) (xv n) = _
      rw [e, ev, e']
    · rw [sum_range_succ, ev]
      have : value (.fin b a) ^ 2 = a ^ 2 := by rw [pow_two, value_sq, pow_two]
      rwa [this]

/-- The value computed from the state. -/
theorem result_of_inv {n : Nat} (hn : n ≤ 2 ^ 40) {s q S : ℚ} (I : NrmInv n s q S) :
    ∃ r : ℚ, (Fp.fin false s * stdSqrt (.fin false q) : Fp) = big r ∧ 0 ≤ r ∧ Repr binary64 r ∧
      |(r : ℝ) - √(S : ℝ)| ≤ (8 * n + 3) * (2 : ℝ) ^ (-53 : ℤ) * √(S : ℝ) + (2 : ℝ) ^ (-1075 : ℤ) := by
  have w0 : (0 : ℝ) < (2 : ℝ) ^ (-1075 : ℤ) := zpow_pos (by norm_num) _
  have r0 : Repr binary64 (0 : ℚ) := by
    have := repr_rnd binary64 0
    rwa [rnd_zero] at this
  have S0 : 0 ≤ S := (sq_nonneg s).trans I.lo
  rcases S0.eq_or_lt with hz | hp
  · have sz : s = 0 := by
      have := I.lo
      rw [← hz] at this
      exact pow_eq_zero_iff (by norm_num) |>.1 (le_antisymm this (sq_nonneg s))
    refine ⟨0, ?_, le_refl _, r0, ?_⟩
    · rw [I.start sz, sz]
      have : stdSqrt (.fin false 1) = .fin false (sqrtRnd 1) := by
        simp [stdSqrt]
      rw [this, mul_big, zero_mul, rnd_zero]
    · rw [← hz]; simp [w0.le]
  · have El := pow7_le hn
    have hnq : (n : ℚ) ≤ 2 ^ 40 := by exact_mod_cast hn
    set E := (1 + (2 : ℚ) ^ (-53 : ℤ)) ^ (7 * n) - 1 with hE
    have e53 : (2 : ℚ) ^ (-53 : ℤ) = 1 / 2 ^ 53 := by norm_num
    have E0 : 0 ≤ E := by
      have : 1 ≤ (1 + (2 : ℚ) ^ (-53 : ℤ)) ^ (7 * n) := one_le_pow₀ (by rw [e53]; norm_num)
      rw [hE]; linarith
    have E8 : E ≤ 1 / 8 := El.trans (by rw [e53]; linarith)
    have herr := I.err
    rw [← hE] at herr
    have q0 : 0 < q := by
      rcases I.q0.eq_or_lt with h | h
      · rw [← h, mul_zero, zero_sub, abs_neg, abs_of_pos hp] at herr
        nlinarith
      · exact h
    have sq1 : stdSqrt (.fin false q) = .fin false (sqrtRnd q) := by simp [stdSqrt, q0.ne']
    rw [sq1, mul_big]
    have hρ := sqrtRnd_err q0
    have hρ0 : 0 ≤ sqrtRnd q := by
      have h1 := (abs_le.1 hρ).1
      have : (2 : ℝ) ^ (-53 : ℤ) ≤ 1 := zpow_le_one_of_nonpos₀ (by norm_num) (by norm_num)
      have h3 : (0 : ℝ) ≤ sqrtRnd q := by nlinarith [Real.sqrt_nonneg (q : ℝ)]
      exact_mod_cast h3
    refine ⟨rnd binary64 (s * sqrtRnd q), rfl, rnd_nonneg (mul_nonneg I.s0 hρ0), repr_rnd _ _, ?_⟩
    have hr := rnd_err binary64 (s * sqrtRnd q)
    rw [unit_b64, tiny_b64] at hr
    have hrR : |((rnd binary64 (s * sqrtRnd q) : ℚ) : ℝ) - (s : ℝ) * (sqrtRnd q : ℝ)| ≤
        (2 : ℝ) ^ (-53 : ℤ) * |(s : ℝ) * (sqrtRnd q : ℝ)| + (2 : ℝ) ^ (-1075 : ℤ) := by
      have := (Rat.cast_le (K := ℝ)).2 hr
      push_cast at this
      exact this
    have herrR : |(s : ℝ) ^ 2 * (q : ℝ) - (S : ℝ)| ≤ (E : ℝ) * (S : ℝ) := by exact_mod_cast herr
    have e53R : (2 : ℝ) ^ (-53 : ℤ) = 1 / 2 ^ 53 := by norm_num
    have key := final_err (by exact_mod_cast I.s0) (by exact_mod_cast q0.le) (by exact_mod_cast hp)
      (by rw [e53R]; norm_num) (by rw [e53R]; norm_num) (by exact_mod_cast E0)
      (by have : (E : ℝ) ≤ ((1 / 8 : ℚ) : ℝ) := by exact_mod_cast E8
          simpa using this) herrR hρ hrR
    refine key.trans (add_le_add (mul_le_mul_of_nonneg_right ?_ (Real.sqrt_nonneg _)) le_rfl)
    have ElR : (E : ℝ) ≤ ((29 / 4 * n * (2 : ℚ) ^ (-53 : ℤ) : ℚ) : ℝ) := by exact_mod_cast El
    push_cast at ElR
    have hn0 : (0 : ℝ) ≤ n := Nat.cast_nonneg n
    rw [e53R] at *
    nlinarith

/-- **C155** `nrm2` of finite doubles is the Euclidean norm within `8 n + 3` roundings (and half the least number), whatever the sizes of
the elements: only a result beyond the largest double is infinite, no square overflows or underflows to a wrong answer. -/
theorem C155_nrm2 {sq : ℚ → ℚ} (hsq : GoodSq sq) {n : Nat} (hn : n ≤ 2 ^ 40) {x incX : Int} {m : Mem Fp} {xv : Nat → Fp}
    (hx : VecAt m x incX n xv) (hfin : ∀ i, i < n → FiniteD (xv i)) :
    ∃ r : ℚ, nrm2F sq n x incX m = .ok (if 2 ^ 1024 ≤ r then .inf false else .fin false r, m) ∧ 0 ≤ r ∧ Repr binary64 r ∧
      |(r : ℝ) - euclid n xv| ≤ (8 * n + 3) * (2 : ℝ) ^ (-53 : ℤ) * euclid n xv + (2 : ℝ) ^ (-1075 : ℤ) := by
  have w0 : (0 : ℝ) < (2 : ℝ) ^ (-1075 : ℤ) := zpow_pos (by norm_num) _
  have r0 : Repr binary64 (0 : ℚ) := by
    have := repr_rnd binary64 0
    rwa [rnd_zero] at this
  show ∃ r : ℚ, nrm2F sq n x incX m = .ok (big r, m) ∧ _
  rcases Nat.lt_or_ge n 2 with h2' | h2'
  · interval_cases n
    · refine ⟨0, ?_, le_refl _, r0, ?_⟩
      · rw [big_zero]; rfl
      · simp [euclid, w0.le]
    · obtain ⟨b, a, ev, a0, al, ra⟩ := hfin 0 (by omega)
      refine ⟨a, ?_, a0, ra, ?_⟩
      · unfold nrm2F
        rw [if_neg (by omega), if_pos rfl, bind_ok (load_ok (first_cell hx (by omega))), pure_ok, ev, big_lt al]
        rfl
      · have e : euclid 1 xv = a := by
          unfold euclid
          rw [sum_range_one, ev]
          have : (value (.fin b a) : ℝ) ^ 2 = (a : ℝ) ^ 2 := by
            have := value_sq b a
            rw [pow_two, pow_two]; exact_mod_cast this
          rw [this, Real.sqrt_sq (by exact_mod_cast a0)]
        rw [e, sub_self, abs_zero]
        have : (0 : ℝ) ≤ a := by exact_mod_cast a0
        have : 0 ≤ (8 * ((1 : ℕ) : ℝ) + 3) * (2 : ℝ) ^ (-53 : ℤ) * a := by positivity
        linarith
  · obtain ⟨s, q, e, I⟩ := states_inv hsq hn hfin
    obtain ⟨r, er, h1, h2, h3⟩ := result_of_inv hn I
    set S := ∑ i ∈ range n, value (xv i) ^ 2 with hS
    have eN : euclid n xv = √(S : ℝ) := by
      unfold euclid; rw [hS]; push_cast; rfl
    rw [nrm2F_states h2' hx, e, er, eN]
    exact ⟨r, rfl, h1, h2, h3⟩

/-- The components of complex numbers, one after the other. -/
def parts (xv : Nat → Fp × Fp) (i : Nat) : Fp := if i % 2 = 0 then (xv (i / 2)).1 else (xv (i / 2)).2

theorem parts_even (xv : Nat → Fp × Fp) (k : Nat) : parts xv (2 * k) = (xv k).1 := by
  unfold parts
  rw [if_pos (by omega), show 2 * k / 2 = k by omega]

theorem parts_odd (xv : Nat → Fp × Fp) (k : Nat) : parts xv (2 * k + 1) = (xv k).2 := by
  unfold parts
  rw [if_neg (by omega), show (2 * k + 1) / 2 = k by omega]

/-- **C155** The norm of a complex vector (of other than one element, for which the code calls `std::abs`): as for the vector of the real and
imaginary parts. -/
theorem C155_cnrm2 {sq : ℚ → ℚ} (hsq : GoodSq sq) (abs : Fp × Fp → Fp) {n : Nat} (h1 : n ≠ 1) (hn : n ≤ 2 ^ 39) {x incX : Int}
    {m : Mem (Fp × Fp)} {xv : Nat → Fp × Fp} (hx : VecAt m x incX n xv)
    (hfin : ∀ i, i < n → FiniteD (xv i).1 ∧ FiniteD (xv i).2) :
    ∃ r : ℚ, cnrm2F sq abs n x incX m = .ok (if 2 ^ 1024 ≤ r then .inf false else .fin false r, m) ∧ 0 ≤ r ∧ Repr binary64 r ∧
      let N := √(∑ i ∈ range n, ((value (xv i).1 : ℝ) ^ 2 + (value (xv i).2 : ℝ) ^ 2))
      |(r : ℝ) - N| ≤ (16 * n + 3) * (2 : ℝ) ^ (-53 : ℤ) * N + (2 : ℝ) ^ (-1075 : ℤ) := by
  have w0 : (0 : ℝ) < (2 : ℝ) ^ (-1075 : ℤ) := zpow_pos (by norm_num) _
  have r0 : Repr binary64 (0 : ℚ) := by
    have := repr_rnd binary64 0
    rwa [rnd_zero] at this
  show ∃ r : ℚ, cnrm2F sq abs n x incX m = .ok (big r, m) ∧ _
  rcases Nat.eq_zero_or_pos n with h0 | h0
  · subst h0
    refine ⟨0, ?_, le_refl _, r0, ?_⟩
    · rw [big_zero]; rfl
    · simp [w0.le]
  · obtain ⟨s, q, e, I⟩ := states_inv hsq (n := 2 * n) (by omega) (xv := parts xv) (fun i hi => by
      unfold parts
      split
      · exact (hfin _ (by omega)).1
      · exact (hfin _ (by omega)).2)
    obtain ⟨r, er, g1, g2, g3⟩ := result_of_inv (by omega) I
    have eS : ((∑ i ∈ range (2 * n), value (parts xv i) ^ 2 : ℚ) : ℝ) =
        ∑ i ∈ range n, ((value (xv i).1 : ℝ) ^ 2 + (value (xv i).2 : ℝ) ^ 2) := by
      clear I g3 hn h1 h0 hx hfin e
      induction n with
      | zero => simp
      | succ n ih =>
        rw [show 2 * (n + 1) = 2 * n + 1 + 1 by ring, sum_range_succ, sum_range_succ, sum_range_succ, ← ih, parts_even, parts_odd]
        push_cast
        ring
    have hf := fold_trace (fun i st => do
      let v ← load (start n x incX + i * incX)
      pure (ssqStepF sq (ssqStepF sq st v.1) v.2)) (fun k => states sq (parts xv) (2 * k)) m n fun i hi => by
        simp only [start_elem]
        rw [bind_ok (load_ok (hx i hi))]
        show _ = Out.ok (ssqStepF sq (ssqStepF sq (states sq (parts xv) (2 * i)) (parts xv (2 * i))) (parts xv (2 * i + 1)), m)
        rw [parts_even, parts_odd]; rfl
    have es : cnrm2F sq abs n x incX m = .ok (big r, m) := by
      unfold cnrm2F
      rw [if_neg (by omega), if_neg h1]
      rw [show states sq (parts xv) (2 * 0) = (0, .fin false 1) from rfl] at hf
      rw [bind_ok hf, pure_ok, e, er]
    rw [es]
    refine ⟨r, rfl, g1, g2, ?_⟩
    rw [eS] at g3
    push_cast at g3
    have e16 : (8 * (2 * (n : ℝ)) + 3) = 16 * n + 3 := by ring
    rw [e16] at g3
    exact g3

/-- **C155** No overflow: the norm is finite when the exact norm is at most half the range, even where its square is far beyond it. -/
theorem C155_finite {sq : ℚ → ℚ} (hsq : GoodSq sq) {n : Nat} (hn : n ≤ 2 ^ 40) {x incX : Int} {m : Mem Fp} {xv : Nat → Fp}
    (hx : VecAt m x incX n xv) (hfin : ∀ i, i < n → FiniteD (xv i)) (hN : euclid n xv ≤ 2 ^ 1023) :
    ∃ r : ℚ, nrm2F sq n x incX m = .ok (.fin false r, m) ∧ 0 ≤ r ∧
      |(r : ℝ) - euclid n xv| ≤ (8 * n + 3) * (2 : ℝ) ^ (-53 : ℤ) * euclid n xv + (2 : ℝ) ^ (-1075 : ℤ) := by
  obtain ⟨r, h1, h2, h3, h4⟩ := C155_nrm2 hsq hn hx hfin
  have lt : r < 2 ^ 1024 := by
    have hn' : (n : ℝ) ≤ 2 ^ 40 := by exact_mod_cast hn
    have e53R : (2 : ℝ) ^ (-53 : ℤ) = 1 / 2 ^ 53 := by norm_num
    have hc : (8 * (n : ℝ) + 3) * (2 : ℝ) ^ (-53 : ℤ) ≤ 1 / 2 := by rw [e53R]; linarith
    have N0 : 0 ≤ euclid n xv := Real.sqrt_nonneg _
    have hw : (2 : ℝ) ^ (-1075 : ℤ) ≤ 1 := zpow_le_one_of_nonpos₀ (by norm_num) (by norm_num)
    have a := (abs_le.1 h4).2
    have b : (8 * (n : ℝ) + 3) * (2 : ℝ) ^ (-53 : ℤ) * euclid n xv ≤ 1 / 2 * euclid n xv := mul_le_mul_of_nonneg_right hc N0
    have c : (r : ℝ) ≤ 3 / 2 * euclid n xv + 1 := by
      generalize (8 * (n : ℝ) + 3) * (2 : ℝ) ^ (-53 : ℤ) * euclid n xv = Z at *
      generalize (2 : ℝ) ^ (-1075 : ℤ) = y at *
      clear hN h1 h3 h4 hc e53R
      linarith
    have d : (4 : ℝ) < 2 ^ 1023 := by
      calc (4 : ℝ) = 2 ^ 2 := by norm_num
        _ < 2 ^ 1023 := pow_lt_pow_right₀ (by norm_num) (by norm_num)
    have e : (2 : ℝ) ^ 1024 = 2 * 2 ^ 1023 := by rw [← pow_succ']
    have f : (r : ℝ) < 2 ^ 1024 := by
      rw [e]
      generalize (2 : ℝ) ^ 1023 = y at *
      clear h1 h3 h4 a b hw hc e53R e
      linarith
    exact_mod_cast f
  exact ⟨r, by rw [h1, if_neg (not_le.2 lt)], h2, h4⟩

/-- **C155** No underflow: a vector with a nonzero element has a nonzero norm. -/
theorem C155_pos {sq : ℚ → ℚ} (hsq : GoodSq sq) {n : Nat} (hn : n ≤ 2 ^ 40) {x incX : Int} {m : Mem Fp} {xv : Nat → Fp}
    (hx : VecAt m x incX n xv) (hfin : ∀ i, i < n → FiniteD (xv i)) {j : Nat} (hj : j < n) (hnz : value (xv j) ≠ 0) :
    nrm2F sq n x incX m ≠ .ok (0, m) := by
  obtain ⟨r, h1, h2, h3, h4⟩ := C155_nrm2 hsq hn hx hfin
  rw [h1]
  intro he
  have r0 : r = 0 := by
    have he' : (if (2 : ℚ) ^ 1024 ≤ r then Fp.inf false else Fp.fin false r) = Fp.fin false 0 := by
      injection he with he
      exact (Prod.mk.inj he).1
    split at he'
    · cases he'
    · injection he'
  subst r0
  have hlow : (2 : ℝ) ^ (-1074 : ℤ) ≤ euclid n xv := by
    obtain ⟨b, a, ev, a0, -, ra⟩ := hfin j hj
    have ha : a ≠ 0 := by
      intro h
      apply hnz
      rw [ev, h]
      cases b <;> simp [value, Fp.signed]
    have h5 : (2 : ℚ) ^ (-1074 : ℤ) ≤ a := by
      obtain ⟨k, hk⟩ := mult_emin ra
      have e : (2 : ℚ) ^ (binary64.emin) = (2 : ℚ) ^ (-1074 : ℤ) := rfl
      rw [e] at hk
      have p : (0 : ℚ) < (2 : ℚ) ^ (-1074 : ℤ) := zpow_pos (by norm_num) _
      have k1 : (0 : ℚ) < k := by
        have : 0 < a := lt_of_le_of_ne a0 (Ne.symm ha)
        rw [hk] at this
        exact (pos_iff_pos_of_mul_pos this).2 p
      have k2 : (1 : ℚ) ≤ k := by
        have : (0 : ℤ) < k := by exact_mod_cast k1
        exact_mod_cast this
      rw [hk]
      exact le_mul_of_one_le_left p.le k2
    unfold euclid
    refine Real.le_sqrt_of_sq_le ?_
    have h6 : ((value (xv j) : ℝ)) ^ 2 ≤ ∑ i ∈ range n, (value (xv i) : ℝ) ^ 2 :=
      single_le_sum (f := fun i => (value (xv i) : ℝ) ^ 2) (fun i _ => sq_nonneg _) (mem_range.2 hj)
    refine le_trans ?_ h6
    have e : (value (xv j) : ℝ) ^ 2 = (a : ℝ) ^ 2 := by
      have := value_sq b a
      rw [ev, pow_two, pow_two]; exact_mod_cast this
    rw [e]
    have h7 : (2 : ℝ) ^ (-1074 : ℤ) ≤ a := by
      have := (Rat.cast_le (K := ℝ)).2 h5
      push_cast at this
      exact this
    exact pow_le_pow_left₀ (zpow_pos (by norm_num) _).le h7 2
  have hn' : (n : ℝ) ≤ 2 ^ 40 := by exact_mod_cast hn
  have e53R : (2 : ℝ) ^ (-53 : ℤ) = 1 / 2 ^ 53 := by norm_num
  have hc : (8 * (n : ℝ) + 3) * (2 : ℝ) ^ (-53 : ℤ) ≤ 1 / 4 := by rw [e53R]; linarith
  have N0 : 0 ≤ euclid n xv := Real.sqrt_nonneg _
  have w : (2 : ℝ) ^ (-1074 : ℤ) = 2 * (2 : ℝ) ^ (-1075 : ℤ) := by
    rw [← zpow_one_add₀ (by norm_num)]; congr 1
  have wp : (0 : ℝ) < (2 : ℝ) ^ (-1075 : ℤ) := zpow_pos (by norm_num) _
  have b : (8 * (n : ℝ) + 3) * (2 : ℝ) ^ (-53 : ℤ) * euclid n xv ≤ 1 / 4 * euclid n xv := mul_le_mul_of_nonneg_right hc N0
  have a := (abs_le.1 h4).1
  rw [w] at hlow
  generalize (2 : ℝ) ^ (-1075 : ℤ) = y at *
  push_cast at a
  generalize (8 * (n : ℝ) + 3) * (2 : ℝ) ^ (-53 : ℤ) * euclid n xv = Z at *
  clear hc e53R h4 w h3 h1 he
  linarith

/-- A memory with the doubles `2^600`, 0 and `-2^600`, with stride 2. -/
def exNrm : Mem Fp := fun a =>
  if a = 0 then .val (.fin false (2 ^ 600)) else if a = 2 then .val 0 else if a = 4 then .val (.fin true (2 ^ 600)) else .out

/-- The hypotheses are met by a vector whose squares are beyond the largest double. -/
example : GoodSq (fun t => rnd binary64 (t ^ 2)) ∧
    VecAt exNrm 0 2 3 (fun i => if i = 0 then .fin false (2 ^ 600) else if i = 1 then 0 else .fin true (2 ^ 600)) ∧
    (∀ i, i < 3 → FiniteD (if i = 0 then .fin false (2 ^ 600) else if i = 1 then 0 else .fin true (2 ^ 600))) ∧
    (2 : ℚ) ^ 1024 ≤ (2 ^ 600) ^ 2 ∧
    euclid 3 (fun i => if i = 0 then .fin false (2 ^ 600) else if i = 1 then 0 else .fin true (2 ^ 600)) ≤ 2 ^ 1023 := by
  have rp : Repr binary64 ((2 : ℚ) ^ 600) := by
    have := repr_two_zpow (f := binary64) (e := 600) (by show (-1074 : ℤ) ≤ _; omega)
    exact_mod_cast this
  have fp : ∀ b, FiniteD (.fin b (2 ^ 600)) := fun b =>
    ⟨b, _, rfl, (pow_pos (by norm_num) _).le, pow_lt_pow_right₀ (by norm_num) (by norm_num), rp⟩
  refine ⟨goodSq_rnd, fun i hi => ?_, fun i hi => ?_, ?_, ?_⟩
  · interval_cases i <;> simp [exNrm, elem]
  · interval_cases i
    · exact fp _
    · refine ⟨false, 0, rfl, le_refl _, pow_pos (by norm_num) _, ?_⟩
      have := repr_rnd binary64 0
      rwa [rnd_zero] at this
    · exact fp _
  · rw [← pow_mul]
    exact pow_le_pow_right₀ (by norm_num) (by norm_num)
  · unfold euclid
    rw [Real.sqrt_le_left (by positivity), sum_range_succ, sum_range_succ, sum_range_one]
    have v1 : (value (.fin true (2 ^ 600)) : ℝ) ^ 2 = (2 : ℝ) ^ 1200 := by
      show (((-(2 ^ 600) : ℚ)) : ℝ) ^ 2 = _
      push_cast
      rw [neg_sq, ← pow_mul]
    have v2 : (value (.fin false (2 ^ 600)) : ℝ) ^ 2 = (2 : ℝ) ^ 1200 := by
      show (((2 ^ 600 : ℚ)) : ℝ) ^ 2 = _
      push_cast
      rw [← pow_mul]
    have v3 : (value (0 : Fp) : ℝ) ^ 2 = 0 := by
      show (((0 : ℚ)) : ℝ) ^ 2 = 0
      norm_num
    simp only [if_true, one_ne_zero, if_false, OfNat.ofNat_ne_zero, show ¬ (2 : ℕ) = 1 by omega]
    rw [v1, v2, v3, add_zero, ← two_mul, ← pow_succ', ← pow_mul]
    exact pow_le_pow_right₀ (by norm_num) (by norm_num)

/-! ### Infinities and NaN -/

/-- The double is NaN. -/
def IsNan (v : Fp) : Prop := ∃ s, v = .nan s

/-- The double is an infinity. -/
def IsInf (v : Fp) : Prop := ∃ s, v = .inf s

/-- The whole property: a vector with an infinity and no NaN has an infinite norm. -/
def C156Claim : Prop := ∀ sq, GoodSq sq → ∀ (n : Nat), n ≤ 2 ^ 40 → ∀ (x incX : Int) (m : Mem Fp) (xv : Nat → Fp),
  VecAt m x incX n xv → (∀ i, i < n → FiniteD (xv i) ∨ IsInf (xv i)) → (∃ j, j < n ∧ IsInf (xv j)) →
  nrm2F sq n x incX m = .ok (.inf false, m)

theorem add_nan (v : Fp) {w : Fp} (h : IsNan w) : IsNan (v + w) := by
  obtain ⟨s, rfl⟩ := h
  cases v <;> exact ⟨_, rfl⟩

theorem nan_add {v : Fp} (w : Fp) (h : IsNan v) : IsNan (v + w) := by
  obtain ⟨s, rfl⟩ := h
  exact ⟨_, rfl⟩

theorem mul_nan (v : Fp) {w : Fp} (h : IsNan w) : IsNan (v * w) := by
  obtain ⟨s, rfl⟩ := h
  cases v <;> exact ⟨_, rfl⟩

theorem nan_mul {v : Fp} (w : Fp) (h : IsNan v) : IsNan (v * w) := by
  obtain ⟨s, rfl⟩ := h
  exact ⟨_, rfl⟩

theorem sqrt_nan {v : Fp} (h : IsNan v) : IsNan (stdSqrt v) := by
  obtain ⟨s, rfl⟩ := h
  exact ⟨_, rfl⟩

/-- Once the sum is NaN it stays so. -/
theorem step_nan (sq : ℚ → ℚ) {st : Fp × Fp} (t : Fp) (h : IsNan st.2) : IsNan (ssqStepF sq st t).2 := by
  unfold ssqStepF
  split
  · split
    · exact add_nan _ (nan_mul _ h)
    · exact nan_add _ h
  · exact h

/-- A NaN element makes the sum NaN. -/
theorem step_of_nan (sq : ℚ → ℚ) (st : Fp × Fp) {t : Fp} (h : IsNan t) : IsNan (ssqStepF sq st t).2 := by
  obtain ⟨s, rfl⟩ := h
  unfold ssqStepF
  rw [if_pos (show nonzeroF (.nan s) = true from rfl)]
  have : ltF st.1 (absF (.nan s)) = false := by
    show ltF st.1 (.nan false) = false
    cases st.1 <;> rfl
  rw [this]
  exact add_nan _ ⟨false, rfl⟩

theorem states_nan (sq : ℚ → ℚ) {xv : Nat → Fp} {j : Nat} (h : IsNan (states sq xv j).2) (d : Nat) : IsNan (states sq xv (j + d)).2 := by
  induction d with
  | zero => exact h
  | succ d ih => exact step_nan sq _ ih

/-- **C156** A NaN element makes the norm NaN, whatever the other elements are. -/
theorem C156_nan (sq : ℚ → ℚ) {n : Nat} {x incX : Int} {m : Mem Fp} {xv : Nat → Fp} (hx : VecAt m x incX n xv) {j : Nat} (hj : j < n)
    (h : IsNan (xv j)) : ∃ s, nrm2F sq n x incX m = .ok (.nan s, m) := by
  rcases Nat.lt_or_ge n 2 with h2 | h2
  · have hn : n = 1 := by omega
    subst hn
    obtain rfl : j = 0 := by omega
    obtain ⟨s, e⟩ := h
    refine ⟨false, ?_⟩
    unfold nrm2F
    rw [if_neg (by omega), if_pos rfl, bind_ok (load_ok (first_cell hx (by omega))), pure_ok, e]
    rfl
  · have h1 : IsNan (states sq xv (j + 1)).2 := step_of_nan sq _ h
    have h3 := states_nan sq h1 (n - (j + 1))
    rw [show j + 1 + (n - (j + 1)) = n by omega] at h3
    obtain ⟨s, e⟩ := mul_nan (states sq xv n).1 (sqrt_nan h3)
    exact ⟨s, by rw [nrm2F_states h2 hx, e]⟩

/-- The first infinity becomes the scale. -/
theorem step_first_inf {sq : ℚ → ℚ} (hsq : GoodSq sq) (s q : ℚ) (b : Bool) :
    ssqStepF sq (.fin false s, .fin false q) (.inf b) = (.inf false, .fin false 1) := by
  have r1 : Repr binary64 (1 : ℚ) := by simpa using repr_nat60 0 (by norm_num)
  have r0 : Repr binary64 (0 : ℚ) := by
    have := repr_rnd binary64 0
    rwa [rnd_zero] at this
  have e : pow2F sq (.fin false 0) = .fin false 0 := by
    show (if (2 : ℚ) ^ 1024 ≤ sq 0 then Fp.inf false else Fp.fin false (sq 0)) = _
    rw [hsq.zero, if_neg (not_le.2 (by positivity))]
  show ((Fp.inf false, Fp.fin false 1 + Fp.fin false q * pow2F sq (.fin false 0)) : Fp × Fp) = _
  rw [e, mul_big, mul_zero, rnd_zero, big_lt (by positivity), add_big (by norm_num) le_rfl r1 r0 (by norm_num) (by norm_num), add_zero,
    rnd_of_repr r1, big_lt (small_big (by norm_num))]

/-- A finite element then changes nothing. -/
theorem step_inf_fin {sq : ℚ → ℚ} (hsq : GoodSq sq) {t : Fp} (ht : FiniteD t) :
    ssqStepF sq (.inf false, .fin false 1) t = (.inf false, .fin false 1) := by
  obtain ⟨b, a, rfl, -, -, -⟩ := ht
  have r1 : Repr binary64 (1 : ℚ) := by simpa using repr_nat60 0 (by norm_num)
  have r0 : Repr binary64 (0 : ℚ) := by
    have := repr_rnd binary64 0
    rwa [rnd_zero] at this
  have e : pow2F sq (.fin false 0) = .fin false 0 := by
    show (if (2 : ℚ) ^ 1024 ≤ sq 0 then Fp.inf false else Fp.fin false (sq 0)) = _
    rw [hsq.zero, if_neg (not_le.2 (by positivity))]
  unfold ssqStepF
  split
  · show ((Fp.inf false, Fp.fin false 1 + pow2F sq (.fin false 0)) : Fp × Fp) = _
    rw [e, add_big (by norm_num) le_rfl r1 r0 (by norm_num) (by norm_num), add_zero, rnd_of_repr r1, big_lt (small_big (by norm_num))]
  · rfl

/-- A second infinity gives the quotient of infinities. -/
theorem step_inf_inf (sq : ℚ → ℚ) {t : Fp} (ht : IsInf t) : IsNan (ssqStepF sq (.inf false, .fin false 1) t).2 := by
  obtain ⟨b, rfl⟩ := ht
  exact ⟨true, rfl⟩

theorem states_inf {sq : ℚ → ℚ} (hsq : GoodSq sq) {n : Nat} (hn : n ≤ 2 ^ 40) {xv : Nat → Fp}
    (h : ∀ i, i < n → FiniteD (xv i) ∨ IsInf (xv i)) :
    (∀ i, i < n → FiniteD (xv i)) ∨
    (∃ j, j < n ∧ IsInf (xv j) ∧ (∀ i, i < n → i ≠ j → FiniteD (xv i)) ∧ states sq xv n = (.inf false, .fin false 1)) ∨
    ((∃ i j, i < j ∧ j < n ∧ IsInf (xv i) ∧ IsInf (xv j)) ∧ IsNan (states sq xv n).2) := by
  induction n with
  | zero => exact Or.inl fun i hi => absurd hi (Nat.not_lt_zero i)
  | succ n ih =>
    have step : states sq xv (n + 1) = ssqStepF sq (states sq xv n) (xv n) := rfl
    rcases ih (by omega) fun i hi => h i (by omega) with h1 | ⟨j, hj, h2, h3, h4⟩ | ⟨⟨i, j, hij, hj, hi', hj'⟩, h2⟩
    · rcases h n (by omega) with hf | hi
      · left
        intro i hi
        rcases Nat.lt_succ_iff_lt_or_eq.1 hi with g | rfl
        · exact h1 i g
        · exact hf
      · right; left
        refine ⟨n, by omega, hi, fun i hi hne => h1 i (by omega), ?_⟩
        obtain ⟨s, q, e, -⟩ := states_inv hsq (n := n) (by omega) h1
        obtain ⟨b, eb⟩ := hi
        rw [step, e, eb, step_first_inf hsq]
    · rcases h n (by omega) with hf | hi
      · right; left
        refine ⟨j, by omega, h2, fun i hi hne => ?_, ?_⟩
        · rcases Nat.lt_succ_iff_lt_or_eq.1 hi with g | rfl
          · exact h3 i g hne
          · exact hf
        · rw [step, h4, step_inf_fin hsq hf]
      · right; right
        refine ⟨⟨j, n, hj, by omega, h2, hi⟩, ?_⟩
        rw [step, h4]
        exact step_inf_inf sq hi
    · right; right
      exact ⟨⟨i, j, hij, by omega, hi', hj'⟩, step_nan sq _ h2⟩

/-- **C156, the part that holds** A vector with one infinity, of either sign, and finite numbers otherwise has an infinite norm. -/
theorem C156_one_partial {sq : ℚ → ℚ} (hsq : GoodSq sq) {n : Nat} (hn : n ≤ 2 ^ 40) {x incX : Int} {m : Mem Fp} {xv : Nat → Fp}
    (hx : VecAt m x incX n xv) {j : Nat} (hj : j < n) (hi : IsInf (xv j)) (hf : ∀ i, i < n → i ≠ j → FiniteD (xv i)) :
    nrm2F sq n x incX m = .ok (.inf false, m) := by
  have excl : ∀ v, IsInf v → ¬ FiniteD v := by
    rintro v ⟨s, rfl⟩ ⟨b, a, e, -⟩
    cases e
  rcases Nat.lt_or_ge n 2 with h2 | h2
  · have hn : n = 1 := by omega
    subst hn
    obtain rfl : j = 0 := by omega
    obtain ⟨s, e⟩ := hi
    unfold nrm2F
    rw [if_neg (by omega), if_pos rfl, bind_ok (load_ok (first_cell hx (by omega))), pure_ok, e]
    rfl
  · rw [nrm2F_states h2 hx]
    rcases states_inf hsq hn (xv := xv) (fun i hin => by
      by_cases e : i = j
      · right; rw [e]; exact hi
      · left; exact hf i hin e) with h1 | ⟨j', hj', g1, g2, g3⟩ | ⟨⟨i', j', hij, hj', g1, g2⟩, -⟩
    · exact absurd (h1 j hj) (excl _ hi)
    · rw [g3]
      have r1 := sqrtRnd_err (m := 1) (by norm_num)
      have : sqrtRnd 1 ≠ 0 := by decide +kernel
      show Out.ok ((if sqrtRnd 1 = 0 then Fp.nan true else Fp.inf false), m) = _
      rw [if_neg this]
    · exfalso
      by_cases e : i' = j
      · exact excl _ g2 (hf j' hj' (by omega))
      · exact excl _ g1 (hf i' (by omega) e)

/-- **C156** Two infinities make the norm NaN. -/
theorem C156_two {sq : ℚ → ℚ} (hsq : GoodSq sq) {n : Nat} (hn : n ≤ 2 ^ 40) {x incX : Int} {m : Mem Fp} {xv : Nat → Fp}
    (hx : VecAt m x incX n xv) (h : ∀ i, i < n → FiniteD (xv i) ∨ IsInf (xv i)) {i j : Nat} (hij : i < j) (hj : j < n)
    (hi' : IsInf (xv i)) (hj' : IsInf (xv j)) : ∃ s, nrm2F sq n x incX m = .ok (.nan s, m) := by
  have excl : ∀ v, IsInf v → ¬ FiniteD v := by
    rintro v ⟨s, rfl⟩ ⟨b, a, e, -⟩
    cases e
  rw [nrm2F_states (by omega) hx]
  rcases states_inf hsq hn h with h1 | ⟨k, hk, g1, g2, g3⟩ | ⟨-, g⟩
  · exact absurd (h1 j hj) (excl _ hj')
  · exfalso
    by_cases e : i = k
    · exact excl _ hj' (g2 j hj (by omega))
    · exact excl _ hi' (g2 i (by omega) e)
  · obtain ⟨s, e⟩ := mul_nan (states sq xv n).1 (sqrt_nan g)
    exact ⟨s, by rw [e]⟩

/-- A memory with two infinities. -/
def exInf : Mem Fp := fun a => if a = 0 ∨ a = 1 then .val (.inf (decide (a = 1))) else .out

/-- **C156 is false of the code** -/
theorem C156_false : ¬ C156Claim := by
  intro h
  have hx : VecAt exInf 0 1 2 (fun i => .inf (decide (i = 1))) := by
    intro i hi
    interval_cases i <;> simp [exInf, elem]
  have a := h _ goodSq_rnd 2 (by norm_num) 0 1 exInf _ hx (fun i _ => Or.inr ⟨_, rfl⟩) ⟨0, by norm_num, _, rfl⟩
  obtain ⟨s, b⟩ := C156_two goodSq_rnd (by norm_num) hx (fun i _ => Or.inr ⟨_, rfl⟩) (i := 0) (j := 1) (by norm_num) (by norm_num)
    ⟨_, rfl⟩ ⟨_, rfl⟩
  rw [a] at b
  injection b with b
  cases (Prod.mk.inj b).1

/-- The hypotheses of the part that holds are met. -/
example : IsInf (.inf true) ∧ FiniteD (.fin false 3) ∧ IsNan (.nan false) := by
  refine ⟨⟨_, rfl⟩, ⟨false, 3, rfl, by norm_num, ?_, ?_⟩, ⟨_, rfl⟩⟩
  · exact small_big (by norm_num)
  · have e : rnd binary64 3 = 3 := by decide +kernel
    have := repr_rnd binary64 3
    rwa [e] at this

end Verif.Blas
