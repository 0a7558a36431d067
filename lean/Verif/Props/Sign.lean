import Verif.Lemmas.Num

/-! Property theorems for `copySign`, `signBit` and `ldexp` (C113). -/

namespace Verif.Num

open Verif.Ieee

/-- The number is negative, or is a negative zero or NaN. -/
def Val.negative : Val → Bool
  | .i z => decide (z < 0)
  | .f x => x.sign

/-! ### copySign -/

/-- **C113**, `copySign` of a `float` or `double` with a sign from any fundamental type: the result has the sign bit of `sign`, and
differs from `mag` in the sign bit only. This includes zeros, infinities and NaN. -/
theorem C113_copySign_float (f : FTy) (mag : Fp) (sign : Val) :
    (copySignF f mag sign).sign = sign.negative ∧ (copySignF f mag sign).withSign mag.sign = mag := by
  cases sign with
  | i z => exact ⟨by rw [copySignF, withSign_sign, ofInt_sign]; rfl, by rw [copySignF, withSign_withSign, withSign_self]⟩
  | f x => exact ⟨by rw [copySignF, withSign_sign, convFp_sign]; rfl, by rw [copySignF, withSign_withSign, withSign_self]⟩

/-- **C113**, `copySign` of an integer, full statement: `|mag|` with the sign of `sign`, whenever that is a value of the type. -/
def C113CopySignClaim : Prop :=
  ∀ (sg : Bool) (w : Nat) (mag : Int) (sign : Val), (w = 8 ∨ w = 16 ∨ w = 32 ∨ w = 64) → InR sg w mag →
    InR sg w (if sign.negative then -|mag| else |mag|) →
    copySignI sg w mag sign = .ok (if sign.negative then -|mag| else |mag|)

/-- **C113** fails for integers: `copySign(5, -0.5)` is 5, because -0.5 is converted to 0 first. -/
theorem C113_fraction_false : ¬ C113CopySignClaim := by
  intro h
  have h1 : copySignI true 32 5 (.f (.fin true (1 / 2))) = .ok (-5) := h true 32 5 (.f (.fin true (1 / 2))) (by simp) (by decide +kernel)
    (by decide +kernel)
  revert h1
  decide +kernel

/-- **C113** fails for integers: every sign between -1 and 1 counts as positive. -/
theorem C113_fraction_lost_false (w : Nat) (hw : 1 ≤ w) (mag : Int) (s : Bool) (m : ℚ) (h0 : 0 ≤ m) (h1 : m < 1) :
    copySignI true w mag (.f (.fin s m)) = copySignI true w mag (.i 0) := by
  have hf : ⌊m⌋ = 0 := Int.floor_eq_iff.2 ⟨by simpa using h0, by simpa using h1⟩
  have hz : InR true w 0 := by
    have : (1 : Int) ≤ 2 ^ (w - 1) := one_le_pow₀ (by norm_num)
    simp only [InR, lo, hi, if_true]
    omega
  have e1 : truncTo true w (.fin s m) = .ok 0 := by simp [truncTo, hf, hz]
  simp only [copySignI, cast, e1, wrap_eq hw hz]
  rfl

/-- **C113** fails for integers of 64 bits: beyond 2^53 the magnitude changes, and the greatest magnitude is undefined behaviour
although the result is a value of the type. -/
theorem C113_wide_false :
    copySignI true 64 (2 ^ 53 + 1) (.i 1) = .ok (2 ^ 53) ∧ copySignI true 64 (2 ^ 63 - 1) (.i 1) = .ub := by decide +kernel

/-- **C113** for signed integers: with a magnitude up to 2^53 and a sign that keeps its sign when it is converted to the type.
Missing from the full statement: greater magnitudes, and signs that are fractions or not values of the type; it is false there. -/
theorem C113_copySign_int_partial (w : Nat) (hw : 1 ≤ w) (mag : Int) (hm : |mag| ≤ 2 ^ 53) (sign : Val)
    (hs : match sign with
      | .i z => InR true w z
      | .f (.fin s m) => 1 ≤ m ∧ InR true w (if s then -⌊m⌋ else ⌊m⌋)
      | .f _ => False)
    (hr : InR true w (if sign.negative then -|mag| else |mag|)) :
    copySignI true w mag sign = .ok (if sign.negative then -|mag| else |mag|) := by
  have key : ∀ z : Int, InR true w (if z < 0 then -|mag| else |mag|) →
      truncTo true w ((ofInt .dbl mag).withSign (ofInt .dbl z).sign) = .ok (if z < 0 then -|mag| else |mag|) := by
    intro z hz
    rw [ofInt_exact hm, ofInt_sign, ← Int.cast_abs]
    have := truncTo_int (sg := true) (w := w) (s := decide (z < 0)) (n := |mag|) (by simpa using hz)
    simpa [Fp.withSign] using this
  match sign, hs with
  | .i z, hs =>
    have : copySignI true w mag (.i z) = truncTo true w ((ofInt .dbl mag).withSign (ofInt .dbl z).sign) := by
      simp only [copySignI, cast, Out.ok_bind, wrap_eq hw hs]
    rw [this]
    simp only [Val.negative, decide_eq_true_eq] at hr ⊢
    exact key z hr
  | .f (.fin s m), ⟨h1, hs⟩ =>
    have hfl : 1 ≤ ⌊m⌋ := Int.le_floor.2 (by simpa using h1)
    have e : truncTo true w (.fin s m) = .ok (if s then -⌊m⌋ else ⌊m⌋) := by simp only [truncTo]; rw [if_pos hs]
    have : copySignI true w mag (.f (.fin s m)) =
        truncTo true w ((ofInt .dbl mag).withSign (ofInt .dbl (if s then -⌊m⌋ else ⌊m⌋)).sign) := by
      simp only [copySignI, cast, e, Out.ok_bind, Out.pure_eq]
    rw [this]
    have hneg : ((if s then -⌊m⌋ else ⌊m⌋) < 0) ↔ s = true := by
      cases s <;> simp <;> omega
    have := key (if s then -⌊m⌋ else ⌊m⌋)
    cases s with
    | true => rw [if_pos (hneg.2 rfl)] at this; exact this hr
    | false => rw [if_neg (by rw [hneg]; simp)] at this; exact this hr

example : copySignI true 32 (-7) (.i 3) = .ok 7 ∧ copySignI true 8 100 (.f (.fin true (7 / 2))) = .ok (-100) := by decide +kernel

/-- **C113**, `copySign` of a type that is not fundamental (such as `half`): right exactly when the magnitude is not negative. So
`copySign(half(-2), half(1))` is -2 and `copySign(half(-2), half(-1))` is 2. -/
theorem C113_generic (mag sign : ℚ) :
    copySignG mag sign = (if sign < 0 then -|mag| else |mag|) ↔ 0 ≤ mag := by
  unfold copySignG
  split
  · rw [neg_inj]; exact ⟨fun h => h ▸ abs_nonneg _, fun h => (abs_of_nonneg h).symm⟩
  · exact ⟨fun h => h ▸ abs_nonneg _, fun h => (abs_of_nonneg h).symm⟩

theorem C113_generic_false : copySignG (-2 : ℚ) 1 = -2 ∧ copySignG (-2 : ℚ) (-1) = 2 := by decide +kernel

/-- **C113**, `copySign` of multi-precision numbers: right for all magnitudes and signs. -/
theorem C113_copySign_mp (mag sign : ℚ) : copySignMp mag sign = if sign < 0 then -|mag| else |mag| := by
  unfold copySignMp
  by_cases hs : 0 ≤ sign <;> by_cases hm : 0 ≤ mag
  · simp [hs, hm, not_lt.2 hs, abs_of_nonneg hm]
  · simp [hs, hm, not_lt.2 hs, abs_of_neg (not_le.1 hm), not_le.1 hm]
  · simp [hs, hm, not_le.1 hs, abs_of_nonneg hm]
  · simp [hs, hm, not_le.1 hs, abs_of_neg (not_le.1 hm), not_le.1 hm]

/-! ### signBit -/

/-- **C113**, `signBit` of a fundamental type. -/
theorem C113_signBit (v : Val) : signBit v = v.negative := by
  cases v with
  | i z => exact ofInt_sign .dbl z
  | f x => rfl

/-- **C113**, `signBit` of a multi-precision number: right exactly when the number is not zero. -/
theorem C113_signBit_mp (x : ℚ) : signBitMp x = decide (x < 0) ↔ x ≠ 0 := by
  unfold signBitMp
  by_cases h : x = 0
  · simp [h]
  · simp [h]

/-- **C113** fails for a multi-precision zero: `signBit` says it is negative, and `copySign` takes it as positive. -/
theorem C113_signBit_false : signBitMp 0 = true ∧ copySignMp 5 0 = 5 := by decide +kernel

/-! ### ldexp -/

/-- `x * 2^e` in a floating-point type: NaN and infinities are kept; of a finite number the sign is kept and the magnitude is a
number of the type nearest to the product, or infinite when the product rounds to `2 ^ emax` or more. -/
def Scaled (f : FTy) (x : Fp) (e : Int) (r : Fp) : Prop :=
  match x with
  | .fin s m =>
    (∃ y, r = .fin s y ∧ Ieee.Repr f.fmt y ∧ y < (2 : ℚ) ^ f.emax ∧ ∀ z, Ieee.Repr f.fmt z → |y - m * (2 : ℚ) ^ e| ≤ |z - m * (2 : ℚ) ^ e|) ∨
    (r = .inf s ∧ ∃ y, Ieee.Repr f.fmt y ∧ (2 : ℚ) ^ f.emax ≤ y ∧ ∀ z, Ieee.Repr f.fmt z → |y - m * (2 : ℚ) ^ e| ≤ |z - m * (2 : ℚ) ^ e|)
  | x => r = x

/-- **C113**, `ldexp`, full statement: the scaled number for every exponent of 64 bits. -/
def C113LdexpClaim : Prop :=
  ∀ (f : FTy) (x : Fp) (e : Int), InR true 64 e → Scaled f x e (ldexpF f x e)

/-- **C113** for `ldexp` with exponents that an `int` can hold. Missing from the full statement: the other exponents of 64 bits. -/
theorem C113_ldexp_partial (f : FTy) (x : Fp) (e : Int) (he : InR true 32 e) : Scaled f x e (ldexpF f x e) := by
  have hw : wrap true 32 e = e := wrap_eq (by decide) he
  cases x with
  | nan s => simp [Scaled, ldexpF, stdLdexp]
  | inf s => simp [Scaled, ldexpF, stdLdexp]
  | fin s m =>
    simp only [Scaled, ldexpF, stdLdexp, hw]
    by_cases hc : (2 : ℚ) ^ f.emax ≤ rnd f.fmt (m * (2 : ℚ) ^ e)
    · refine Or.inr ⟨by rw [toFp, if_pos hc], rnd f.fmt (m * (2 : ℚ) ^ e), repr_rnd _ _, hc, fun z hz => rnd_nearest hz⟩
    · exact Or.inl ⟨rnd f.fmt (m * (2 : ℚ) ^ e), by rw [toFp, if_neg hc], repr_rnd _ _, not_le.1 hc, fun z hz => rnd_nearest hz⟩

/-- **C113** for `ldexp`: where the product is a number of the type, it is the result. -/
theorem C113_ldexp_exact (f : FTy) (s : Bool) (m : ℚ) (e : Int) (he : InR true 32 e) (hr : Ieee.Repr f.fmt (m * (2 : ℚ) ^ e))
    (hm : m * (2 : ℚ) ^ e < (2 : ℚ) ^ f.emax) : ldexpF f (.fin s m) e = .fin s (m * (2 : ℚ) ^ e) := by
  simp only [ldexpF, stdLdexp, wrap_eq (by decide) he]
  exact toFp_exact hr hm

example : InR true 32 (-1074) ∧ Ieee.Repr FTy.dbl.fmt (1 * (2 : ℚ) ^ (-1074 : Int)) :=
  ⟨by decide, by rw [one_mul]; exact repr_two_zpow (by decide)⟩

/-- **C113** fails for `ldexp`: the exponent counts modulo 2^32. -/
theorem C113_ldexp_wrap_false (f : FTy) (x : Fp) (e : Int) : ldexpF f x (e + 2 ^ 32) = ldexpF f x e := by
  unfold ldexpF
  have := wrap_mod true 32 e 1
  rw [one_mul] at this
  rw [this]

theorem fmt_emin (f : FTy) : -1074 ≤ f.fmt.emin ∧ f.fmt.emin ≤ -149 := by cases f <;> decide

theorem emax_le (f : FTy) : f.emax ≤ 1024 := by cases f <;> decide

/-- **C113** fails for `ldexp`: `ldexp(1, 2^32)` is 1 and `ldexp(1, 2^31)` is 0, where the product is beyond the greatest number. -/
theorem C113_ldexp_big_false (f : FTy) :
    ldexpF f (.fin false 1) (2 ^ 32) = .fin false 1 ∧ ldexpF f (.fin false 1) (2 ^ 31) = .fin false 0 := by
  have e1 : wrap true 32 (2 ^ 32) = 0 := by decide
  have e2 : wrap true 32 (2 ^ 31) = -2147483648 := by decide
  have hemin := fmt_emin f
  constructor
  · simp only [ldexpF, stdLdexp, e1, zpow_zero, mul_one]
    refine toFp_exact ?_ ?_
    · have : Ieee.Repr f.fmt ((2 : ℚ) ^ (0 : Int)) := repr_two_zpow (by omega)
      simpa using this
    · cases f <;> exact one_lt_pow₀ (by norm_num) (by decide)
  · simp only [ldexpF, stdLdexp, e2, one_mul]
    have : rnd f.fmt ((2 : ℚ) ^ (-2147483648 : Int)) = 0 :=
      rnd_tiny (two_zpow_pos _).le (zpow_lt_zpow.2 (by omega))
    unfold toFp
    rw [this, if_neg (not_le.2 (by positivity))]

theorem one_not_nearest {X : ℚ} (h : 2 ≤ X) : ¬ |1 - X| ≤ |2 - X| := by
  rw [abs_of_nonpos (by linarith), abs_of_nonpos (by linarith)]
  linarith

theorem C113_ldexp_false : ¬ C113LdexpClaim := by
  intro h
  have h1 := h .dbl (.fin false 1) (2 ^ 32) (by decide)
  rw [(C113_ldexp_big_false .dbl).1] at h1
  rcases h1 with ⟨y, hy, _, _, hn⟩ | ⟨hy, _⟩
  · obtain rfl : (1 : ℚ) = y := by simpa using hy
    have h2 := hn ((2 : ℚ) ^ (1 : Int)) (repr_two_zpow (by decide))
    have h3 : (2 : ℚ) ^ (1 : Int) ≤ 2 ^ ((2 : Int) ^ 32) := zpow_le_zpow.2 (by decide)
    rw [zpow_one, one_mul] at h2
    rw [zpow_one] at h3
    exact one_not_nearest h3 h2
  · cases hy

/-- **C113** for `ldexp` of an integer of magnitude up to 2^53: the product truncated towards zero. -/
theorem C113_ldexp_int_partial (sg : Bool) (w : Nat) (z e : Int) (hz : |z| ≤ 2 ^ 53) (he : InR true 32 e) (he' : -1074 ≤ e)
    (hm : |(z : ℚ)| * (2 : ℚ) ^ e < 2 ^ 1024)
    (hr : InR sg w (if z < 0 then -⌊|(z : ℚ)| * (2 : ℚ) ^ e⌋ else ⌊|(z : ℚ)| * (2 : ℚ) ^ e⌋)) :
    ldexpI sg w z e = .ok (if z < 0 then -⌊|(z : ℚ)| * (2 : ℚ) ^ e⌋ else ⌊|(z : ℚ)| * (2 : ℚ) ^ e⌋) := by
  unfold ldexpI
  rw [ofInt_exact hz, C113_ldexp_exact .dbl _ _ _ he ?_ hm]
  · simp only [truncTo, decide_eq_true_eq]
    rw [if_pos hr]
  · have hm : Mult e (|(z : ℚ)| * (2 : ℚ) ^ e) := ⟨|z|, by push_cast; rfl⟩
    refine repr_of_mult hm he' ?_
    rw [abs_mul, abs_abs, abs_of_pos (two_zpow_pos e), add_comm, ← zpow_mul]
    refine mul_le_mul_of_nonneg_right ?_ (two_zpow_pos e).le
    have h1 : |(z : ℚ)| ≤ 2 ^ 53 := by exact_mod_cast hz
    exact h1

example : ldexpI true 32 (-7) (-1) = .ok (-3) := by decide +kernel

/-- **C113** for `ldexp` of a multi-precision number: exact for exponents from 0, wrong for every negative exponent (and every number
but 0), because the shift count is unsigned. -/
theorem C113_ldexp_mp (x : ℚ) (hx : x ≠ 0) (e : Int) (he : InR true 64 e) : ldexpMp x e = x * (2 : ℚ) ^ e ↔ 0 ≤ e := by
  have h2 : (0 : ℚ) < 2 := by norm_num
  have key : ldexpMp x e = x * (2 : ℚ) ^ e ↔ wrap false 64 e = e := by
    unfold ldexpMp
    rw [mul_right_inj' hx]
    exact zpow_right_inj₀ h2 (by norm_num)
  rw [key]
  simp only [InR, lo, hi, if_true] at he
  constructor
  · intro h
    rw [← h]
    simp only [wrap, Bool.false_eq_true, false_and, if_false]
    exact Int.emod_nonneg _ (by norm_num)
  · intro h
    refine wrap_eq (by decide) ?_
    simp only [InR, lo, hi, Bool.false_eq_true, if_false]
    norm_num at *
    omega

end Verif.Num
