import Verif.Lemmas.HalfOrder

/-!
# Properties of the class `half`

`W` is the behaviour of a shift by 32 or more: `none` makes it undefined, `some w` defines it by `w`.
-/

namespace Verif.HalfM

open HalfS

/-! ## C47: from half to float and back -/

/-- The whole property: every half converts to a float of the same value, and that float converts back to the half. -/
def C47Claim (W : Wide) : Prop :=
  ∀ h < 2 ^ 16, ∃ f, halfToFloat W h = .ok f ∧ floatVal f = halfVal h ∧ floatToHalf W f = .ok h

/-- **C47 (exactness).** For all halves and whatever wide shifts do, the float is defined, has the value of the half and
its sign bit. -/
theorem C47_exact (W : Wide) (h : Nat) (hh : h < 2 ^ 16) :
    ∃ f, f < 2 ^ 32 ∧ halfToFloat W h = .ok f ∧ floatVal f = halfVal h ∧ f / 2 ^ 31 = h / 2 ^ 15 := exact W h hh

example : halfToFloat none 0x0001 = .ok 0x33800000 ∧ halfToFloat none 0xfc00 = .ok 0xff800000 := by decide +kernel

theorem snan_back (W : Wide) : floatToHalf W 0x7f802000 ≠ .ok 0x7c01 := by
  have h := floatToHalf_eq W 0 255 (2 ^ 13) (by omega) (by omega) (by omega)
  rw [show 0 * 2 ^ 31 + 255 * 2 ^ 23 + 2 ^ 13 = 0x7f802000 by norm_num] at h
  rw [h]
  cases hs : shr W (rounded (2 ^ 13) ||| 2 ^ 23) (sub32 1 (sub32 255 112)) with
  | ok d =>
    rw [Out.ok_bind, big_body 255 (2 ^ 13) d (by omega) (by omega), pack 0 _ (by omega) (by omega)]
    intro hc
    injection hc with hc
    norm_num at hc
  | _ => intro hc; cases hc

/-- **C47 is false**, whatever wide shifts do: the signalling NaN `0x7c01` comes back as an infinity.
Where wide shifts are undefined, so is the way back from `1`. -/
theorem C47_false (W : Wide) : ¬ C47Claim W ∧
    (halfToFloat W 0x7c01 = .ok 0x7f802000 ∧ floatToHalf W 0x7f802000 ≠ .ok 0x7c01) ∧
    (halfToFloat none 0x3c00 = .ok 0x3f800000 ∧ floatToHalf none 0x3f800000 = .ub) := by
  have h1 : halfToFloat W 0x7c01 = .ok 0x7f802000 := halfToFloat_wide W _ _ (by decide +kernel)
  refine ⟨fun h => ?_, ⟨h1, snan_back W⟩, by decide +kernel⟩
  obtain ⟨f, hf, -, hb⟩ := h 0x7c01 (by norm_num)
  rw [h1] at hf
  injection hf with hf
  subst hf
  exact snan_back W hb

/-- **C47 (round trip).** Every half that is neither a NaN nor a zero comes back, on every platform that defines wide
shifts. -/
theorem C47_roundTrip_partial (w : Nat → Nat → Nat) (h : Nat) (hh : h < 2 ^ 16) (hn : halfVal h ≠ .nan)
    (h0 : (halfVal h).toRat? ≠ some 0) :
    ∃ f, halfToFloat (some w) h = .ok f ∧ floatVal f = halfVal h ∧ floatToHalf (some w) f = .ok h := by
  obtain ⟨f, -, hf, hv, -⟩ := exact (some w) h hh
  refine ⟨f, hf, hv, ?_⟩
  obtain ⟨s, e, m, hs, he, hm, rfl⟩ := half_fields h hh
  clear hh
  by_cases he0 : e = 0
  · subst he0
    rw [show s * 2 ^ 15 + 0 * 2 ^ 10 + m = s * 2 ^ 15 + m by rw [Nat.zero_mul, Nat.add_zero]] at hf h0 ⊢
    have hm0 : m ≠ 0 := by
      rintro rfl
      rw [toRat_sub s 0 hs (by norm_num)] at h0
      simp [signed] at h0
    rw [halfToFloat_sub _ s m hs hm, if_neg hm0] at hf
    rw [← Out.ok.inj hf, ← Nat.add_assoc]
    exact roundTrip_sub _ s m hs hm0 hm
  · rw [halfToFloat_eq _ s e m hs he he0 hm] at hf
    rw [← Out.ok.inj hf]
    refine roundTrip_norm w s e m hs he he0 hm fun h31 => ?_
    rcases halfVal_cases s e m hs he hm hn with ⟨-, h, -⟩ | ⟨h, -⟩
    · exact h
    · omega

/-- **C47 (round trip on x86).** There the zeros come back too. -/
theorem C47_roundTrip_x86_partial (h : Nat) (hh : h < 2 ^ 16) (hn : halfVal h ≠ .nan) :
    ∃ f, halfToFloat x86 h = .ok f ∧ floatVal f = halfVal h ∧ floatToHalf x86 f = .ok h := by
  by_cases hz : h = 0 ∨ h = 0x8000
  · obtain ⟨f, -, hf, hv, -⟩ := exact x86 h hh
    refine ⟨f, hf, hv, ?_⟩
    rcases hz with rfl | rfl
    · have : halfToFloat x86 0 = .ok 0 := by decide +kernel
      rw [this] at hf; rw [← Out.ok.inj hf]; decide +kernel
    · have : halfToFloat x86 0x8000 = .ok 0x80000000 := by decide +kernel
      rw [this] at hf; rw [← Out.ok.inj hf]; decide +kernel
  · refine C47_roundTrip_partial _ h hh hn ?_
    obtain ⟨s, e, m, hs, he, hm, rfl⟩ := half_fields h hh
    rcases halfVal_cases s e m hs he hm hn with ⟨-, -, hv⟩ | ⟨-, hv⟩
    · rw [hv]; simp [FV.toRat?]
    · rw [hv]
      have h1 : mag e m ≠ 0 := by
        intro h
        have := (mag_zero_iff hm).1 h
        omega
      simp only [FV.toRat?, ne_eq, Option.some.injEq]
      split
      · simpa using h1
      · exact h1

/-- The hypotheses are met: `0x3555` is `0.333251953125`. -/
example : 0x3555 < 2 ^ 16 ∧ halfVal 0x3555 ≠ .nan ∧ (halfVal 0x3555).toRat? ≠ some 0 ∧
    floatToHalf x86 0x3eaaa000 = .ok 0x3555 := by
  have h : halfVal (0 * 2 ^ 15 + 13 * 2 ^ 10 + 341) = _ := halfVal_eq 0 13 341 (by norm_num) (by norm_num) (by norm_num)
  norm_num at h
  refine ⟨by norm_num, ?_, ?_, by decide +kernel⟩ <;> rw [h] <;> simp [FV.toRat?]

/-! ## C48: from float to half -/

/-- What the conversion should return for a float. -/
def Converts (r f : Nat) : Prop :=
  match floatVal f with
  | .nan => halfVal r = .nan
  | .inf s => halfVal r = .inf s
  | .fin s q => NearestHalf r (if s then -q else q)

/-- The whole property: the conversion is defined for every float and rounds to nearest. -/
def C48Claim (W : Wide) : Prop := ∀ f < 2 ^ 32, ∃ r, floatToHalf W f = .ok r ∧ r < 2 ^ 16 ∧ Converts r f

/-- **C48 (where it is undefined).** The conversion shifts by 32 or more for exactly the floats with an exponent field
outside 82..113, that is below `2^-45` or from `2^-13` on in magnitude. -/
theorem C48_undefined_iff (f : Nat) (hf : f < 2 ^ 32) :
    floatToHalf none f = .ub ↔ f / 2 ^ 23 % 2 ^ 8 < 82 ∨ 113 < f / 2 ^ 23 % 2 ^ 8 := by
  obtain ⟨s, e, m, hs, he, hm, rfl⟩ := float_fields f hf
  clear hf
  have he' : (s * 2 ^ 31 + e * 2 ^ 23 + m) / 2 ^ 23 % 2 ^ 8 = e := by omega
  rw [he', floatToHalf_eq none s e m hs he hm]
  have hsa : sub32 1 (sub32 e 112) < 32 ↔ ¬ (e < 82 ∨ 113 < e) := by
    unfold sub32
    by_cases h : 112 ≤ e
    · rw [show (e + 2 ^ 32 - 112) % 2 ^ 32 = e - 112 by omega]; omega
    · rw [show (e + 2 ^ 32 - 112) % 2 ^ 32 = e + 2 ^ 32 - 112 by omega]; omega
  unfold shr
  by_cases h : sub32 1 (sub32 e 112) < 32
  · rw [if_pos h, Out.ok_bind]
    have := hsa.1 h
    constructor
    · intro hc; cases hc
    · intro hc; exact absurd hc this
  · rw [if_neg h]
    have : e < 82 ∨ 113 < e := by
      by_contra hc; exact h (hsa.2 hc)
    exact ⟨fun _ => this, fun _ => rfl⟩

/-- The floats from `2^16` to `2^17` have exponent field 143 and convert to NaNs, and the largest of them to minus zero. -/
theorem C48_too_big (w : Nat → Nat → Nat) (s m : Nat) (hs : s < 2) (hm : m < 2 ^ 23) :
    ∃ r, floatToHalf (some w) (s * 2 ^ 31 + 143 * 2 ^ 23 + m) = .ok r ∧
      if m < 2 ^ 12 then halfVal r = .inf (decide (s = 1))
      else if m < 2 ^ 23 - 2 ^ 12 then halfVal r = .nan
      else r = 2 ^ 15 := by
  obtain ⟨d, hd⟩ := floatToHalf_ok w s 143 m hs (by omega) hm
  refine ⟨_, hd, ?_⟩
  have hb : halfBody 143 m d = 31 * 2 ^ 10 + (m + 2 ^ 12) / 2 ^ 13 := by
    unfold halfBody
    rw [if_neg (by omega), if_neg (by omega), if_neg (by omega), rounded_div]
    have := rounded_le m hm
    have := rounded_div m
    by_cases h : 2 ^ 23 ≤ rounded m
    · rw [if_pos h]; omega
    · rw [if_neg h]
  rw [hb]
  by_cases h1 : m < 2 ^ 12
  · rw [if_pos h1, show (m + 2 ^ 12) / 2 ^ 13 = 0 by omega, pack s _ hs (by omega), ← Nat.add_assoc,
      halfVal_eq s 31 0 hs (by omega) (by omega), if_pos rfl, if_pos rfl]
  · rw [if_neg h1]
    by_cases h2 : m < 2 ^ 23 - 2 ^ 12
    · have h3 : (m + 2 ^ 12) / 2 ^ 13 < 2 ^ 10 := by omega
      have h4 : (m + 2 ^ 12) / 2 ^ 13 ≠ 0 := by omega
      rw [if_pos h2, pack s _ hs (by omega), ← Nat.add_assoc, halfVal_eq s 31 _ hs (by omega) h3, if_pos rfl, if_neg h4]
    · rw [if_neg h2, show (m + 2 ^ 12) / 2 ^ 13 = 2 ^ 10 by omega]
      have S : s = 0 ∨ s = 1 := by omega
      rcases S with rfl | rfl <;> norm_num

/-- **C48 is false**: `100000.0f` converts to a NaN or is undefined, `131071.0f` converts to minus zero, a signalling NaN to
an infinity, and `2^-14 - 2^-38` to half its value. -/
theorem C48_false (W : Wide) : ¬ C48Claim W ∧
    floatToHalf x86 0x47c35000 = .ok 0x7e1b ∧ floatToHalf x86 0x47ffff80 = .ok 0x8000 ∧
    floatToHalf x86 0x7f800001 = .ok 0x7c00 ∧ floatToHalf none 0x387fffff = .ok 0x0200 := by
  refine ⟨fun h => ?_, by decide +kernel, by decide +kernel, by decide +kernel, by decide +kernel⟩
  obtain ⟨r, hr, hr16, hc⟩ := h (0 * 2 ^ 31 + 143 * 2 ^ 23 + 0x435000) (by norm_num)
  cases W with
  | none =>
    rw [(C48_undefined_iff _ (by norm_num)).2 (by norm_num)] at hr
    cases hr
  | some w =>
    obtain ⟨r', hr', hv⟩ := C48_too_big w 0 0x435000 (by norm_num) (by norm_num)
    rw [hr] at hr'
    rw [← Out.ok.inj hr', if_neg (by norm_num), if_pos (by norm_num)] at hv
    unfold Converts at hc
    rw [floatVal_eq 0 143 0x435000 (by norm_num) (by norm_num) (by norm_num), if_neg (by norm_num),
      if_neg (by norm_num)] at hc
    simp only [zero_ne_one, decide_false, Bool.false_eq_true, if_false] at hc
    unfold NearestHalf at hc
    rw [if_pos (by norm_num [abs_of_pos]), hv] at hc
    cases hc

theorem converts_nan {r f : Nat} (hv : floatVal f = .nan) (h : halfVal r = .nan) : Converts r f := by
  unfold Converts; rw [hv]; exact h

theorem converts_inf {r f : Nat} {b : Bool} (hv : floatVal f = .inf b) (h : halfVal r = .inf b) : Converts r f := by
  unfold Converts; rw [hv]; exact h

theorem converts_fin {r f s : Nat} {q : ℚ} (hv : floatVal f = .fin (decide (s = 1)) q) (h : NearestHalf r (signed s q)) :
    Converts r f := by
  unfold Converts; rw [hv]
  simpa [signed] using h

/-- **C48 (the other floats in range and beyond).** Where wide shifts are defined, every float of magnitude from `2^-14` to
`2^16` or from `2^17` on, both infinities and every quiet NaN convert as they should, and the sign bit is kept. -/
theorem C48_nearest_partial (w : Nat → Nat → Nat) (f : Nat) (hf : f < 2 ^ 32)
    (h : 113 ≤ f / 2 ^ 23 % 2 ^ 8 ∧ f / 2 ^ 23 % 2 ^ 8 ≠ 143)
    (hs : f / 2 ^ 23 % 2 ^ 8 = 255 → f % 2 ^ 23 = 0 ∨ 2 ^ 22 ≤ f % 2 ^ 23) :
    ∃ r, floatToHalf (some w) f = .ok r ∧ r < 2 ^ 16 ∧ r / 2 ^ 15 = f / 2 ^ 31 ∧ Converts r f := by
  obtain ⟨s, e, m, hs', he, hm, rfl⟩ := float_fields f hf
  clear hf
  have e1 : (s * 2 ^ 31 + e * 2 ^ 23 + m) / 2 ^ 23 % 2 ^ 8 = e := by omega
  have e2 : (s * 2 ^ 31 + e * 2 ^ 23 + m) % 2 ^ 23 = m := by omega
  have e3 : (s * 2 ^ 31 + e * 2 ^ 23 + m) / 2 ^ 31 = s := by
    rw [Nat.add_assoc]; exact top31 s _ (by clear hs h e1 e2 hs'; omega)
  rw [e1, e2] at hs
  rw [e1] at h
  rw [e3]
  have hv := floatVal_eq s e m hs' he hm
  by_cases h255 : e = 255
  · rw [if_pos h255] at hv
    rcases hs h255 with h0 | hq
    · rw [if_pos h0] at hv
      obtain ⟨r, a, b, c, d⟩ := infinite w s hs'
      rw [← h255, ← h0] at a
      exact ⟨r, a, b, c, converts_inf hv d⟩
    · rw [if_neg (Nat.pos_iff_ne_zero.1 (lt_of_lt_of_le (Nat.two_pow_pos 22) hq))] at hv
      obtain ⟨r, a, b, c, d⟩ := quiet w s m hs' hm hq
      rw [← h255] at a
      exact ⟨r, a, b, c, converts_nan hv d⟩
  · rw [if_neg h255, if_neg (by omega)] at hv
    have key : ∃ r, floatToHalf (some w) (s * 2 ^ 31 + e * 2 ^ 23 + m) = .ok r ∧ r < 2 ^ 16 ∧ r / 2 ^ 15 = s ∧
        NearestHalf r (signed s ((2 ^ 23 + m : ℕ) * (2 : ℚ) ^ ((e : Int) - 150))) := by
      by_cases h' : e ≤ 142
      · exact normal w s e m hs' h.1 h' hm
      · exact big w s e m hs' (by omega) (by omega) hm
    obtain ⟨r, a, b, c, d⟩ := key
    exact ⟨r, a, b, c, converts_fin hv d⟩

/-- The hypotheses are met by `3.14159274f`, which converts to `3.140625`. -/
example : 113 ≤ 0x40490fdb / 2 ^ 23 % 2 ^ 8 ∧ 0x40490fdb / 2 ^ 23 % 2 ^ 8 ≠ 143 ∧
    floatToHalf x86 0x40490fdb = .ok 0x4248 := by decide +kernel

/-- **C48 (small floats).** From `2^-45` to `2^-14`, below the last `2^12` floats of each binade, the conversion is defined
without wide shifts and errs by less than one place `2^-24`; it need not be the nearest half. -/
theorem C48_small_partial (W : Wide) (f : Nat) (hf : f < 2 ^ 32) (h : 82 ≤ f / 2 ^ 23 % 2 ^ 8 ∧ f / 2 ^ 23 % 2 ^ 8 ≤ 112)
    (hc : f % 2 ^ 23 < 2 ^ 23 - 2 ^ 12) :
    ∃ r v q, floatToHalf W f = .ok r ∧ (halfVal r).toRat? = some v ∧ (floatVal f).toRat? = some q ∧
      |v - q| < (2 : ℚ) ^ (-24 : Int) := by
  obtain ⟨s, e, m, hs', he, hm, rfl⟩ := float_fields f hf
  clear hf
  have e1 : (s * 2 ^ 31 + e * 2 ^ 23 + m) / 2 ^ 23 % 2 ^ 8 = e := by omega
  have e2 : (s * 2 ^ 31 + e * 2 ^ 23 + m) % 2 ^ 23 = m := by omega
  rw [e1] at h
  rw [e2] at hc
  obtain ⟨r, hr, hle, heq⟩ := small W s e m hs' h.1 h.2 hm hc
  refine ⟨_, _, signed s ((2 ^ 23 + m : ℕ) * (2 : ℚ) ^ ((e : Int) - 150)), hr, small_value s r hs' hle, ?_, ?_⟩
  · rw [floatVal_eq s e m hs' he hm, if_neg (by omega), if_neg (by omega)]
    simp [FV.toRat?, signed]
  · rw [signed_sub]
    have := small_error e m r h.2 heq
    unfold signed
    split
    · rwa [abs_neg]
    · exact this

/-- The hypotheses are met by `1e-5f`. -/
example : 82 ≤ 0x3727c5ac / 2 ^ 23 % 2 ^ 8 ∧ 0x3727c5ac / 2 ^ 23 % 2 ^ 8 ≤ 112 ∧
    0x3727c5ac % 2 ^ 23 < 2 ^ 23 - 2 ^ 12 ∧ floatToHalf none 0x3727c5ac = .ok 0x00a7 := by decide +kernel

/-! ## C49: comparisons, unary minus, named values -/

/-- The five relations on values. -/
structure Compares (l r : Nat) : Prop where
  lt : HalfM.lt l r = true ↔ (halfVal l).lt (halfVal r)
  eq : beq l r = true ↔ (halfVal l).eq (halfVal r)
  ne : bne l r = true ↔ ¬ (halfVal l).eq (halfVal r)
  le : le l r = true ↔ (halfVal l).lt (halfVal r) ∨ (halfVal l).eq (halfVal r)
  gt : gt l r = true ↔ (halfVal r).lt (halfVal l)
  ge : ge l r = true ↔ (halfVal r).lt (halfVal l) ∨ (halfVal l).eq (halfVal r)

/-- The whole property for comparisons. -/
def C49Claim : Prop := ∀ l < 2 ^ 16, ∀ r < 2 ^ 16, Compares l r

theorem zero_val (s : Nat) (hs : s < 2) : halfVal (s * 2 ^ 15) = .fin (decide (s = 1)) 0 := by
  have := halfVal_eq s 0 0 hs (by norm_num) (by norm_num)
  simpa using this

/-- **C49 is false**: minus zero is less than zero and not equal to it, a NaN equals itself, `-1` is named `2` and `-0.5` is
named `0.875`. -/
theorem C49_false : ¬ C49Claim ∧
    (lt 0x8000 0 = true ∧ ¬ (halfVal 0x8000).lt (halfVal 0)) ∧
    (beq 0x8000 0 = false ∧ (halfVal 0x8000).eq (halfVal 0)) ∧
    (beq cNan cNan = true ∧ ¬ (halfVal cNan).eq (halfVal cNan)) ∧
    (gt cNan 0 = true ∧ ¬ (halfVal 0).lt (halfVal cNan)) ∧
    (halfVal cNegativeOne).toRat? = some 2 ∧ (halfVal cNegativeHalf).toRat? = some (7 / 8) := by
  have a : halfVal 0x8000 = .fin true 0 := by simpa using zero_val 1 (by norm_num)
  have b : halfVal 0 = .fin false 0 := by simpa using zero_val 0 (by norm_num)
  have n : halfVal cNan = .nan := by
    have := halfVal_eq 0 31 512 (by norm_num) (by norm_num) (by norm_num)
    norm_num at this
    exact this
  refine ⟨fun h => ?_, ⟨by decide, ?_⟩, ⟨by decide, ?_⟩, ⟨by decide, ?_⟩, ⟨by decide, ?_⟩, ?_, ?_⟩
  · have := (h 0x8000 (by norm_num) 0 (by norm_num)).lt.1 (by decide)
    rw [a, b] at this
    simp [FV.lt] at this
  · rw [a, b]; simp [FV.lt]
  · rw [a, b]; simp [FV.eq]
  · rw [n]; simp [FV.eq]
  · rw [n, b]; simp [FV.lt]
  · have := toRat_norm 0 16 0 (by norm_num) (by norm_num) (by norm_num) (by norm_num)
    norm_num [signed] at this
    exact this
  · have := toRat_norm 0 14 768 (by norm_num) (by norm_num) (by norm_num) (by norm_num)
    norm_num [signed] at this
    exact this

/-- **C49 (all other pairs).** For halves that are no NaN and not the two different zeros, all six relations agree with the
values. -/
theorem C49_compare_partial (l r : Nat) (hl : l < 2 ^ 16) (hr : r < 2 ^ 16) (nl : halfVal l ≠ .nan) (nr : halfVal r ≠ .nan)
    (hz : l = r ∨ (halfVal l).toRat? ≠ some 0 ∨ (halfVal r).toRat? ≠ some 0) : Compares l r := by
  obtain ⟨s, e, m, hs, he, hm, rfl⟩ := half_fields l hl
  obtain ⟨s', e', m', hs', he', hm', rfl⟩ := half_fields r hr
  clear hl hr
  have a := valLt_iff hs he hm hs' he' hm' nl nr
  have b := valEq_iff hs he hm hs' he' hm' nl nr
  have c := valLt_iff hs' he' hm' hs he hm nr nl
  have d := lt_iff hs he hm hs' he' hm'
  have S : s = 0 ∨ s = 1 := by omega
  have S' : s' = 0 ∨ s' = 1 := by omega
  have hz' : ¬ (s ≠ s' ∧ e * 2 ^ 10 + m = 0 ∧ e' * 2 ^ 10 + m' = 0) := by
    rintro ⟨h1, h2, h3⟩
    have hzero : ∀ t x y, t < 2 → x * 2 ^ 10 + y = 0 → (halfVal (t * 2 ^ 15 + x * 2 ^ 10 + y)).toRat? = some 0 := by
      intro t x y ht hxy
      rw [Nat.add_assoc, hxy, Nat.add_zero, zero_val t ht]
      simp [FV.toRat?]
    rcases hz with h | h | h
    · omega
    · exact h (hzero s e m hs h2)
    · exact h (hzero s' e' m' hs' h3)
  have hkey : key s (e * 2 ^ 10 + m) = key s' (e' * 2 ^ 10 + m') ↔
      s * 2 ^ 15 + e * 2 ^ 10 + m = s' * 2 ^ 15 + e' * 2 ^ 10 + m' := by
    unfold key
    rcases S with rfl | rfl <;> rcases S' with rfl | rfl <;> simp <;> omega
  have hlt : HalfM.lt (s * 2 ^ 15 + e * 2 ^ 10 + m) (s' * 2 ^ 15 + e' * 2 ^ 10 + m') = true ↔
      key s (e * 2 ^ 10 + m) < key s' (e' * 2 ^ 10 + m') := by
    rw [d]
    constructor
    · rintro (h | ⟨rfl, rfl, h2, h3⟩)
      · exact h
      · exact absurd ⟨by norm_num, h2, h3⟩ hz'
    · exact Or.inl
  have hbeq : beq (s * 2 ^ 15 + e * 2 ^ 10 + m) (s' * 2 ^ 15 + e' * 2 ^ 10 + m') = true ↔
      key s (e * 2 ^ 10 + m) = key s' (e' * 2 ^ 10 + m') := by
    rw [hkey]; simp [beq]
  have hle : HalfM.le (s * 2 ^ 15 + e * 2 ^ 10 + m) (s' * 2 ^ 15 + e' * 2 ^ 10 + m') = true ↔
      key s (e * 2 ^ 10 + m) < key s' (e' * 2 ^ 10 + m') ∨ key s (e * 2 ^ 10 + m) = key s' (e' * 2 ^ 10 + m') := by
    unfold HalfM.le
    rw [Bool.or_eq_true, hlt, hbeq]
  constructor
  · rw [hlt, a]
  · rw [hbeq, b]
  · rw [b, hkey]; simp [bne]
  · rw [hle, a, b]
  · unfold HalfM.gt
    rw [Bool.not_eq_true', ← Bool.not_eq_true, hle, c]
    omega
  · unfold HalfM.ge
    rw [Bool.not_eq_true', ← Bool.not_eq_true, hlt, c, b]
    omega

/-- The hypotheses are met by `-1.5` and the infinity. -/
example : Compares 0xbe00 0x7c00 := by
  have h1 := halfVal_eq 1 15 512 (by norm_num) (by norm_num) (by norm_num)
  have h2 := halfVal_eq 0 31 0 (by norm_num) (by norm_num) (by norm_num)
  norm_num at h1 h2
  exact C49_compare_partial _ _ (by norm_num) (by norm_num) (by rw [h1]; simp) (by rw [h2]; simp)
    (Or.inr (Or.inr (by rw [h2]; simp [FV.toRat?])))

/-- Negation of a datum. -/
def FV.neg : FV → FV
  | .nan => .nan
  | .inf s => .inf (!s)
  | .fin s q => .fin (!s) q

/-- **C49 (unary minus).** It flips the sign of every half and nothing else. -/
theorem C49_neg (h : Nat) (hh : h < 2 ^ 16) : neg h < 2 ^ 16 ∧ halfVal (neg h) = FV.neg (halfVal h) ∧ neg h % 2 ^ 15 = h % 2 ^ 15 := by
  obtain ⟨s, e, m, hs, he, hm, rfl⟩ := half_fields h hh
  clear hh
  have h1 : neg (s * 2 ^ 15 + e * 2 ^ 10 + m) = (1 - s) * 2 ^ 15 + e * 2 ^ 10 + m := by
    unfold neg
    have hk : e * 2 ^ 10 + m < 2 ^ 15 := by omega
    rw [Nat.add_assoc, Nat.add_assoc]
    obtain ⟨k, hk'⟩ : ∃ k, k = e * 2 ^ 10 + m := ⟨_, rfl⟩
    rw [← hk'] at hk ⊢
    clear hk'
    have e1 : (s * 2 ^ 15 + k) &&& 0x7fff = k := by
      have := Nat.and_two_pow_sub_one_eq_mod (s * 2 ^ 15 + k) 15
      norm_num at this ⊢
      omega
    rw [e1]
    have S : s = 0 ∨ s = 1 := by omega
    apply Nat.eq_of_testBit_eq
    intro i
    rw [Nat.testBit_or, Nat.testBit_xor, show 0x8000 = 2 ^ 15 by norm_num, Nat.testBit_two_pow]
    rcases S with rfl | rfl
    · rw [show (1 - 0) * 2 ^ 15 + k = 2 ^ 15 + k by omega, Nat.zero_mul, Nat.zero_add]
      by_cases hi : i = 15
      · subst hi
        rw [Nat.testBit_two_pow_add_eq, Nat.testBit_lt_two_pow hk]
        simp
      · rcases Nat.lt_or_ge i 15 with h | h
        · rw [Nat.testBit_two_pow_add_gt h]; simp [Ne.symm hi]
        · have hlt : 2 ^ 15 + k < 2 ^ i := by
            have : 2 ^ 16 ≤ 2 ^ i := Nat.pow_le_pow_right (by norm_num) (by omega)
            omega
          rw [Nat.testBit_lt_two_pow hlt, Nat.testBit_lt_two_pow (by omega)]
          simp [Ne.symm hi]
    · rw [show (1 - 1) * 2 ^ 15 + k = k by omega, Nat.one_mul]
      by_cases hi : i = 15
      · subst hi
        rw [Nat.testBit_two_pow_add_eq, Nat.testBit_lt_two_pow hk]
        simp
      · rcases Nat.lt_or_ge i 15 with h | h
        · rw [Nat.testBit_two_pow_add_gt h]; simp [Ne.symm hi]
        · have hlt : 2 ^ 15 + k < 2 ^ i := by
            have : 2 ^ 16 ≤ 2 ^ i := Nat.pow_le_pow_right (by norm_num) (by omega)
            omega
          rw [Nat.testBit_lt_two_pow hlt, Nat.testBit_lt_two_pow (by omega)]
          simp [Ne.symm hi]
  rw [h1]
  refine ⟨by omega, ?_, by omega⟩
  rw [halfVal_eq (1 - s) e m (by omega) he hm, halfVal_eq s e m hs he hm]
  have hd : decide (1 - s = 1) = !decide (s = 1) := by
    have S : s = 0 ∨ s = 1 := by omega
    rcases S with rfl | rfl <;> rfl
  rw [hd]
  split <;> split <;> rfl

/-- **C49 (named values).** The other named values are what their names say; `epsilon` is `2^-10` and `e` and `pi` are nearest. -/
theorem C49_constants_partial :
    halfVal cInfinity = .inf false ∧ halfVal cNegativeInfinity = .inf true ∧ halfVal cNan = .nan ∧
    (halfVal cMax).toRat? = some 65504 ∧ (halfVal cMin).toRat? = some (-65504) ∧
    (halfVal cMaxSubnormal).toRat? = some (1023 / 2 ^ 24) ∧ (halfVal cMinPositive).toRat? = some (1 / 2 ^ 14) ∧
    (halfVal cMinPositiveSubnormal).toRat? = some (1 / 2 ^ 24) ∧ (halfVal cEpsilon).toRat? = some (1 / 2 ^ 10) ∧
    (halfVal cOne).toRat? = some 1 ∧ (halfVal cTwo).toRat? = some 2 ∧ (halfVal cNegativeTwo).toRat? = some (-2) ∧
    (halfVal cHalf).toRat? = some (1 / 2) ∧ halfVal cZero = .fin false 0 ∧ halfVal cNegativeZero = .fin true 0 ∧
    (halfVal cE).toRat? = some 2.71875 ∧ (halfVal cPi).toRat? = some 3.140625 := by
  refine ⟨?_, ?_, ?_, ?_, ?_, ?_, ?_, ?_, ?_, ?_, ?_, ?_, ?_, ?_, ?_, ?_, ?_⟩ <;>
    simp only [cInfinity, cMax, cMaxSubnormal, cMin, cMinPositive, cMinPositiveSubnormal, cNan, cNegativeInfinity, cEpsilon,
      cOne, cTwo, cNegativeTwo, cHalf, cZero, cNegativeZero, cE, cPi] <;>
    norm_num [halfVal, ieee, FV.toRat?]

end Verif.HalfM
