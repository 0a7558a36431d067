import Verif.Lemmas.HalfSumNear

/-! # Sums with infinities and NaNs, sums that overflow, and where the sum is undefined -/

namespace Verif.HalfM

open HalfS

theorem ainf_top {s m : Nat} (hs : s < 2) (hm : m < 2 ^ 10) :
    sub16 0x7bff (expBits (s * 2 ^ 15 + 31 * 2 ^ 10 + m) ||| ((s * 2 ^ 15 + 31 * 2 ^ 10 + m) &&& 0x3ff)) = 2 ^ 16 - 1 - m := by
  rw [expBits_eq hs (by omega) hm, fracBits_eq hs (by omega) hm, or_add 10 hm]
  unfold sub16
  omega

theorem and_top {x y : Nat} (hx : x < 2 ^ 16) (hy : y < 2 ^ 16) : 2 ^ 15 ≤ x &&& y ↔ 2 ^ 15 ≤ x ∧ 2 ^ 15 ≤ y := by
  constructor
  · intro h
    exact ⟨h.trans Nat.and_le_left, h.trans Nat.and_le_right⟩
  · rintro ⟨h1, h2⟩
    have t : (x &&& y).testBit 15 = true := by
      have a : x.testBit 15 = true := by
        rw [Nat.testBit_eq_decide_div_mod_eq]; simp only [decide_eq_true_eq]; omega
      have b : y.testBit 15 = true := by
        rw [Nat.testBit_eq_decide_div_mod_eq]; simp only [decide_eq_true_eq]; omega
      rw [Nat.testBit_and, a, b]; rfl
    exact Nat.ge_two_pow_of_testBit t

theorem top_ge {m : Nat} (hm : m < 2 ^ 10) : 2 ^ 15 ≤ 2 ^ 16 - 1 - m := by omega
theorem top_lt (m : Nat) : 2 ^ 16 - 1 - m < 2 ^ 16 := by omega
theorem sign_top {s : Nat} (hs : s < 2) : s * 2 ^ 15 < 2 ^ 16 ∧ (2 ^ 15 ≤ s * 2 ^ 15 ↔ s = 1) := by omega
theorem inf_lt {s : Nat} (hs : s < 2) : s * 2 ^ 15 + 0x7c00 < 2 ^ 16 := by omega

section top
variable {s m s' e' m' : Nat} (hs : s < 2) (hm : m < 2 ^ 10) (hs' : s' < 2) (he' : e' < 32) (hm' : m' < 2 ^ 10) (W : Wide)
include hs hm hs' he' hm'

/-- The sum when the larger exponent field is 31. -/
theorem addCore_top (A B : Nat) (hAd : 8 * sig 31 m = A) (hBd : jam (8 * sig e' m') (31 - max e' 1) = B) :
    addCore W (s * 2 ^ 15 + 31 * 2 ^ 10 + m) (s' * 2 ^ 15 + e' * 2 ^ 10 + m') =
      .ok (if e' = 31 ∧ s' = 1 then 0xfe00 else if s ≠ s' ∧ A = B then 0 else s * 2 ^ 15 + 0x7c00) := by
  have he32 : 31 < 32 := by omega
  have hA0 := sig_lt (e := 31) hm
  have hB0 := sig_lt (e := e') hm'
  have shl3 : ∀ x, x < 2 ^ 11 → shl16 x 3 = 8 * x := by
    intro x hx; unfold shl16; rw [Nat.shiftLeft_eq]; omega
  unfold addCore
  rw [sigBits_eq hs' he' hm', sigBits_eq hs he32 hm, saBits_eq hs he32 hm hs' he' hm' (by omega), expBits_eq hs he32 hm,
    shl3 _ hA0, shl3 _ hB0, show max 31 1 = 31 from rfl]
  have hk : 31 - max e' 1 < 32 := by omega
  extract_lets b0 sa
  have hsh : shr W b0 sa = .ok (b0 >>> (31 - max e' 1)) := by unfold shr; rw [if_pos hk]
  have hso : shlV16 W 1 sa = .ok ((1 <<< (31 - max e' 1)) % 2 ^ 16) := by unfold shlV16; rw [if_pos hk]
  rw [hsh, Out.ok_bind, hso, Out.ok_bind]
  have hA : 8 * sig 31 m < 2 ^ 14 := by omega
  have hBjam : jamBits b0 (b0 >>> (31 - max e' 1)) ((1 <<< (31 - max e' 1)) % 2 ^ 16) =
      jam (8 * sig e' m') (31 - max e' 1) := jamBits_eq (by omega) hk
  rw [hBjam]
  have hB : jam (8 * sig e' m') (31 - max e' 1) < 2 ^ 14 := jam_lt (by omega)
  rw [hAd] at hA ⊢
  rw [hBd] at hB ⊢
  extract_lets bm dd
  have hdd : dd = if B < A then A - B else B - A := smagBits_eq (by omega) (by omega)
  have hdd14 : dd < 2 ^ 14 := by rw [hdd]; split <;> omega
  have hsa1 : sub16 ((31 * 2 ^ 10) >>> 10) 1 = 30 := by rfl
  have hn15 : nsh dd ≤ 15 := by unfold nsh; split <;> omega
  obtain ⟨d1, hd1, hd1', hd1e⟩ := shlV16_ok (W := W) (a := dd) (k := sub16 ((31 * 2 ^ 10) >>> 10) 1) (by
    rw [hsa1]; right; omega)
  obtain ⟨d2, hd2, hd2', hd2e⟩ := shlV16_ok (W := W) (a := dd) (k := sub16 (uint16Cntlz dd) 1) (by
    right; rw [sub16_cntlz hdd14]; omega)
  rw [hd1, Out.ok_bind, hd2, Out.ok_bind]
  refine congrArg Out.ok ?_
  rw [sub16_cntlz hdd14] at hd2e
  have hd2e := hd2e (by omega)
  unfold resultBits
  have hai := ainf_top hs hm
  rw [expBits_eq hs he32 hm, fracBits_eq hs he32 hm] at hai
  rw [sigBits_eq hs he32 hm, expBits_eq hs he32 hm, expBits_eq hs' he' hm', signBits_eq hs he32 hm,
    signBits_eq hs' he' hm', shl3 _ hA0, hAd, xor_sign hs hs', fracBits_eq hs he32 hm, fracBits_eq hs' he' hm', hai]
  extract_lets am eb sgn dd' df c ec em cs ainf binf z
  have hbinf : binf < 2 ^ 16 ∧ (2 ^ 15 ≤ binf ↔ e' = 31) := by
    simp only [binf]
    rw [or_add 10 hm']
    clear * - hm' he'
    unfold sub16
    constructor
    · omega
    · constructor
      · intro h; by_contra hc; omega
      · rintro rfl; omega
  have hab : ainf &&& binf < 2 ^ 16 := Nat.and_lt_two_pow _ hbinf.1
  have hsx : s' * 2 ^ 15 < 2 ^ 16 := (sign_top hs').1
  have hax : ainf < 2 ^ 16 := top_lt m
  have hinv : 2 ^ 15 ≤ ainf &&& binf &&& s' * 2 ^ 15 ↔ e' = 31 ∧ s' = 1 := by
    rw [and_top hab hsx, and_top hax hbinf.1, hbinf.2]
    have h1 : 2 ^ 15 ≤ ainf := top_ge hm
    rw [(sign_top hs').2]
    exact ⟨fun h => ⟨h.1.2, h.2⟩, fun h => ⟨⟨h1, h.1⟩, h.2⟩⟩
  have heb : eb = 31 := rfl
  have hdd' : dd' = dd := rfl
  have hdf : df = (d2, 31 - nsh dd) := by
    have : df = if 31 = 0 then (dd, 0) else if 31 < nsh dd then (d1, 0) else (d2, 31 - nsh dd) := by
      simp only [df]; rw [heb, hdd']; exact diffBits_eq he32 hdd14 hd1' hd2'
    rw [this, if_neg (by omega), if_neg (by omega)]
  rw [sels16 _ 0xfe00, sels16 ainf]
  by_cases hi : e' = 31 ∧ s' = 1
  · rw [if_pos (hinv.2 hi), if_pos hi, Nat.mod_eq_of_lt (by norm_num)]
  · rw [if_neg (fun h => hi (hinv.1 h)), if_neg hi, if_pos (show 2 ^ 15 ≤ ainf from top_ge hm)]
    have hor : s * 2 ^ 15 ||| 0x7c00 = s * 2 ^ 15 + 0x7c00 := or_add 15 (by norm_num)
    rw [hor]
    have hlt : s * 2 ^ 15 + 0x7c00 < 2 ^ 16 := inf_lt hs
    have hfull : (s * 2 ^ 15 + 0x7c00) % 2 ^ 16 &&& not16 0 = s * 2 ^ 15 + 0x7c00 := by
      unfold not16
      rw [Nat.sub_zero, Nat.and_two_pow_sub_one_eq_mod, Nat.mod_mod, Nat.mod_eq_of_lt hlt]
    have hfull' : ((s * 2 ^ 15 + 0x7c00) % 2 ^ 16 &&& not16 0) % 2 ^ 16 = s * 2 ^ 15 + 0x7c00 := by
      rw [hfull, Nat.mod_eq_of_lt hlt]
    by_cases hss : s = s'
    · have hsgn : sgn = 0 := by simp only [sgn]; rw [if_pos hss]
      have hz : z = 0 := by simp only [z]; rw [hsgn, Nat.zero_and]; rfl
      have hc : ¬ (s ≠ s' ∧ A = B) := fun h => h.1 hss
      rw [if_neg hc, hz, hfull']
    · have hsgn : sgn = 2 ^ 15 := by simp only [sgn]; rw [if_neg hss]
      have hdf1 : df.1 = d2 := by rw [hdf]
      by_cases hAB : A = B
      · have hz0 : dd = 0 := by rw [hdd]; split <;> omega
        have hd20 : d2 = 0 := by rw [hd2e, hz0, Nat.zero_mul]; rfl
        have hz : z = 2 ^ 16 - 1 := by
          simp only [z]; rw [hsgn, hdf1, hd20]; decide
        rw [if_pos ⟨hss, hAB⟩, hz]
        unfold not16
        simp
      · have hne : dd ≠ 0 := by rw [hdd]; split <;> omega
        obtain ⟨n1, n2, n3, n4⟩ := nsh_spec hne hdd14
        have hd2lt : d2 < 2 ^ 15 ∧ d2 ≠ 0 := by rw [hd2e]; clear * - n3 n4; omega
        have hz : z = 0 := by
          simp only [z]; rw [hsgn, hdf1]
          have h1 : sub16 d2 1 < 2 ^ 15 := by unfold sub16; omega
          have h2 : 2 ^ 15 &&& sub16 d2 1 ≤ sub16 d2 1 := Nat.and_le_right
          unfold asr16
          rw [if_neg (by omega)]
        have hc : ¬ (s ≠ s' ∧ A = B) := fun h => hAB h.2
        rw [if_neg hc, hz, hfull']

end top

/-! ## Overflow -/

theorem le_jam_iff (b k u : Nat) : ((2 * u : ℕ) : ℚ) ≤ (b : ℚ) / 2 ^ k ↔ 2 * u ≤ jam b k := by
  rw [jam_ge, le_div_iff₀ (by positivity)]
  exact_mod_cast Iff.rfl

section core
variable {s e m s' e' m' : Nat} (hs : s < 2) (he : e < 31) (hm : m < 2 ^ 10) (hs' : s' < 2) (hle : e' ≤ e) (hm' : m' < 2 ^ 10)
include hs he hm hs' hle hm'

theorem core_overflow (W : Wide) (hq : 65520 ≤ |signed s (mag e m) + signed s' (mag e' m')|) :
    s = s' ∧ ∃ r, addCore W (s * 2 ^ 15 + e * 2 ^ 10 + m) (s' * 2 ^ 15 + e' * 2 ^ 10 + m') = .ok r ∧ r < 2 ^ 16 ∧
      halfVal r = if |signed s (mag e m) + signed s' (mag e' m')| < 65568 then .inf (decide (s = 1)) else .nan := by
  have hma : mag e m = ((8 * sig e m : ℕ) : ℚ) / 8 * (2 : ℚ) ^ (((max e 1 : ℕ) : Int) - 25) := by
    rw [mag_sig]; push_cast; ring
  have hmb := mag_second hs he hm hs' hle hm'
  have hAle : 8 * sig e m ≤ 8 * 2047 := by have := sig_lt (e := e) hm; omega
  have hble : 8 * sig e' m' ≤ 8 * 2047 := by have := sig_lt (e := e') hm'; omega
  have hA8 : 8 * sig e m % 8 = 0 := by omega
  have hAge : e ≠ 0 → 2 ^ 13 ≤ 8 * sig e m := by intro h; have := sig_ge (m := m) h; omega
  have hcore := fun hW => addCore_eq (W := W) hs he hm hs' hle hm' hW _ _ rfl rfl
  rw [hma, hmb] at hq ⊢
  clear hma hmb
  generalize 8 * sig e m = A at *
  generalize 8 * sig e' m' = b at *
  generalize max e 1 - max e' 1 = k at *
  have hy0 : (0 : ℚ) ≤ (b : ℚ) / 2 ^ k := by positivity
  have hAq : (A : ℚ) ≤ 8 * 2047 := by exact_mod_cast hAle
  have hA0 : (0 : ℚ) ≤ A := by positivity
  have hyq : (b : ℚ) / 2 ^ k ≤ 8 * 2047 := by
    have h1 : (1 : ℚ) ≤ 2 ^ k := one_le_pow₀ (by norm_num)
    have h2 : (b : ℚ) ≤ 8 * 2047 := by exact_mod_cast hble
    rw [div_le_iff₀ (by positivity)]
    nlinarith
  have hU : (0 : ℚ) < (2 : ℚ) ^ (((max e 1 : ℕ) : Int) - 25) := by positivity
  have hUle : (2 : ℚ) ^ (((max e 1 : ℕ) : Int) - 25) ≤ 32 := by
    rw [show (32 : ℚ) = 2 ^ (5 : Int) by norm_num]
    apply zpow_le_zpow_right₀ (by norm_num); omega
  have hss : s = s' := by
    by_contra hne
    have : |signed s ((A : ℚ) / 8 * (2 : ℚ) ^ (((max e 1 : ℕ) : Int) - 25)) +
        signed s' ((b : ℚ) / 2 ^ k / 8 * (2 : ℚ) ^ (((max e 1 : ℕ) : Int) - 25))| ≤
        2047 * (2 : ℚ) ^ (((max e 1 : ℕ) : Int) - 25) := by
      have S : s = 0 ∨ s = 1 := by omega
      have S' : s' = 0 ∨ s' = 1 := by omega
      have h1 : (A : ℚ) / 8 * (2 : ℚ) ^ (((max e 1 : ℕ) : Int) - 25) ≤ 2047 * (2 : ℚ) ^ (((max e 1 : ℕ) : Int) - 25) :=
        mul_le_mul_of_nonneg_right (by linarith) hU.le
      have h2 : (b : ℚ) / 2 ^ k / 8 * (2 : ℚ) ^ (((max e 1 : ℕ) : Int) - 25) ≤
          2047 * (2 : ℚ) ^ (((max e 1 : ℕ) : Int) - 25) := mul_le_mul_of_nonneg_right (by linarith) hU.le
      have h3 : 0 ≤ (A : ℚ) / 8 * (2 : ℚ) ^ (((max e 1 : ℕ) : Int) - 25) := by positivity
      have h4 : 0 ≤ (b : ℚ) / 2 ^ k / 8 * (2 : ℚ) ^ (((max e 1 : ℕ) : Int) - 25) := by positivity
      rw [abs_le]
      clear hcore hq
      generalize (2 : ℚ) ^ (((max e 1 : ℕ) : Int) - 25) = U at *
      rcases S with rfl | rfl <;> rcases S' with rfl | rfl <;> simp [signed] at hne ⊢ <;> constructor <;> linarith
    linarith
  refine ⟨hss, ?_⟩
  subst hss
  have hsum : signed s ((A : ℚ) / 8 * (2 : ℚ) ^ (((max e 1 : ℕ) : Int) - 25)) +
      signed s ((b : ℚ) / 2 ^ k / 8 * (2 : ℚ) ^ (((max e 1 : ℕ) : Int) - 25)) =
      signed s (((A : ℚ) + (b : ℚ) / 2 ^ k) / 8 * (2 : ℚ) ^ (((max e 1 : ℕ) : Int) - 25)) := by
    unfold signed; split <;> ring
  rw [hsum, abs_signed s (by positivity)] at hq ⊢
  clear hsum
  have he30 : e = 30 := by
    by_contra hne
    have : (2 : ℚ) ^ (((max e 1 : ℕ) : Int) - 25) ≤ 16 := by
      rw [show (16 : ℚ) = 2 ^ (4 : Int) by norm_num]
      apply zpow_le_zpow_right₀ (by norm_num); omega
    have h1 : ((A : ℚ) + (b : ℚ) / 2 ^ k) / 8 * (2 : ℚ) ^ (((max e 1 : ℕ) : Int) - 25) ≤ 4094 * 16 :=
      mul_le_mul (by linarith) this hU.le (by norm_num)
    linarith
  subst he30
  have h32 : (2 : ℚ) ^ (((max 30 1 : ℕ) : Int) - 25) = 32 := by norm_num
  rw [h32] at hq ⊢
  clear hU hUle h32
  obtain ⟨r, hr, hre⟩ := hcore (Or.inr (by omega))
  have hA := hAge (by omega)
  refine ⟨r, hr, ?_⟩
  rw [if_pos rfl] at hre
  clear hr hcore hAge
  have hjle : jam b k ≤ 2 * (4 * 2047) := by
    rw [jam_le]
    have : 0 < 2 ^ k := Nat.two_pow_pos k
    calc b ≤ 2 * (4 * 2047) * 1 := by omega
      _ ≤ _ := Nat.mul_le_mul_left _ this
  by_cases hC : A + jam b k < 2 ^ 14
  · -- the significand rounds up to the next power of two
    have hlo : (2 ^ 14 - 4 - A) ≤ jam b k := by
      have := (le_jam_iff b k ((2 ^ 14 - 4 - A) / 2)).1 (by
        rw [show 2 * ((2 ^ 14 - 4 - A) / 2) = 2 ^ 14 - 4 - A by omega, Nat.cast_sub (by omega)]
        push_cast
        linarith)
      omega
    rw [finish_small (by omega) (by omega) hC, show (A + jam b k + 4) / 8 = 2 ^ 11 by omega] at hre
    have hlt : ((A : ℚ) + (b : ℚ) / 2 ^ k) / 8 * 32 < 65568 := by
      by_contra hge
      have := (le_jam_iff b k ((2 ^ 14 - A) / 2)).1 (by
        rw [show 2 * ((2 ^ 14 - A) / 2) = 2 ^ 14 - A by omega, Nat.cast_sub (by omega)]
        push_cast
        linarith)
      omega
    rw [if_pos hlt, hre]
    refine ⟨inf_lt hs, ?_⟩
    have := halfVal_eq s 31 0 hs (by norm_num) (by norm_num)
    rw [if_pos rfl, if_pos rfl] at this
    rw [Nat.add_assoc] at this
    rw [show 30 * 2 ^ 10 + (2 ^ 11 - 2 ^ 10) = 31 * 2 ^ 10 + 0 by norm_num]
    exact this
  · rw [finish_big (by omega) (by omega) (by omega)] at hre
    have hV : (A + jam b k + 8) / 16 - 2 ^ 10 < 2 ^ 10 := by omega
    have hv := halfVal_eq s 31 ((A + jam b k + 8) / 16 - 2 ^ 10) hs (by norm_num) hV
    rw [if_pos rfl] at hv
    rw [hre, ← Nat.add_assoc]
    refine ⟨?_, ?_⟩
    · clear * - hs hV
      have : s * 2 ^ 15 ≤ 1 * 2 ^ 15 := Nat.mul_le_mul_right _ (Nat.le_of_lt_succ hs)
      generalize (A + jam b k + 8) / 16 - 2 ^ 10 = t at *
      omega
    · rw [hv]
      by_cases hlt : ((A : ℚ) + (b : ℚ) / 2 ^ k) / 8 * 32 < 65568
      · rw [if_pos hlt, if_pos]
        by_contra hne
        have := (le_jam_iff b k ((2 ^ 14 + 8 - A) / 2)).2 (by omega)
        rw [show 2 * ((2 ^ 14 + 8 - A) / 2) = 2 ^ 14 + 8 - A by omega, Nat.cast_sub (by omega)] at this
        push_cast at this
        linarith
      · rw [if_neg hlt, if_neg]
        have := (le_jam_iff b k ((2 ^ 14 + 8 - A) / 2)).1 (by
          rw [show 2 * ((2 ^ 14 + 8 - A) / 2) = 2 ^ 14 + 8 - A by omega, Nat.cast_sub (by omega)]
          push_cast
          linarith)
        omega

end core

/-- Both exponent fields zero: the last but one shift is by 65535 places. -/
theorem core_undefined {s m s' m' : Nat} (hs : s < 2) (hm : m < 2 ^ 10) (hs' : s' < 2) (hm' : m' < 2 ^ 10) :
    addCore none (s * 2 ^ 15 + 0 * 2 ^ 10 + m) (s' * 2 ^ 15 + 0 * 2 ^ 10 + m') = .ub := by
  unfold addCore
  rw [saBits_eq hs (by norm_num) hm hs' (by norm_num) hm' le_rfl, expBits_eq hs (by norm_num) hm]
  rfl

end Verif.HalfM
