import Verif.Model.MpPrec
import Verif.Lemmas.IeeeRel
import Mathlib.Topology.Instances.AddCircle.DenseSubgroup
import Mathlib.Analysis.SpecialFunctions.Log.Basic
import Mathlib.Analysis.SpecialFunctions.Pow.Real
import Mathlib.NumberTheory.Real.Irrational

/-! Property theorems for the default precision of multi-precision numbers (C143). -/

namespace Verif.MpPrec

open Verif.Ieee Verif.Num

/-- `x` is a decimal number with at most `n` significant digits. -/
def Digits (n : Nat) (x : ℚ) : Prop := ∃ m e : Int, |m| < 10 ^ n ∧ x = m * (10 : ℚ) ^ e

/-- C143: decimal numbers with at most as many digits as were asked for are told apart once they are stored. -/
def C143Claim : Prop :=
  ∀ (d : Nat) (emin : Int) (x z : ℚ), 1 ≤ d → d < 2 ^ 31 → Digits d x → Digits d z → x ≠ z →
    (2 : ℚ) ^ (emin + 4 * d) ≤ |x| → (2 : ℚ) ^ (emin + 4 * d) ≤ |z| → storeAfter d emin x ≠ storeAfter d emin z

theorem bits_lo (d : Nat) : 10 ^ d ≤ 2 ^ digits2bits d := Nat.le_pow_clog (by decide) _

theorem bits_ge {d : Nat} (hd : 1 ≤ d) : 4 ≤ digits2bits d := by
  by_contra h
  have h1 := bits_lo d
  have h2 : 2 ^ digits2bits d ≤ 2 ^ 3 := Nat.pow_le_pow_right (by decide) (by omega)
  have h3 : 10 ^ 1 ≤ 10 ^ d := Nat.pow_le_pow_right (by decide) hd
  omega

theorem bits_hi {d : Nat} (hd : 1 ≤ d) : 2 ^ (digits2bits d - 1) < 10 ^ d :=
  Nat.pow_pred_clog_lt_self (by decide) (Nat.one_lt_pow (by omega) (by decide))

theorem bits_le (d : Nat) : digits2bits d ≤ 4 * d := by
  refine Nat.clog_le_of_le_pow ?_
  calc 10 ^ d ≤ 16 ^ d := Nat.pow_le_pow_left (by decide) d
    _ = 2 ^ (4 * d) := by rw [pow_mul]; rfl

/-- The format of the numbers. -/
def fmt (d : Nat) (emin : Int) (hd : 1 ≤ d) : Fmt := ⟨digits2bits d, emin, by have := bits_ge hd; omega⟩

theorem storeAfter_eq (d : Nat) (emin : Int) (x : ℚ) (hd : 1 ≤ d) (hi : d < 2 ^ 31) : storeAfter d emin x = .ok (rnd (fmt d emin hd) x) := by
  have hw : wrap true 32 (d : Int) = d := by
    unfold wrap
    have : (d : Int) % 2 ^ 32 = d := Int.emod_eq_of_lt (by omega) (by omega)
    simp only [this]
    rw [if_neg (by simp only [true_and]; omega)]
  have := bits_ge hd
  unfold storeAfter prec
  rw [hw, if_neg (by omega)]
  simp only [Out.bind, Int.toNat_natCast, made]
  rw [dif_pos (by omega)]
  rfl

/-- **C143**, whole numbers: those with as many digits as were asked for are stored exactly. -/
theorem C143_integers (d : Nat) (emin : Int) (hd : 1 ≤ d) (hi : d < 2 ^ 31) (he : emin ≤ 0) (n : Int) (hn : |n| ≤ 10 ^ d) :
    storeAfter d emin n = .ok n := by
  rw [storeAfter_eq d emin n hd hi, rnd_of_repr (repr_int he (hn.trans (by exact_mod_cast bits_lo d)))]

/-- **C143**, any number: the relative error is at most that of the digits asked for. -/
theorem C143_relative (d : Nat) (emin : Int) (hd : 1 ≤ d) (hi : d < 2 ^ 31) (x : ℚ) (hx : (2 : ℚ) ^ (emin + 4 * d) ≤ |x|) :
    ∃ s, storeAfter d emin x = .ok s ∧ |s - x| ≤ |x| / 10 ^ d := by
  refine ⟨_, storeAfter_eq d emin x hd hi, ?_⟩
  have hb := bits_le d
  have h := rnd_rel (f := fmt d emin hd) (x := x) (le_trans (zpow_le_zpow.2 (by simp only [fmt]; omega)) hx)
  refine h.trans ?_
  rw [mul_comm, div_eq_mul_inv]
  refine mul_le_mul_of_nonneg_left ?_ (abs_nonneg x)
  simp only [fmt]
  rw [zpow_neg, zpow_natCast]
  refine inv_anti₀ (by positivity) ?_
  exact_mod_cast bits_lo d

/-- Different decimal numbers of `n` digits differ by one part in `10^n`. -/
theorem digits_apart {n : Nat} {x z : ℚ} (hx : Digits n x) (hz : Digits n z) (h : x ≠ z) : |x| / 10 ^ n ≤ |x - z| := by
  obtain ⟨m, e, hm, rfl⟩ := hx
  obtain ⟨m', e', hm', rfl⟩ := hz
  have p10 : ∀ e : Int, (0 : ℚ) < 10 ^ e := fun e => zpow_pos (by norm_num) e
  have hm1 : (|m| : ℚ) < 10 ^ n := by exact_mod_cast hm
  have hm1' : (|m'| : ℚ) + 1 ≤ 10 ^ n := by exact_mod_cast hm'
  -- multiples of a power of ten that differ, differ by that power
  have step : ∀ (a b c : Int) (k : Int), (a : ℚ) * 10 ^ k - b * 10 ^ k ≠ 0 → (10 : ℚ) ^ k ≤ |(a : ℚ) * 10 ^ k - b * 10 ^ k| := by
    intro a b c k hk
    rw [← sub_mul, abs_mul, abs_of_pos (p10 k)]
    have : a - b ≠ 0 := by
      rintro h0
      apply hk
      have : (a : ℚ) - b = 0 := by exact_mod_cast h0
      rw [← sub_mul, this, zero_mul]
    have h1 : (1 : ℚ) ≤ |(a : ℚ) - b| := by exact_mod_cast Int.one_le_abs this
    nlinarith [p10 k]
  have shift : ∀ {a b : Int}, a ≤ b → ∃ c : Int, (10 : ℚ) ^ b = c * 10 ^ a := by
    intro a b hab
    obtain ⟨k, rfl⟩ := Int.le.dest hab
    exact ⟨10 ^ k, by rw [zpow_add₀ (by norm_num)]; push_cast; rw [zpow_natCast]; ring⟩
  have hd : (m : ℚ) * 10 ^ e - m' * 10 ^ e' ≠ 0 := sub_ne_zero.2 h
  rw [div_le_iff₀ (by positivity)]
  rcases le_total e e' with hle | hle
  · obtain ⟨c, hc⟩ := shift hle
    rw [hc, ← mul_assoc] at hd ⊢
    have h1 := step m (m' * c) 0 e (by push_cast; exact hd)
    push_cast at h1
    rw [abs_mul, abs_of_pos (p10 e)]
    calc (|m| : ℚ) * 10 ^ e ≤ 10 ^ n * 10 ^ e := mul_le_mul_of_nonneg_right hm1.le (p10 e).le
      _ ≤ 10 ^ n * |(m : ℚ) * 10 ^ e - m' * c * 10 ^ e| := mul_le_mul_of_nonneg_left h1 (by positivity)
      _ = _ := mul_comm _ _
  · obtain ⟨c, hc⟩ := shift hle
    rw [hc, ← mul_assoc] at hd ⊢
    have h1 := step (m * c) m' 0 e' (by push_cast; exact hd)
    push_cast at h1
    generalize hX : (m : ℚ) * c * 10 ^ e' = X at *
    have hz' : |(m' : ℚ) * 10 ^ e'| ≤ 10 ^ n * 10 ^ e' - 10 ^ e' := by
      rw [abs_mul, abs_of_pos (p10 e')]
      nlinarith [p10 e']
    have p10n : (1 : ℚ) ≤ 10 ^ n := one_le_pow₀ (by norm_num)
    rcases le_total |X| (10 ^ n * 10 ^ e') with hT | hT
    · nlinarith [p10 e']
    · have h2 : |X| - |(m' : ℚ) * 10 ^ e'| ≤ |X - m' * 10 ^ e'| := abs_sub_abs_le_abs_sub _ _
      nlinarith [p10 e']

/-- **C143** (partial: one digit fewer than asked for). Among the decimal numbers with that many digits, the one that was stored is nearest to what is
stored; so it can be read back, and different numbers are told apart. -/
theorem C143_partial (d : Nat) (emin : Int) (hd : 1 ≤ d) (hi : d < 2 ^ 31) (x : ℚ) (hx : Digits (d - 1) x)
    (hr : (2 : ℚ) ^ (emin + 4 * d) ≤ |x|) :
    ∃ s, storeAfter d emin x = .ok s ∧ ∀ z, Digits (d - 1) z → z ≠ x → |s - x| < |s - z| := by
  obtain ⟨s, h1, h2⟩ := C143_relative d emin hd hi x hr
  refine ⟨s, h1, fun z hz hne => ?_⟩
  have h3 := digits_apart hx hz (Ne.symm hne)
  have hp : (10 : ℚ) ^ d = 10 * 10 ^ (d - 1) := by rw [← pow_succ', Nat.sub_add_cancel hd]
  have hx0 : 0 < |x| := lt_of_lt_of_le (zpow_pos (by norm_num) _) hr
  have h4 : |x| / 10 ^ d * 10 = |x| / 10 ^ (d - 1) := by
    rw [hp]
    field_simp
  have h5 : 0 < |x| / 10 ^ d := by positivity
  have h6 : |x - z| ≤ |s - x| + |s - z| := by
    have := abs_sub_le x s z
    rw [abs_sub_comm x s] at this
    exact this
  linarith

/-! ### As many digits as asked for -/

/-- Powers of 2 over powers of 10 are everywhere. -/
theorem powers_dense {a b : ℝ} (ha : 0 < a) (h : a < b) : ∃ k j : Int, a < (2 : ℝ) ^ k / 10 ^ j ∧ (2 : ℝ) ^ k / 10 ^ j < b := by
  have hirr : Irrational (Real.log 2 / Real.log 10) := by
    rintro ⟨q, hq⟩
    have l2 : 0 < Real.log 2 := Real.log_pos (by norm_num)
    have l10 : 0 < Real.log 10 := Real.log_pos (by norm_num)
    have hq0 : 0 < q := by
      have : (0 : ℝ) < q := by rw [hq]; positivity
      exact_mod_cast this
    have hn : (q.num.toNat : ℝ) = q.num := by
      have : ((q.num.toNat : Int) : ℝ) = q.num := by rw [Int.toNat_of_nonneg (Rat.num_nonneg.2 hq0.le)]
      exact_mod_cast this
    have hd : (0 : ℝ) < q.den := by exact_mod_cast q.den_pos
    have e1 : (q.den : ℝ) * Real.log 2 = q.num.toNat * Real.log 10 := by
      rw [hn]
      have : (q : ℝ) = q.num / q.den := by exact_mod_cast (Rat.num_div_den q).symm
      rw [this] at hq
      field_simp at hq
      linarith
    rw [← Real.log_pow, ← Real.log_pow] at e1
    have e2 := Real.log_injOn_pos (Set.mem_Ioi.2 (by positivity)) (Set.mem_Ioi.2 (by positivity)) e1
    have e3 : 2 ^ q.den = 10 ^ q.num.toNat := by exact_mod_cast e2
    have h5 : 5 ∣ 2 ^ q.den := by
      rw [e3]
      refine dvd_trans (by decide : 5 ∣ 10) (dvd_pow_self 10 ?_)
      have := Rat.num_pos.2 hq0
      omega
    have := Nat.Prime.dvd_of_dvd_pow Nat.prime_five h5
    omega
  have hdense := dense_addSubgroupClosure_pair_iff.2 hirr
  obtain ⟨y, hy, hy1, hy2⟩ := hdense.exists_between (Real.log_lt_log ha h)
  obtain ⟨k, j, rfl⟩ := AddSubgroup.mem_closure_pair.1 hy
  refine ⟨k, -j, ?_⟩
  have e : (2 : ℝ) ^ k / 10 ^ (-j) = Real.exp (k • Real.log 2 + j • Real.log 10) := by
    rw [Real.exp_add, zsmul_eq_mul, zsmul_eq_mul, mul_comm (k : ℝ), mul_comm (j : ℝ), ← Real.rpow_def_of_pos (by norm_num), ← Real.rpow_def_of_pos (by norm_num), Real.rpow_intCast, Real.rpow_intCast, zpow_neg,
      div_inv_eq_mul]
  rw [e]
  exact ⟨(Real.log_lt_iff_lt_exp ha).1 hy1, (Real.lt_log_iff_exp_lt (ha.trans h)).1 hy2⟩

/-- Two numbers about a number of the format, nearer than half the distance to its neighbours. -/
theorem rnd_near (f : Fmt) (k : Int) (x : ℚ) (n : Int) (hk : (2 : ℚ) ^ k ≤ x) (hk' : x < 2 ^ (k + 1)) (he : f.emin ≤ k - (f.p - 1))
    (h : |x / 2 ^ (k - (f.p - 1)) - n| < 1 / 2) : rnd f x = n * 2 ^ (k - (f.p - 1)) := by
  have hx : 0 < x := lt_of_lt_of_le (two_zpow_pos k) hk
  have hu : ulpExp f x = k - (f.p - 1) := by
    rw [ulpExp_of_pos hx, log_eq hk hk', max_eq_left he]
  unfold rnd
  rw [hu]
  obtain ⟨h1, h2⟩ := abs_lt.1 h
  congr 2
  rcases le_total (n : ℚ) (x / 2 ^ (k - (f.p - 1))) with hn | hn
  · exact rne_eq_of_lt_half hn (by linarith)
  · exact rne_eq_of_half_lt (by linarith) hn

/-- What is needed of a power of 2 over a power of 10 for the two numbers to meet. -/
theorem meet (d : Nat) (hd : 1 ≤ d) (emin k j : Int) (u : ℚ) (hu : u = 2 ^ k / 10 ^ j) (h0 : (2 : ℚ) ^ (digits2bits d - 1) < u)
    (h1 : (10 : ℚ) ^ d - 1 / 2 - (u / 2 ^ (digits2bits d - 1) - 1) / 2 < u * (1 + 1 / 2 ^ (digits2bits d - 1)))
    (h2 : u * (1 + 1 / 2 ^ (digits2bits d - 1)) < (10 : ℚ) ^ d - 1 / 2 + (u / 2 ^ (digits2bits d - 1) - 1) / 2)
    (he : emin ≤ k - (digits2bits d - 1)) :
    rnd (fmt d emin hd) ((10 ^ d - 1) * (10 : ℚ) ^ j) = rnd (fmt d emin hd) (10 ^ d * (10 : ℚ) ^ j) := by
  have hb := bits_ge hd
  have p10 : (0 : ℚ) < 10 ^ j := zpow_pos (by norm_num) j
  have hk : (2 : ℚ) ^ k = u * 10 ^ j := by rw [hu]; field_simp
  have hlo : (10 : ℚ) ^ d ≤ 2 * 2 ^ (digits2bits d - 1) := by
    rw [← pow_succ', Nat.sub_add_cancel (by omega)]
    exact_mod_cast bits_lo d
  have e1 : (2 : ℚ) ^ (k - ((digits2bits d : Int) - 1)) = u * 10 ^ j / 2 ^ (digits2bits d - 1) := by
    rw [← zpow_div, hk]
    congr 1
    rw [show (digits2bits d : Int) - 1 = ((digits2bits d - 1 : Nat) : Int) from by omega, zpow_natCast]
  have hN : (0 : ℚ) < 2 ^ (digits2bits d - 1) := by positivity
  generalize hNdef : (2 : ℚ) ^ (digits2bits d - 1) = N at *
  have hN1 : (1 : ℚ) ≤ N := by rw [← hNdef]; exact one_le_pow₀ (by norm_num)
  have hu0 : 0 < u := hN.trans h0
  have hv : 1 < u / N := (one_lt_div hN).2 h0
  have hud : u * (1 + 1 / N) = u + u / N := by ring
  rw [hud] at h1 h2
  have key : ∀ x : ℚ, x = 10 ^ d - 1 ∨ x = 10 ^ d → rnd (fmt d emin hd) (x * (10 : ℚ) ^ j) = ((2 ^ (digits2bits d - 1) + 1 : Int) : ℚ) * 2 ^ (k - ((digits2bits d : Int) - 1)) := by
    intro x hx
    have hxl : u ≤ x := by rcases hx with rfl | rfl <;> linarith
    have hxh : x < 2 * u := by rcases hx with rfl | rfl <;> linarith
    refine rnd_near (fmt d emin hd) k _ _ ?_ ?_ he ?_
    · rw [hk]; exact mul_le_mul_of_nonneg_right hxl p10.le
    · rw [zpow_add₀ (by norm_num), hk, zpow_one]; nlinarith
    · have e2 : x * (10 : ℚ) ^ j / 2 ^ (k - (((fmt d emin hd).p : Int) - 1)) = x * N / u := by
        rw [show (fmt d emin hd).p = digits2bits d from rfl, e1]
        field_simp
      rw [e2]
      push_cast
      rw [hNdef]
      have e3 : x * N / u - (N + 1) = (x - u - u / N) / (u / N) := by field_simp; ring
      rw [e3, abs_lt, lt_div_iff₀ (by linarith), div_lt_iff₀ (by linarith)]
      rcases hx with rfl | rfl <;> constructor <;> linarith
  rw [key _ (.inl rfl), key _ (.inr rfl)]

/-- **C143 is false for every number of digits**: after `prec(d)` there is a power of ten such that `d` nines times it and the next power of ten
are stored as the same number. -/
theorem C143_nines (d : Nat) (hd : 1 ≤ d) (hi : d < 2 ^ 31) :
    ∃ j E : Int, ∀ emin ≤ E, storeAfter d emin ((10 ^ d - 1) * (10 : ℚ) ^ j) = storeAfter d emin ((10 : ℚ) ^ (d + j)) := by
  have hb := bits_ge hd
  have hlt := bits_hi hd
  obtain ⟨N, hN⟩ : ∃ N : Nat, N = 2 ^ (digits2bits d - 1) := ⟨_, rfl⟩
  rw [← hN] at hlt
  have he1 : 2 ∣ N := by rw [hN]; exact dvd_pow_self 2 (by omega)
  have he2 : 2 ∣ 10 ^ d := dvd_trans (by decide : 2 ∣ 10) (dvd_pow_self 10 (by omega))
  have hge : N + 2 ≤ 10 ^ d := by omega
  have hgeR : (N : ℝ) + 2 ≤ 10 ^ d := by exact_mod_cast hge
  have hN1 : (8 : ℝ) ≤ N := by
    have : 2 ^ 3 ≤ N := by rw [hN]; exact Nat.pow_le_pow_right (by decide) (by omega)
    exact_mod_cast this
  -- the ratio at which the number of the format is half way between the two
  let u0 : ℝ := (10 ^ d - 1 / 2) / (1 + 1 / N)
  have hinv : 1 / (N : ℝ) * N = 1 := by field_simp
  have hinv0 : 0 < 1 / (N : ℝ) := by positivity
  have hu0 : (N : ℝ) + 1 / 4 < u0 := by
    rw [lt_div_iff₀ (by positivity)]
    nlinarith
  have hmul : u0 * (1 + 1 / N) = 10 ^ d - 1 / 2 := div_mul_cancel₀ _ (by positivity)
  let δ : ℝ := 1 / (32 * N)
  have hδ : 0 < δ := by positivity
  have hδN : δ * N = 1 / 32 := by simp only [δ]; field_simp
  obtain ⟨k, j, ha, hb'⟩ := powers_dense (a := u0 - δ) (b := u0 + δ) (by nlinarith) (by linarith)
  refine ⟨j, k - ((digits2bits d : Int) - 1), fun emin hE => ?_⟩
  rw [storeAfter_eq _ _ _ hd hi, storeAfter_eq _ _ _ hd hi, zpow_add₀ (by norm_num), zpow_natCast]
  congr 1
  have cast : ((2 ^ k / 10 ^ j : ℚ) : ℝ) = (2 : ℝ) ^ k / 10 ^ j := by push_cast; rfl
  have hNq : ((2 : ℚ) ^ (digits2bits d - 1)) = (N : ℚ) := by rw [hN]; push_cast; rfl
  generalize hu : (2 : ℚ) ^ k / 10 ^ j = u at cast
  rw [← cast] at ha hb'
  have hquarter : 1 / 4 - δ < (u : ℝ) - N := by linarith
  have hq : (1 / 8 : ℝ) ≤ 1 / 4 - δ := by nlinarith
  have hdiv : (u : ℝ) / N - 1 = (u - N) * (1 / N) := by field_simp
  have hgap : 1 / 8 * (1 / (N : ℝ)) ≤ (u : ℝ) / N - 1 := by rw [hdiv]; nlinarith
  have hδ' : δ * (1 + 1 / N) < ((u : ℝ) / N - 1) / 2 := by
    have : δ = 1 / 32 * (1 / N) := by simp only [δ]; field_simp
    rw [this]
    nlinarith
  refine meet d hd emin k j u hu.symm ?_ ?_ ?_ hE
  · rw [hNq]
    have : (N : ℝ) < u := by linarith
    exact_mod_cast this
  · rw [hNq]
    have : (10 : ℝ) ^ d - 1 / 2 - ((u : ℝ) / N - 1) / 2 < u * (1 + 1 / N) := by nlinarith
    refine (Rat.cast_lt (K := ℝ)).1 ?_
    push_cast
    exact this
  · rw [hNq]
    have : (u : ℝ) * (1 + 1 / N) < (10 : ℝ) ^ d - 1 / 2 + ((u : ℝ) / N - 1) / 2 := by nlinarith
    refine (Rat.cast_lt (K := ℝ)).1 ?_
    push_cast
    exact this

theorem C143_false : ¬ C143Claim := by
  intro h
  obtain ⟨j, E, hj⟩ := C143_nines 1 le_rfl (by decide)
  have p10 : (0 : ℚ) < 10 ^ j := zpow_pos (by norm_num) j
  obtain ⟨L, hL⟩ : ∃ L : Int, (2 : ℚ) ^ L ≤ 10 ^ j := ⟨_, log_le_self p10⟩
  have hmin : (2 : ℚ) ^ (min E (L - 4) + 4 * (1 : Nat)) ≤ 10 ^ j := le_trans (zpow_le_zpow.2 (by push_cast; omega)) hL
  refine h 1 (min E (L - 4)) _ _ le_rfl (by decide) ⟨9, j, by decide, by norm_num⟩ ⟨1, 1 + j, by decide, by push_cast; ring⟩ ?_ ?_ ?_ (hj _ (min_le_left _ _))
  · push_cast
    rw [zpow_add₀ (by norm_num)]
    intro he
    norm_num at he
    nlinarith
  · refine hmin.trans ?_
    rw [abs_of_pos (by push_cast; nlinarith)]
    push_cast
    nlinarith
  · refine hmin.trans ?_
    push_cast
    rw [abs_of_pos (zpow_pos (by norm_num) _), zpow_add₀ (by norm_num)]
    nlinarith

/-- After `prec(1)` the numbers 9·10^65 and 10^66 are the same, in every format with exponents down to 0. -/
theorem C143_one_digit (emin : Int) (he : emin ≤ 0) : storeAfter 1 emin (9 * 10 ^ 65) = storeAfter 1 emin (10 ^ 66) := by
  have hb : digits2bits 1 = 4 := by decide +kernel
  have h := meet 1 le_rfl emin 219 65 (2 ^ (219 : Int) / 10 ^ (65 : Int)) rfl (by rw [hb]; norm_num) (by rw [hb]; norm_num) (by rw [hb]; norm_num) (by rw [hb]; omega)
  have e1 : storeAfter 1 emin (9 * 10 ^ 65) = _ := storeAfter_eq 1 emin _ le_rfl (by decide)
  have e2 : storeAfter 1 emin (10 ^ 66) = _ := storeAfter_eq 1 emin _ le_rfl (by decide)
  rw [e1, e2]
  norm_num at h ⊢
  exact h

/-- **C143**, how many digits can be asked for: only the number modulo 2^32 counts, so 4294967297 digits are one digit; zero and negative
numbers are refused by stopping the program. -/
theorem C143_asked (d k : Int) (hd : 1 ≤ d) (hi : d < 2 ^ 31) : prec (d + 2 ^ 32 * k) = .ok (digits2bits d.toNat) ∧
    (∀ z : Int, 2 ^ 31 ≤ z → z ≤ 2 ^ 32 → prec (z + 2 ^ 32 * k) = .ub) := by
  have hw : ∀ z : Int, wrap true 32 (z + 2 ^ 32 * k) = wrap true 32 z := by
    intro z
    simp only [wrap, Int.add_mul_emod_self_left]
  constructor
  · have : wrap true 32 d = d := by
      unfold wrap
      have : d % 2 ^ 32 = d := Int.emod_eq_of_lt (by omega) (by omega)
      simp only [this]
      rw [if_neg (by simp only [true_and]; omega)]
    unfold prec
    rw [hw, this, if_neg (by omega)]
  · intro z h1 h2
    unfold prec
    rw [hw, if_pos]
    unfold wrap
    by_cases hz : z = 2 ^ 32
    · subst hz
      decide
    · have : z % 2 ^ 32 = z := Int.emod_eq_of_lt (by omega) (by omega)
      simp only [this]
      rw [if_pos ⟨trivial, by omega⟩]
      omega

/-- **C143**, the bits chosen: `prec(d)` is `prec2(p)` for the least `p` with which all whole numbers up to `10^d` are stored exactly. -/
theorem C143_least (d p : Nat) (emin : Int) (hd : 1 ≤ d) (hi : d < 2 ^ 31) (hp : 2 ≤ p) (he : emin ≤ 0) :
    (∀ x, storeAfter d emin x = storeAfter2 (digits2bits d) emin x) ∧
    ((∀ n : Int, |n| ≤ 10 ^ d → storeAfter2 p emin n = .ok n) ↔ digits2bits d ≤ p) := by
  have hb := bits_ge hd
  have e2 : ∀ (p : Nat) (hp : 2 ≤ p) (x : ℚ), storeAfter2 p emin x = .ok (rnd ⟨p, emin, hp⟩ x) := by
    intro p hp x
    unfold storeAfter2 prec2
    rw [if_neg (by omega)]
    simp only [Out.bind, Int.toNat_natCast, made]
    rw [dif_pos hp]
  refine ⟨fun x => ?_, ⟨fun h => ?_, fun h n hn => ?_⟩⟩
  · rw [storeAfter_eq d emin x hd hi, e2 _ (by omega)]
    rfl
  · by_contra hlt
    have h1 : 2 ^ p ≤ 2 ^ (digits2bits d - 1) := Nat.pow_le_pow_right (by decide) (by omega)
    have h2 := bits_hi hd
    have h3 : (2 : Int) ^ p + 1 ≤ 10 ^ d := by
      have : 2 ^ p + 1 ≤ 10 ^ d := by omega
      exact_mod_cast this
    have hpos : (0 : Int) < 2 ^ p := by positivity
    have h4 := h (2 ^ p + 1) (by rw [abs_of_pos (by omega)]; exact h3)
    rw [e2 p hp] at h4
    obtain ⟨m, e, -, hm, hx⟩ := repr_rnd ⟨p, emin, hp⟩ ((2 ^ p + 1 : Int) : ℚ)
    rw [Out.ok.inj h4] at hx
    simp only at hm
    rcases le_or_gt e 0 with h0 | h0
    · obtain ⟨c, rfl⟩ : ∃ c : Nat, e = -c := ⟨(-e).toNat, by omega⟩
      rw [zpow_neg, zpow_natCast, ← div_eq_mul_inv, eq_div_iff (by positivity)] at hx
      have h5 : ((2 : Int) ^ p + 1) * 2 ^ c = m := by exact_mod_cast hx
      have h6 : (1 : Int) ≤ 2 ^ c := one_le_pow₀ (by norm_num)
      have h7 := le_abs_self m
      nlinarith
    · obtain ⟨c, rfl⟩ : ∃ c : Nat, e = (c + 1 : Nat) := ⟨(e - 1).toNat, by omega⟩
      rw [zpow_natCast] at hx
      have h5 : ((2 : Int) ^ p + 1) = m * 2 ^ (c + 1) := by exact_mod_cast hx
      obtain ⟨q, rfl⟩ : ∃ q, p = q + 1 := ⟨p - 1, by omega⟩
      rw [pow_succ, pow_succ, ← mul_assoc] at h5
      omega
  · rw [e2 p hp, rnd_of_repr (repr_int he (hn.trans ?_))]
    exact (by exact_mod_cast bits_lo d : (10 : Int) ^ d ≤ 2 ^ digits2bits d).trans (pow_le_pow_right₀ (by norm_num) h)

example : Digits 2 0.5 ∧ (2 : ℚ) ^ (-100 + 4 * (3 : Nat) : Int) ≤ |0.5| := by
  refine ⟨⟨5, -1, by decide, by norm_num⟩, by norm_num⟩

end Verif.MpPrec
