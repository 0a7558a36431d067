import Verif.Lemmas.MpConv

/-! Property theorems for the conversions between multi-precision types (C117). -/

namespace Verif.MpConv

open Verif.Ieee

/-- **C117**, full statement. An `mpfr` of the default format converts to an `mpf` with the relative error of `mpf`, to the equal
`mpq`, and to the `mpz` that truncates it; an `mpz`, `mpf` or `mpq` converts to the nearest `mpfr`. -/
def C117Claim : Prop :=
  ∀ (g : Gmp) (f : Fmt),
    (∀ x, Repr f x → |toMpfOfMpfr g f.p x - x| ≤ (2 : ℚ) ^ (1 - (g.bits : Int)) * |x| ∧ toMpqOfMpfr g f.p x = x ∧
      toMpzOfMpfr g f.p x = trunc x) ∧
    (∀ z : Int, ∀ y, Repr f y → |toMpfrOfMpz f z - z| ≤ |y - z|) ∧
    (∀ x, Short g.bits x → ∀ y, Repr f y → |toMpfrOfMpf g f x - x| ≤ |y - x|) ∧
    (∀ q : ℚ, ∀ y, Repr f y → |toMpfrOfMpq g f q - q| ≤ |y - q|)

/-- **C117**, `toMpz` of an `mpf` or `mpq`: the integer part, towards zero. -/
theorem C117_trunc (x : ℚ) : toMpzOfMpf x = toMpzOfMpq x ∧ |(toMpzOfMpf x : ℚ)| ≤ |x| ∧ |x| < |(toMpzOfMpf x : ℚ)| + 1 ∧
    0 ≤ x * toMpzOfMpf x := by
  refine ⟨rfl, ?_⟩
  unfold toMpzOfMpf trunc
  split
  next h =>
    have h1 := Int.floor_le x
    have h2 := Int.lt_floor_add_one x
    have h3 : (0 : ℚ) ≤ ⌊x⌋ := by exact_mod_cast Int.floor_nonneg.2 h
    rw [abs_of_nonneg h, abs_of_nonneg h3]
    exact ⟨h1, h2, mul_nonneg h h3⟩
  next h =>
    push Not at h
    have h1 := Int.le_ceil x
    have h2 := Int.ceil_lt_add_one x
    have h3 : (⌈x⌉ : ℚ) ≤ 0 := by exact_mod_cast Int.ceil_le.2 (by simpa using h.le)
    rw [abs_of_neg h, abs_of_nonpos h3]
    exact ⟨by linarith, by linarith, mul_nonneg_of_nonpos_of_nonpos h.le h3⟩

example : toMpzOfMpf (-7 / 2) = -3 := by decide +kernel

/-- **C117**, `toMpfr(mpz)`: no number of the format is nearer, and integers that fit are kept. -/
theorem C117_mpfr_mpz (f : Fmt) (z : Int) : Repr f (toMpfrOfMpz f z) ∧ (∀ y, Repr f y → |toMpfrOfMpz f z - z| ≤ |y - z|) ∧
    (f.emin ≤ 0 → |z| < 2 ^ f.p → toMpfrOfMpz f z = z) := by
  refine ⟨repr_rnd f _, fun y hy => rnd_nearest hy, fun he hz => rnd_of_repr ⟨z, 0, he, hz, by simp⟩⟩

example : toMpfrOfMpz binary64 (2 ^ 53 + 1) = 2 ^ 53 := by decide +kernel

/-- **C117**, `toMpf(mpz)` and `toMpf(mpq)`: exact when the number fits; otherwise with the relative error of `mpf`. There and back:
an `mpz` that fits comes back from `mpf` and from `mpq`. -/
theorem C117_mpf (g : Gmp) (z : Int) (q : ℚ) :
    (|z| < 2 ^ g.bits → toMpfOfMpz g z = z ∧ toMpzOfMpf (toMpfOfMpz g z) = z) ∧ toMpzOfMpq (toMpqOfMpz z) = z ∧
    (Short g.bits q → toMpfOfMpq g q = q ∧ toMpqOfMpf (toMpfOfMpq g q) = q) ∧
    |toMpfOfMpq g q - q| ≤ (2 : ℚ) ^ (1 - (g.bits : Int)) * |q| := by
  refine ⟨fun h => ?_, trunc_int z, fun h => ?_, g.store_close q⟩
  · have : toMpfOfMpz g z = z := g.store_exact _ (short_int h)
    exact ⟨this, by rw [this]; exact trunc_int z⟩
  · have : toMpfOfMpq g q = q := g.store_exact _ h
    exact ⟨this, by rw [this]; rfl⟩

example : toMpfOfMpq (gmp 64 21 (by decide) (by decide)) (3 / 8) = 3 / 8 :=
  ((C117_mpf _ 0 (3 / 8)).2.2.1 ⟨3, -3, by decide, by norm_num⟩).1

/-- **C117**, from `mpfr`, for numbers with no more decimals than the text has: integers, for example. -/
theorem C117_from_mpfr_partial (g : Gmp) (prec : Nat) (n : Int) (hs : Short g.bits (n / 10 ^ decimals prec (-1))) :
    toMpfOfMpfr g prec (n / 10 ^ decimals prec (-1)) = n / 10 ^ decimals prec (-1) ∧
    toMpqOfMpfr g prec (n / 10 ^ decimals prec (-1)) = n / 10 ^ decimals prec (-1) ∧
    toMpzOfMpfr g prec (n / 10 ^ decimals prec (-1)) = trunc (n / 10 ^ decimals prec (-1)) := by
  have h := g.store_exact _ hs
  have e := strMpfr_exact prec (-1) n
  refine ⟨?_, ?_, ?_⟩
  · rw [toMpfOfMpfr, e, h]
  · rw [toMpqOfMpfr, e, h]
  · rw [toMpzOfMpfr, e, h]

theorem C117_integers_partial (g : Gmp) (prec : Nat) (z : Int) (hz : |z| < 2 ^ g.bits) :
    toMpfOfMpfr g prec z = z ∧ toMpqOfMpfr g prec z = z ∧ toMpzOfMpfr g prec z = z := by
  have h := g.store_exact _ (short_int hz)
  have e := strMpfr_int prec (-1) z
  refine ⟨?_, ?_, ?_⟩
  · rw [toMpfOfMpfr, e, h]
  · rw [toMpqOfMpfr, e, h]
  · rw [toMpzOfMpfr, e, h]; exact trunc_int z

example (g : Gmp) : toMpzOfMpfr g 53 ((-3 : Int) : ℚ) = -3 :=
  (C117_integers_partial g 53 (-3) (by
    have : (2 : Int) ^ 2 ≤ 2 ^ g.bits := pow_le_pow_right₀ (by norm_num) g.hbits
    exact lt_of_lt_of_le (by decide) this)).2.2

/-- **C117**, from `mpfr`, any number: the error is that of `mpf` and half a unit of the last decimal, an absolute error. -/
theorem C117_error_partial (g : Gmp) (prec : Nat) (x : ℚ) :
    |toMpfOfMpfr g prec x - x| ≤ 1 / (2 * 10 ^ decimals prec (-1)) +
      (2 : ℚ) ^ (1 - (g.bits : Int)) * (|x| + 1 / (2 * 10 ^ decimals prec (-1))) ∧
    toMpqOfMpfr g prec x = toMpfOfMpfr g prec x := by
  refine ⟨?_, rfl⟩
  have h1 := strMpfr_close prec x (-1)
  have h2 := g.store_close (strMpfr prec x)
  have h3 : |strMpfr prec x| ≤ |x| + 1 / (2 * 10 ^ decimals prec (-1)) := by
    have := abs_add_le x (strMpfr prec x - x)
    rw [add_sub_cancel] at this
    linarith
  have h4 : (0 : ℚ) < 2 ^ (1 - (g.bits : Int)) := zpow_pos (by norm_num) _
  have h5 := abs_sub_le (toMpfOfMpfr g prec x) (strMpfr prec x) x
  have h6 := mul_le_mul_of_nonneg_left h3 h4.le
  unfold toMpfOfMpfr at h5 ⊢
  linarith

/-- The text has as many decimals as the precision is worth, but for two: up to a million bits the unit of the last decimal is less than a
hundred units of the precision. -/
theorem unit_bits (prec : Nat) (hp : prec ≤ 1000000) : 2 ^ prec < 100 * 10 ^ decimals prec (-1) := by
  have hd : decimals prec (-1) = prec * 30102999566398119521 / 10 ^ 20 := rfl
  generalize decimals prec (-1) = d at hd ⊢
  have h1 : 146 * prec ≤ 485 * (d + 2) := by omega
  have h2 : (2 : Nat) ^ 485 < 10 ^ 146 := by decide +kernel
  rw [show 100 * 10 ^ d = 10 ^ (d + 2) by rw [pow_add]; ring]
  refine lt_of_pow_lt_pow_left₀ 485 (Nat.zero_le _) ?_
  rcases Nat.eq_zero_or_pos prec with h0 | h0
  · subst h0
    rw [pow_zero, one_pow, ← pow_mul]
    exact Nat.one_lt_pow (by omega) (by norm_num)
  · calc (2 ^ prec) ^ 485 = (2 ^ 485) ^ prec := by rw [← pow_mul, ← pow_mul, mul_comm]
      _ < (10 ^ 146) ^ prec := Nat.pow_lt_pow_left h2 (by omega)
      _ = 10 ^ (146 * prec) := by rw [← pow_mul]
      _ ≤ 10 ^ (485 * (d + 2)) := Nat.pow_le_pow_right (by norm_num) h1
      _ = (10 ^ (d + 2)) ^ 485 := by rw [← pow_mul, mul_comm]

/-- **C117**, from `mpfr` of at most a million bits, any number: the error is at most fifty units of the precision, counted from 1, and that
of `mpf`. Missing: a relative error (`C117_small_false`). -/
theorem C117_error_bits_partial (g : Gmp) (prec : Nat) (hp : prec ≤ 1000000) (x : ℚ) :
    |toMpqOfMpfr g prec x - x| ≤ 50 / 2 ^ prec + (2 : ℚ) ^ (1 - (g.bits : Int)) * (|x| + 50 / 2 ^ prec) := by
  obtain ⟨h1, h2⟩ := C117_error_partial g prec x
  have hu : (1 : ℚ) / (2 * 10 ^ decimals prec (-1)) ≤ 50 / 2 ^ prec := by
    have h3 : (2 : ℚ) ^ prec < 100 * 10 ^ decimals prec (-1) := by exact_mod_cast unit_bits prec hp
    rw [div_le_div_iff₀ (by positivity) (by positivity)]
    linarith
  rw [h2]
  have h4 : (0 : ℚ) < (2 : ℚ) ^ (1 - (g.bits : Int)) := zpow_pos (by norm_num) _
  nlinarith

/-- **C117** fails for small numbers: whatever is smaller than half a unit of the last decimal becomes 0. -/
theorem C117_small_false (g : Gmp) (prec : Nat) (x : ℚ) (h : |x| < 1 / (2 * 10 ^ decimals prec (-1))) :
    toMpfOfMpfr g prec x = 0 ∧ toMpqOfMpfr g prec x = 0 := by
  have := strMpfr_small prec x (-1) h
  unfold toMpfOfMpfr toMpqOfMpfr
  rw [this, store_zero]
  exact ⟨rfl, rfl⟩

/-- There are such numbers in every format with exponents down to `-4p`. -/
theorem C117_small_exists_false (g : Gmp) (f : Fmt) (he : f.emin ≤ -(4 * f.p)) :
    ∃ x, Repr f x ∧ x ≠ 0 ∧ toMpfOfMpfr g f.p x = 0 ∧ toMpqOfMpfr g f.p x = 0 := by
  refine ⟨(2 : ℚ) ^ (-(4 * f.p : Int)), ⟨1, _, he, ?_, by simp⟩, (zpow_pos (by norm_num) _).ne', ?_⟩
  · rw [abs_one]; exact one_lt_pow₀ (by norm_num) (by have := f.hp; omega)
  apply C117_small_false
  rw [abs_of_pos (zpow_pos (by norm_num) _), zpow_neg, ← one_div]
  apply one_div_lt_one_div_of_lt (by positivity)
  have hd : decimals f.p (-1) + 1 ≤ f.p := by
    have := f.hp
    simp only [decimals, bits2digits, show ((-1 : Int) < 0) = True by simp, if_true]
    have : f.p * 30102999566398119521 / 10 ^ 20 < f.p := by
      rw [Nat.div_lt_iff_lt_mul (by norm_num)]; omega
    omega
  have h1 : (2 : ℚ) * 10 ^ decimals f.p (-1) < 16 ^ (decimals f.p (-1) + 1) := by
    rw [pow_succ]
    have : (10 : ℚ) ^ decimals f.p (-1) ≤ 16 ^ decimals f.p (-1) := pow_le_pow_left₀ (by norm_num) (by norm_num) _
    have h0 : (0 : ℚ) < 10 ^ decimals f.p (-1) := by positivity
    linarith
  have h2 : (16 : ℚ) ^ (decimals f.p (-1) + 1) ≤ 16 ^ f.p := pow_le_pow_right₀ (by norm_num) hd
  have h3 : (16 : ℚ) ^ f.p = (2 : ℚ) ^ ((4 * f.p : Int)) := by
    rw [show ((4 * f.p : Int)) = ((4 * f.p : Nat) : Int) by push_cast; rfl, zpow_natCast, pow_mul]; norm_num
  linarith

example : decimals 53 (-1) = 15 ∧ (1 : ℚ) / 2 ^ 60 < 1 / (2 * 10 ^ decimals 53 (-1)) := by decide +kernel

/-- **C117** fails for wide integers: an `mpfr` wider than an `mpf` holds integers that no conversion keeps. -/
theorem C117_wide_false (g : Gmp) (f : Fmt) (hf : g.limit + 1 < f.p) (he : f.emin ≤ 0) (hl : 1 ≤ g.limit) :
    Repr f ((2 : ℚ) ^ g.limit + 1) ∧ toMpfOfMpfr g f.p (2 ^ g.limit + 1) ≠ 2 ^ g.limit + 1 ∧
    toMpqOfMpfr g f.p (2 ^ g.limit + 1) ≠ 2 ^ g.limit + 1 ∧ toMpzOfMpfr g f.p (2 ^ g.limit + 1) ≠ 2 ^ g.limit + 1 := by
  have hs := g.store_short (strMpfr f.p (2 ^ g.limit + 1))
  have h1 : (2 : Int) ^ g.limit = 2 * 2 ^ (g.limit - 1) := by
    conv_lhs => rw [show g.limit = g.limit - 1 + 1 by omega, pow_succ]
    ring
  have hne : g.store (strMpfr f.p (2 ^ g.limit + 1)) ≠ 2 ^ g.limit + 1 := by
    intro h
    obtain ⟨n, hn⟩ := short_even hs (by rw [h]; linarith)
    rw [h] at hn
    have : (2 : Int) ^ g.limit + 1 = 2 * n := by exact_mod_cast hn
    omega
  refine ⟨repr_wide f _ hf he, hne, hne, fun h => ?_⟩
  unfold toMpzOfMpfr at h
  generalize hv : g.store (strMpfr f.p (2 ^ g.limit + 1)) = v at *
  have h2 : (2 : ℚ) ^ g.limit ≤ v := by
    have ⟨_, t1, _, t3⟩ := C117_trunc v
    unfold toMpzOfMpf at t1 t3
    rw [h] at t1 t3
    push_cast at t1 t3
    have h3 : (0 : ℚ) < 2 ^ g.limit + 1 := by positivity
    have h4 : 0 ≤ v := nonneg_of_mul_nonneg_left t3 h3
    rw [abs_of_pos h3, abs_of_nonneg h4] at t1
    linarith
  obtain ⟨n, hn⟩ := short_even hs h2
  rw [hn, trunc_int] at h
  omega

example : ∃ (g : Gmp) (f : Fmt), g.limit + 1 < f.p ∧ f.emin ≤ 0 ∧ 1 ≤ g.limit :=
  ⟨gmp 64 21 (by decide) (by decide), ⟨128, -1000, by decide⟩, by decide, by decide, by decide⟩

/-- **C117** fails near integers: the text rounds, so `toMpz` of the number below 1 is 1 and not 0. -/
theorem C117_round_false (g : Gmp) (f : Fmt) (hf : 2 * 10 ^ decimals f.p (-1) < 2 ^ f.p) (he : f.emin ≤ -f.p) :
    Repr f (1 - (2 : ℚ) ^ (-(f.p : Int))) ∧ trunc (1 - (2 : ℚ) ^ (-(f.p : Int))) = 0 ∧
    toMpzOfMpfr g f.p (1 - (2 : ℚ) ^ (-(f.p : Int))) = 1 := by
  have hp := f.hp
  have h2 : (0 : ℚ) < 2 ^ f.p := by positivity
  have hpos : (0 : ℚ) < 2 ^ (-(f.p : Int)) := zpow_pos (by norm_num) _
  have hle : (2 : ℚ) ^ (-(f.p : Int)) < 1 := by
    rw [zpow_neg, zpow_natCast]; exact inv_lt_one_of_one_lt₀ (one_lt_pow₀ (by norm_num) (by omega))
  refine ⟨⟨2 ^ f.p - 1, -f.p, he, ?_, ?_⟩, ?_, ?_⟩
  · have : (1 : Int) ≤ 2 ^ f.p := one_le_pow₀ (by norm_num)
    rw [abs_of_nonneg (by omega)]; omega
  · push_cast
    rw [zpow_neg, zpow_natCast]; field_simp
  · unfold trunc
    rw [if_pos (by linarith), Int.floor_eq_iff]
    constructor <;> push_cast <;> linarith
  · have hd := ten_pos (decimals f.p (-1))
    have hq : (2 : ℚ) * 10 ^ decimals f.p (-1) < 2 ^ f.p := by exact_mod_cast hf
    have hr : rne ((1 - (2 : ℚ) ^ (-(f.p : Int))) * 10 ^ decimals f.p (-1)) = 10 ^ decimals f.p (-1) := by
      apply rne_eq_of_half_lt
      · push_cast
        have : (2 : ℚ) ^ (-(f.p : Int)) * 10 ^ decimals f.p (-1) < 1 / 2 := by
          rw [zpow_neg, zpow_natCast, inv_mul_eq_div, div_lt_iff₀ h2]; linarith
        linarith
      · push_cast; nlinarith
    have hs : strMpfr f.p (1 - (2 : ℚ) ^ (-(f.p : Int))) = (1 : Int) := by
      unfold strMpfr
      rw [hr]; push_cast; exact div_self hd.ne'
    unfold toMpzOfMpfr
    rw [hs, g.store_exact _ (short_int ?_), trunc_int]
    rw [abs_one]; exact one_lt_pow₀ (by norm_num) (by have := g.hbits; omega)

example : 2 * 10 ^ decimals binary64.p (-1) < 2 ^ binary64.p ∧ binary64.emin ≤ -binary64.p := by decide +kernel

/-- **C117**, to `mpfr` from `mpf` and `mpq`, for numbers with few digits: the nearest number of the format. -/
theorem C117_to_mpfr_partial (g : Gmp) (f : Fmt) (x : ℚ) (hd : ShortDec g.digits x) :
    (∀ y, Repr f y → |toMpfrOfMpf g f x - x| ≤ |y - x|) ∧
    (Short g.bits x → ∀ y, Repr f y → |toMpfrOfMpq g f x - x| ≤ |y - x|) := by
  constructor
  · intro y hy
    rw [toMpfrOfMpf, g.text_exact x hd]
    exact rnd_nearest hy
  · intro hs y hy
    rw [toMpfrOfMpq, g.store_exact x hs, g.text_exact x hd]
    exact rnd_nearest hy

example (f : Fmt) (y : ℚ) (hy : Repr f y) : |toMpfrOfMpq (gmp 64 21 (by decide) (by decide)) f (3 / 8) - 3 / 8| ≤ |y - 3 / 8| :=
  (C117_to_mpfr_partial _ f (3 / 8) ⟨375, -3, by decide, by norm_num⟩).2 ⟨3, -3, by decide, by norm_num⟩ y hy

/-- **C117**, to `mpfr` from `mpf` and `mpq`, any number: the text and the intermediate `mpf` add their relative errors. -/
theorem C117_to_mpfr_error_partial (g : Gmp) (f : Fmt) (x y : ℚ) (hy : Repr f y) :
    |toMpfrOfMpf g f x - x| ≤ |y - x| + 2 * (10 : ℚ) ^ (1 - (g.digits : Int)) * |x| ∧
    |toMpfrOfMpq g f x - x| ≤ |y - x| + 2 * ((10 : ℚ) ^ (1 - (g.digits : Int)) * (1 + (2 : ℚ) ^ (1 - (g.bits : Int))) +
      (2 : ℚ) ^ (1 - (g.bits : Int))) * |x| := by
  have key : ∀ u : ℚ, |rnd f u - x| ≤ |y - x| + 2 * |u - x| := by
    intro u
    have h1 : |rnd f u - u| ≤ |y - u| := rnd_nearest hy
    have h2 := abs_sub_le (rnd f u) u x
    have h3 := abs_sub_le y x u
    rw [abs_sub_comm x u] at h3
    linarith
  have ht : (0 : ℚ) < 10 ^ (1 - (g.digits : Int)) := zpow_pos (by norm_num) _
  constructor
  · have h1 := key (g.text x)
    have h2 := g.text_close x
    unfold toMpfrOfMpf
    linarith
  · have h1 := key (g.text (g.store x))
    have h2 := g.text_close (g.store x)
    have h3 := g.store_close x
    have h4 := abs_sub_le (g.text (g.store x)) (g.store x) x
    have h5 : |g.store x| ≤ |x| + |g.store x - x| := by
      have := abs_add_le x (g.store x - x); rwa [add_sub_cancel] at this
    have h6 : (10 : ℚ) ^ (1 - (g.digits : Int)) * |g.store x| ≤
        10 ^ (1 - (g.digits : Int)) * (|x| + (2 : ℚ) ^ (1 - (g.bits : Int)) * |x|) :=
      mul_le_mul_of_nonneg_left (by linarith) ht.le
    unfold toMpfrOfMpq
    linarith

/-- **C117**, the parameter `digits` of `str(mpfr)` counts bits: less than a third of the decimals asked for are printed. -/
theorem C117_digits_false (prec d : Nat) : 3 * decimals prec d ≤ d ∧ (0 < d → decimals prec d < d) ∧
    strMpfr prec (1 / 4) 2 = 0 := by
  have hdec : decimals prec d = d * 30102999566398119521 / 10 ^ 20 := by
    unfold decimals bits2digits; rw [if_neg (by omega), Int.toNat_natCast]
  refine ⟨?_, ?_, ?_⟩
  · rw [hdec]; omega
  · intro h; rw [hdec]; omega
  · have : decimals prec 2 = 0 := by simp [decimals, bits2digits]
    unfold strMpfr
    rw [this]
    decide +kernel

theorem C117_false : ¬ C117Claim := by
  intro h
  have h1 := (C117_round_false (gmp 64 21 (by decide) (by decide)) binary64 (by decide +kernel) (by decide))
  have h2 := ((h (gmp 64 21 (by decide) (by decide)) binary64).1 _ h1.1).2.2
  rw [h1.2.1, h1.2.2] at h2
  cases h2

end Verif.MpConv
