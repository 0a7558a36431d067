import Verif.Props.SigFig
import Verif.Props.RoundFl

/-!
# C161: rounding to significant figures in floating point
-/

namespace Verif.ScalarM

open Verif.ScalarS Verif.Ieee

/-- The unit roundoff of `double`. -/
def u64 : ℚ := 2 ^ (-53 : Int)

theorem u64_eq : u64 = 1 / 9007199254740992 := by norm_num [u64]

/-- `a` is `b` up to `N` roundings. -/
def Within (N : Nat) (a b : ℚ) : Prop := 0 < b ∧ b * (1 - u64) ^ N ≤ a ∧ a ≤ b * (1 + u64) ^ N

theorem pow_lo (N : Nat) : 0 < (1 - u64) ^ N := pow_pos (by rw [u64_eq]; norm_num) _

theorem pow_hi (N : Nat) : 0 < (1 + u64) ^ N := pow_pos (by rw [u64_eq]; norm_num) _

theorem pow_lo_le {M N : Nat} (h : M ≤ N) : (1 - u64) ^ N ≤ (1 - u64) ^ M :=
  pow_le_pow_of_le_one (by rw [u64_eq]; norm_num) (by rw [u64_eq]; norm_num) h

theorem pow_hi_le {M N : Nat} (h : M ≤ N) : (1 + u64) ^ M ≤ (1 + u64) ^ N :=
  pow_le_pow_right₀ (by rw [u64_eq]; norm_num) h

/-- Ten thousand roundings change nothing that matters. -/
theorem pow_lo_half {N : Nat} (h : N ≤ 10000) : 99 / 100 ≤ (1 - u64) ^ N := by
  refine le_trans ?_ (pow_lo_le h)
  have := one_add_mul_le_pow (a := -u64) (by rw [u64_eq]; norm_num) 10000
  rw [← sub_eq_add_neg] at this
  refine le_trans ?_ this
  rw [u64_eq]
  norm_num

theorem pow_hi_two {N : Nat} (h : N ≤ 10000) : (1 + u64) ^ N ≤ 100 / 99 := by
  have h1 := pow_lo_half h
  have h2 : (1 - u64) ^ N * (1 + u64) ^ N ≤ 1 := by
    rw [← mul_pow]
    exact pow_le_one₀ (by rw [u64_eq]; norm_num) (by rw [u64_eq]; norm_num)
  have := mul_le_mul_of_nonneg_right h1 (pow_hi N).le
  generalize (1 + u64) ^ N = a at *
  generalize (1 - u64) ^ N = b at *
  linarith

theorem Within.pos {N : Nat} {a b : ℚ} (h : Within N a b) : 0 < a := lt_of_lt_of_le (mul_pos h.1 (pow_lo N)) h.2.1

theorem Within.refl {b : ℚ} (h : 0 < b) : Within 0 b b := ⟨h, by simp, by simp⟩

theorem Within.mono {M N : Nat} {a b : ℚ} (h : Within M a b) (hn : M ≤ N) : Within N a b :=
  ⟨h.1, (mul_le_mul_of_nonneg_left (pow_lo_le hn) h.1.le).trans h.2.1, h.2.2.trans (mul_le_mul_of_nonneg_left (pow_hi_le hn) h.1.le)⟩

theorem Within.trans {M N : Nat} {a b c : ℚ} (h : Within M a b) (h' : Within N b c) : Within (M + N) a c := by
  refine ⟨h'.1, ?_, ?_⟩
  · calc c * (1 - u64) ^ (M + N) = c * (1 - u64) ^ N * (1 - u64) ^ M := by rw [pow_add]; ring
      _ ≤ b * (1 - u64) ^ M := mul_le_mul_of_nonneg_right h'.2.1 (pow_lo M).le
      _ ≤ a := h.2.1
  · calc a ≤ b * (1 + u64) ^ M := h.2.2
      _ ≤ c * (1 + u64) ^ N * (1 + u64) ^ M := mul_le_mul_of_nonneg_right h'.2.2 (pow_hi M).le
      _ = c * (1 + u64) ^ (M + N) := by rw [pow_add]; ring

theorem Within.scale {N : Nat} {a b c : ℚ} (h : Within N a b) (hc : 0 < c) : Within N (a * c) (b * c) := by
  refine ⟨mul_pos h.1 hc, ?_, ?_⟩
  · have := mul_le_mul_of_nonneg_right h.2.1 hc.le
    linarith
  · have := mul_le_mul_of_nonneg_right h.2.2 hc.le
    linarith

theorem Within.mul {M N : Nat} {a b c d : ℚ} (h : Within M a b) (h' : Within N c d) : Within (M + N) (a * c) (b * d) := by
  have h1 := h.scale h'.pos
  have h2 := h'.scale h.1
  rw [mul_comm c, mul_comm d] at h2
  exact h1.trans h2

/-- The distance, relative to the number. -/
theorem Within.abs {N : Nat} {a b : ℚ} (h : Within N a b) : |a - b| ≤ ((1 + u64) ^ N - 1) * b := by
  have h1 := one_add_mul_le_pow (a := -u64) (by rw [u64_eq]; norm_num) N
  have h2 := one_add_mul_le_pow (a := u64) (by rw [u64_eq]; norm_num) N
  rw [← sub_eq_add_neg] at h1
  have h3 : 2 - (1 + u64) ^ N ≤ (1 - u64) ^ N := by linarith
  have h4 := mul_le_mul_of_nonneg_left h3 h.1.le
  rw [abs_le]
  constructor
  · linarith [h.2.1]
  · linarith [h.2.2]

/-- A positive number that is not tiny is rounded once. -/
theorem within_rnd {x : ℚ} (h : 1 / 10 ^ 302 ≤ x) : Within 1 (rnd binary64 x) x := by
  have hx : 0 < x := lt_of_lt_of_le (by positivity) h
  have h1 := rnd_rel (f := binary64) (x := x) (by
    rw [abs_of_pos hx]
    refine le_trans ?_ h
    rw [show (binary64.emin + binary64.p - 1 : Int) = -1022 by decide]
    exact (by decide +kernel : (2 : ℚ) ^ (-1022 : Int) ≤ 1 / 10 ^ 302))
  rw [abs_of_pos hx, abs_le] at h1
  change -(u64 * x) ≤ _ ∧ _ ≤ u64 * x at h1
  refine ⟨hx, ?_, ?_⟩
  · rw [pow_one]; linarith
  · rw [pow_one]; linarith

/-! ## The powers of ten -/

theorem tenth_within : Within 1 (rnd binary64 (1 / 10)) (1 / 10) :=
  within_rnd (one_div_le_one_div_of_le (by norm_num) (le_self_pow₀ (by norm_num) (by norm_num)))

theorem Within.big {N : Nat} {a b : ℚ} (h : Within N a b) (hN : N ≤ 10000) (hb : 1 / 10 ^ 301 ≤ b) : 1 / 10 ^ 302 ≤ a := by
  have h1 := mul_le_mul_of_nonneg_left (pow_lo_half hN) h.1.le
  have h2 : (1 : ℚ) / 10 ^ 302 = 1 / 10 ^ 301 * (1 / 10) := by rw [pow_succ (10 : ℚ) 301, one_div_mul_one_div]
  have h3 : (0 : ℚ) < 1 / 10 ^ 301 := by positivity
  rw [h2]
  have h4 := h.2.1
  generalize (1 : ℚ) / 10 ^ 301 = w at *
  generalize b * (1 - u64) ^ N = y at *
  linarith

theorem mulLoop_within {c b : ℚ} {s : Nat} (hs : s ≤ 1) (hc : Within s c b) (n : Nat) : ∀ (r v : ℚ) (j : Nat),
    Within (2 * j) r v → j + n ≤ 400 → (∀ i, i ≤ n → 1 / 10 ^ 301 ≤ v * b ^ i) →
    Within (2 * (j + n)) (mulLoop (rnd binary64) c n r) (v * b ^ n) := by
  induction n with
  | zero => intro r v j h _ _; simpa [mulLoop] using h
  | succ n ih =>
    intro r v j h hj hb
    have h1 := (h.mul hc).mono (N := 2 * j + 1) (by omega)
    have h2 := (within_rnd (h1.big (by omega) (by simpa using hb 1 (by omega)))).trans h1
    have h3 := ih (rnd binary64 (r * c)) (v * b) (j + 1) (by convert h2 using 1; ring) (by omega) (fun i hi => by
      have := hb (i + 1) (by omega)
      rwa [pow_succ b i, mul_comm (b ^ i), ← mul_assoc] at this)
    rw [mulLoop]
    convert h3 using 1
    · ring
    · rw [pow_succ]; ring

/-- `pow10(e)` has at most two roundings for each factor, unless `e` is 7. -/
theorem pow10_within {e : Int} (h1 : -301 ≤ e) (h2 : e ≤ 400) (h7 : e ≠ 7) :
    Within (2 * e.natAbs) (pow10 (rnd binary64) e) (10 ^ e) := by
  have big : ∀ i : Nat, (i : Int) ≤ 301 → (1 : ℚ) / 10 ^ 301 ≤ (1 / 10) ^ i := by
    intro i hi
    rw [one_div_pow]
    exact one_div_le_one_div_of_le (by positivity) (pow_le_pow_right₀ (by norm_num) (by omega))
  by_cases ht : -7 ≤ e ∧ e ≤ 7
  · by_cases h0 : e = 0
    · subst h0
      have : pow10 (rnd binary64) 0 = 1 := by decide +kernel
      rw [this]
      simpa using Within.refl (b := 1) one_pos
    · have e1 : pow10 (rnd binary64) e = rnd binary64 (10 ^ e) := by
        obtain ⟨a, b⟩ := ht
        interval_cases e <;> first | exact absurd rfl h7 | decide +kernel
      rw [e1]
      refine (within_rnd ?_).mono (by omega)
      refine le_trans (b := (1 : ℚ) / 10 ^ 7) (one_div_le_one_div_of_le (by positivity) (pow_le_pow_right₀ (by norm_num) (by omega))) ?_
      rw [one_div, ← zpow_natCast, ← zpow_neg]
      exact zpow_le_zpow_right₀ (by norm_num) (by push_cast; omega)
  · unfold pow10
    rw [dif_neg ht]
    by_cases hp : e > 0
    · rw [if_pos hp]
      obtain ⟨k, rfl⟩ := Int.eq_ofNat_of_zero_le hp.le
      have := mulLoop_within (c := 10) (b := 10) (s := 0) (by omega) (Within.refl (by norm_num)) k 1 1 0 (Within.refl one_pos) (by omega)
        (fun i _ => by
          rw [one_mul]
          exact le_trans (b := 1) (by rw [div_le_one (by positivity)]; exact one_le_pow₀ (by norm_num)) (one_le_pow₀ (by norm_num)))
      simpa using this
    · rw [if_neg hp]
      obtain ⟨k, hk⟩ := Int.eq_ofNat_of_zero_le (a := -e) (by omega)
      have := mulLoop_within (s := 1) le_rfl tenth_within k 1 1 0 (Within.refl one_pos) (by omega)
        (fun i hi => by rw [one_mul]; exact big i (by omega))
      have e2 : e = -(k : Int) := by omega
      subst e2
      simpa [zpow_neg, one_div_pow, inv_pow] using this

/-! ## The loops -/

theorem down_within (fuel : Nat) : ∀ (t : ℚ) (n : Int) (t' : ℚ) (n' : Int), 0 < t → Repr binary64 t →
    downLoop (rnd binary64) fuel t n = some (t', n') →
    n ≤ n' ∧ Within (n' - n).toNat (t' * 10 ^ (n' - n)) t ∧ (n' = n ∨ 1 ≤ t') ∧ Repr binary64 t' := by
  induction fuel with
  | zero => intro t n t' n' _ _ h; simp [downLoop] at h
  | succ fuel ih =>
    intro t n t' n' ht hr h
    rw [downLoop] at h
    split at h
    · rename_i h10
      have h10 : 10 < t := h10
      have h1 : 1 ≤ rnd binary64 (t / 10) := le_rnd_of_repr (by simpa using repr_two_zpow (f := binary64) (e := 0) (by decide)) (by linarith)
      obtain ⟨a, b, c, r⟩ := ih _ _ _ _ (by linarith) (repr_rnd _ _) h
      have hw := (within_rnd (x := t / 10) (le_trans (b := 1) (by
        rw [div_le_one (by positivity)]; exact one_le_pow₀ (by norm_num)) (by linarith))).scale (c := 10) (by norm_num)
      refine ⟨by omega, ?_, .inr ?_, r⟩
      · have hb := (b.scale (c := 10) (by norm_num)).trans hw
        rw [show (n' - n).toNat = (n' - (n + 1)).toNat + 1 by omega]
        rw [show n' - n = n' - (n + 1) + 1 by ring, zpow_add_one₀ (by norm_num), ← mul_assoc]
        convert hb using 1
        ring
      · rcases c with c | c
        · subst c
          have b0 : (n + 1 - (n + 1)).toNat = 0 := by omega
          rw [b0, sub_self, zpow_zero, mul_one] at b
          have := b.2.1
          rw [pow_zero, mul_one] at this
          linarith
        · exact c
    · cases h
      refine ⟨le_rfl, ?_, .inl rfl, hr⟩
      simpa using Within.refl ht

theorem up_within (fuel : Nat) : ∀ (t : ℚ) (n : Int) (t' : ℚ) (n' : Int), 0 < t → Repr binary64 t →
    upLoop (rnd binary64) fuel t n = some (t', n') →
    n' ≤ n ∧ Within (n - n').toNat t' (t * 10 ^ (n - n')) ∧ (1 ≤ t → n' = n ∧ t' = t) := by
  induction fuel with
  | zero => intro t n t' n' _ _ h; simp [upLoop] at h
  | succ fuel ih =>
    intro t n t' n' ht hr h
    rw [upLoop] at h
    split at h
    · rename_i h1
      have hm : Ieee.Mult binary64.emin (t * 10) := by
        obtain ⟨z, hz⟩ := mult_emin hr
        exact ⟨z * 10, by rw [hz]; push_cast; ring⟩
      have he := rnd_mult_err hm
      rw [abs_of_pos (by linarith : 0 < t * 10), abs_le] at he
      change -(u64 * (t * 10)) ≤ _ ∧ _ ≤ u64 * (t * 10) at he
      have hw : Within 1 (rnd binary64 (t * 10)) (t * 10) := ⟨by linarith, by rw [pow_one]; linarith, by rw [pow_one]; linarith⟩
      obtain ⟨a, b, c⟩ := ih _ _ _ _ hw.pos (repr_rnd _ _) h
      refine ⟨by omega, ?_, fun h => absurd h1 (by linarith)⟩
      have hb := b.trans (hw.scale (c := 10 ^ (n - 1 - n')) (zpow_pos (by norm_num) _))
      rw [show (n - n').toNat = (n - 1 - n').toNat + 1 by omega]
      rw [show n - n' = n - 1 - n' + 1 by ring, zpow_add_one₀ (by norm_num)]
      convert hb using 1
      ring
    · cases h
      exact ⟨le_rfl, by simpa using Within.refl ht, fun _ => ⟨rfl, rfl⟩⟩

/-- Both loops: the number from 1 to 10 that is left, times the power of ten, is the argument up to one rounding for each step. -/
theorem loops_within {x : ℚ} (hx : Repr binary64 x) (h0 : x ≠ 0) {figs : Int} (hf : 0 < figs) (asserts : Bool) :
    ∃ F t n, 1 ≤ t ∧ t ≤ 10 ∧ Within n.natAbs (t * 10 ^ n) |x| ∧
      ∀ fuel, F ≤ fuel → roundSigFig (rnd binary64) asserts fuel x figs = some (sigFinish (rnd binary64) x t n figs) := by
  have hra : Repr binary64 |x| := by rcases abs_choice x with e | e <;> rw [e]; exacts [hx, repr_neg hx]
  obtain ⟨F, t, n, -, a, b, h⟩ := machine_loops binary64 (by decide) (by decide) hx h0 hf asserts
  refine ⟨F, t, n, a, b, ?_, fun fuel hfu => (h fuel hfu).1⟩
  obtain ⟨-, t', n', hd, hu⟩ := h F le_rfl
  obtain ⟨d1, d2, d3, d4⟩ := down_within F _ _ _ _ (abs_pos.2 h0) hra hd
  have ht' : 0 < t' := by
    have := d2.pos
    exact pos_of_mul_pos_left this (zpow_pos (by norm_num) _).le
  obtain ⟨u1, u2, u3⟩ := up_within F _ _ _ _ ht' d4 hu
  rw [sub_zero] at d2
  rcases d3 with d3 | d3
  · subst d3
    rw [zpow_zero, mul_one, Int.toNat_zero] at d2
    have := (u2.trans (d2.scale (c := 10 ^ (0 - n)) (zpow_pos (by norm_num) _))).scale (c := 10 ^ n) (zpow_pos (by norm_num) _)
    rw [mul_assoc, ← zpow_add₀ (by norm_num : (10 : ℚ) ≠ 0), zero_sub, neg_add_cancel, zpow_zero, mul_one] at this
    exact this.mono (by omega)
  · obtain ⟨rfl, rfl⟩ := u3 d3
    exact d2.mono (by omega)

/-! ## The result -/

theorem ten_repr {d : Int} (h1 : 0 ≤ d) (h2 : d ≤ 22) : rnd binary64 (10 ^ d) = 10 ^ d := by
  interval_cases d <;> decide +kernel

theorem alpha_exact' {d : Int} (h1 : 0 ≤ d) (h2 : d ≤ 22) (h7 : d ≠ 7) : pow10 (rnd binary64) d = 10 ^ d := by
  interval_cases d <;> first | exact absurd rfl h7 | decide +kernel

theorem tiny_le {e : Int} (h : -301 ≤ e) : (1 : ℚ) / 10 ^ 301 ≤ 10 ^ e := by
  rw [one_div, ← zpow_natCast, ← zpow_neg]
  exact zpow_le_zpow_right₀ (by norm_num) (by push_cast; omega)

/-- What is done after the loops: `y` is the scaled number, `k` the nearest integer. -/
theorem finish_within (x : ℚ) {t : ℚ} (ht1 : 1 ≤ t) (ht2 : t ≤ 10) {d n : Int} (hd0 : 0 ≤ d) (hd : d ≤ 21) (hd7 : d ≠ 7) (hn : -300 ≤ n)
    (hn' : n ≤ 400) (hn7 : n ≠ 7) :
    ∃ (k : Int) (y z : ℚ), k = ⌊y + 1 / 2⌋ ∧ Within 1 y (t * 10 ^ d) ∧ 10 ^ d ≤ (k : ℚ) ∧ (k : ℚ) ≤ 10 ^ (d + 1) ∧
      sigFinish (rnd binary64) x t n (d + 1) = .ok (copySign z x) ∧
      Within (2 * (d.natAbs + n.natAbs) + 2) z (k * 10 ^ (n - d)) := by
  have hp : (1 : ℚ) ≤ 10 ^ d := one_le_zpow₀ (by norm_num) hd0
  have hp0 : (0 : ℚ) < 10 ^ d := by linarith
  have hy1 : 10 ^ d ≤ rnd binary64 (t * 10 ^ d) := by
    rw [← ten_repr hd0 (by omega)]
    exact rnd_mono (by rw [ten_repr hd0 (by omega)]; nlinarith)
  have hy2 : rnd binary64 (t * 10 ^ d) ≤ 10 ^ (d + 1) := by
    rw [← ten_repr (d := d + 1) (by omega) (by omega)]
    exact rnd_mono (by rw [zpow_add_one₀ (by norm_num)]; nlinarith)
  have hw : Within 1 (rnd binary64 (t * 10 ^ d)) (t * 10 ^ d) := within_rnd (by
    refine le_trans (b := 1) (by rw [div_le_one (by positivity)]; exact one_le_pow₀ (by norm_num)) (by nlinarith))
  generalize hy : rnd binary64 (t * 10 ^ d) = y at *
  have hint : ∀ e : Int, 0 ≤ e → ∃ m : Int, (10 : ℚ) ^ e = m := fun e he => by
    obtain ⟨j, rfl⟩ := Int.eq_ofNat_of_zero_le he
    exact ⟨10 ^ j, by push_cast; rfl⟩
  have hk1 : 10 ^ d ≤ ((⌊y + 1 / 2⌋ : Int) : ℚ) := by
    obtain ⟨m, hm⟩ := hint d hd0
    rw [hm] at hy1 ⊢
    exact_mod_cast Int.le_floor.2 (by linarith : (m : ℚ) ≤ y + 1 / 2)
  have hk2 : ((⌊y + 1 / 2⌋ : Int) : ℚ) ≤ 10 ^ (d + 1) := by
    obtain ⟨m, hm⟩ := hint (d + 1) (by omega)
    rw [hm] at hy2 ⊢
    have : ⌊y + 1 / 2⌋ < m + 1 := Int.floor_lt.2 (by push_cast; linarith)
    exact_mod_cast (by omega : ⌊y + 1 / 2⌋ ≤ m)
  generalize hk : ⌊y + 1 / 2⌋ = k at hk1 hk2
  have hk0 : (0 : ℚ) < k := by linarith
  have hb := pow10_within (e := -d) (by omega) (by omega) (by omega)
  rw [Int.natAbs_neg] at hb
  have hkd : (1 : ℚ) ≤ k * 10 ^ (-d) := by
    rw [zpow_neg, ← div_eq_mul_inv, le_div_iff₀ hp0]
    linarith
  have g1 := hb.scale hk0
  rw [mul_comm _ (k : ℚ), mul_comm _ (k : ℚ)] at g1
  have one_big : (1 : ℚ) / 10 ^ 301 ≤ 1 := by
    rw [div_le_one (by positivity)]; exact one_le_pow₀ (by norm_num)
  have g2 := (within_rnd (g1.big (by omega) (one_big.trans hkd))).trans g1
  have g3 := g2.mul (pow10_within (by omega) hn' hn7)
  have g4 := (within_rnd (g3.big (by omega) (by
    have h3 := tiny_le (e := n) (by omega)
    have h4 : (0 : ℚ) < 10 ^ n := zpow_pos (by norm_num) _
    generalize (1 : ℚ) / 10 ^ 301 = w at *
    nlinarith))).trans g3
  refine ⟨k, y, _, hk.symm, hw, hk1, hk2, ?_, (?_ : Within _ (rnd binary64 (rnd binary64 (k * pow10 (rnd binary64) (-d)) * pow10 (rnd binary64) n)) _)⟩
  · unfold sigFinish
    have hr : round (rnd binary64) t (d + 1 - 1) .math = .ok (rnd binary64 (k * pow10 (rnd binary64) (-d))) := by
      rw [add_sub_cancel_right, round_units (by decide) (by decide), alpha_exact' hd0 (by omega) hd7, hy, abs_of_pos hw.pos]
      have : units .math y = k := by unfold units; rw [if_neg (by decide), hk]
      rw [this, copySign_of_nonneg (by linarith), abs_of_pos g2.pos]
    rw [hr]
    rfl
  · have e : (k : ℚ) * 10 ^ (n - d) = k * 10 ^ (-d) * 10 ^ n := by
      rw [mul_assoc, ← zpow_add₀ (by norm_num), add_comm, sub_eq_add_neg]
    rw [e]
    exact g4.mono (by omega)

/-- The decimal exponent of numbers in the range of `double` that are not tiny. -/
theorem exponent_range {t X : ℚ} {n : Int} (h1 : 1 ≤ t) (h2 : t ≤ 10) (hw : Within n.natAbs (t * 10 ^ n) X) (hX : 1 / 10 ^ 299 ≤ X)
    (hX' : X ≤ 10 ^ 309) : -300 ≤ n ∧ n ≤ 400 := by
  have c1 : 0 < 1 - u64 := by rw [u64_eq]; norm_num
  constructor
  · by_contra hc
    obtain ⟨N, hN⟩ := Int.eq_ofNat_of_zero_le (a := -n) (by omega)
    have e : n = -(N : Int) := by omega
    subst e
    have hN2 : 301 ≤ N := by omega
    have a1 := hw.2.1
    rw [show (-(N : Int)).natAbs = N by omega, zpow_neg, zpow_natCast] at a1
    have hT : (0 : ℚ) < 10 ^ N := by positivity
    have a2 : X * ((1 - u64) ^ N * 10 ^ N) ≤ 10 := by
      have := mul_le_mul_of_nonneg_right a1 hT.le
      rw [mul_assoc t, inv_mul_cancel₀ hT.ne', mul_one] at this
      linarith
    have a3 : (1 - u64) ^ 301 * 10 ^ 301 ≤ (1 - u64) ^ N * 10 ^ N := by
      rw [← mul_pow, ← mul_pow]
      exact pow_le_pow_right₀ (by rw [u64_eq]; norm_num) hN2
    have a4 := pow_lo_half (N := 301) (by norm_num)
    have a5 : (0 : ℚ) < 10 ^ 301 := by positivity
    have a6 : 99 / 100 * 10 ^ 301 ≤ (1 - u64) ^ N * 10 ^ N := le_trans (mul_le_mul_of_nonneg_right a4 a5.le) a3
    have a7 : (10 : ℚ) ^ 301 = 100 * 10 ^ 299 := by rw [show 301 = 299 + 2 from rfl, pow_add]; norm_num [mul_comm]
    have a8 : (0 : ℚ) < 10 ^ 299 := by positivity
    rw [div_le_iff₀ a8] at hX
    rw [a7] at a6
    generalize (1 - u64) ^ N * 10 ^ N = w at *
    generalize (10 : ℚ) ^ 299 = v at *
    have a9 := mul_le_mul_of_nonneg_left a6 hw.1.le
    linarith
  · by_contra hc
    obtain ⟨N, rfl⟩ := Int.eq_ofNat_of_zero_le (a := n) (by omega)
    have hN2 : 310 ≤ N := by omega
    have a1 := hw.2.2
    simp only [Int.natAbs_natCast, zpow_natCast] at a1
    have a2 : (1 - u64) ^ N * (1 + u64) ^ N ≤ 1 := by
      rw [← mul_pow]
      exact pow_le_one₀ (by rw [u64_eq]; norm_num) (by rw [u64_eq]; norm_num)
    have hT : (0 : ℚ) < 10 ^ N := by positivity
    have a3 : (1 - u64) ^ N * 10 ^ N ≤ X := by
      have b1 := mul_le_mul_of_nonneg_left a1 (pow_lo N).le
      have b2 := mul_le_mul_of_nonneg_left a2 hw.1.le
      have b3 := mul_le_mul_of_nonneg_right h1 hT.le
      have b4 := mul_le_mul_of_nonneg_left b3 (pow_lo N).le
      generalize (1 - u64) ^ N = v at *
      generalize (1 + u64) ^ N = w at *
      generalize (10 : ℚ) ^ N = T at *
      linarith
    have a4 : (1 - u64) ^ 310 * 10 ^ 310 ≤ (1 - u64) ^ N * 10 ^ N := by
      rw [← mul_pow, ← mul_pow]
      exact pow_le_pow_right₀ (by rw [u64_eq]; norm_num) hN2
    have a5 := pow_lo_half (N := 310) (by norm_num)
    have a6 : (0 : ℚ) < 10 ^ 310 := by positivity
    have a7 := mul_le_mul_of_nonneg_right a5 a6.le
    have a8 : (10 : ℚ) ^ 310 = 10 * 10 ^ 309 := pow_succ' _ _
    have a9 : (0 : ℚ) < 10 ^ 309 := by positivity
    rw [a8] at a4 a7
    generalize (1 - u64) ^ N * 10 ^ N = w at *
    generalize (1 - u64) ^ 310 = v at *
    generalize (10 : ℚ) ^ 309 = T at *
    linarith only [a3, hX', a9, a7, a4]

/-- The exponent at which the table of powers is wrong. -/
theorem exponent_seven {t X : ℚ} (h1 : 1 ≤ t) (h2 : t ≤ 10) (hw : Within (7 : Int).natAbs (t * 10 ^ (7 : Int)) X) :
    10 ^ 7 - 1 ≤ X ∧ X ≤ 10 ^ 8 + 1 := by
  obtain ⟨h3, h4, h5⟩ := hw
  change X * (1 - u64) ^ 7 ≤ _ at h4
  change _ ≤ X * (1 + u64) ^ 7 at h5
  have e : (10 : ℚ) ^ (7 : Int) = 10000000 := by norm_num
  rw [e, u64_eq] at h4 h5
  norm_num at h4 h5 ⊢
  constructor <;> linarith

/-- The result of `roundSigFig`, for numbers of at least `10^-299` outside the range where `pow10` is wrong. -/
theorem sig_within {x : ℚ} (hx : Repr binary64 x) (hl : 1 / 10 ^ 299 ≤ |x|) (hr : |x| ≤ 10 ^ 309) (h7 : ¬(10 ^ 7 - 1 ≤ |x| ∧ |x| ≤ 10 ^ 8 + 1))
    {d : Int} (h1 : 0 ≤ d) (h2 : d ≤ 21) (h8 : d ≠ 7) (asserts : Bool) :
    ∃ (F : Nat) (n k : Int) (y z : ℚ), (∀ fuel, F ≤ fuel → roundSigFig (rnd binary64) asserts fuel x (d + 1) = some (.ok (copySign z x))) ∧
      -300 ≤ n ∧ n ≤ 400 ∧ k = ⌊y + 1 / 2⌋ ∧ Within (n.natAbs + 1) (y * 10 ^ (n - d)) |x| ∧ 10 ^ d ≤ (k : ℚ) ∧ (k : ℚ) ≤ 10 ^ (d + 1) ∧
      Within (2 * (d.natAbs + n.natAbs) + 2) z (k * 10 ^ (n - d)) ∧ 10 ^ n ≤ |x| * (1 + u64) ^ n.natAbs := by
  have h0 : x ≠ 0 := by
    rintro rfl
    rw [abs_zero] at hl
    exact absurd hl (not_le.2 (by positivity))
  obtain ⟨F, t, n, a, b, hw, hF⟩ := loops_within hx h0 (figs := d + 1) (by omega) asserts
  obtain ⟨c1, c2⟩ := exponent_range a b hw hl hr
  have c7 : n ≠ 7 := by
    rintro rfl
    exact h7 (exponent_seven a b hw)
  obtain ⟨k, y, z, g1, g2, g3, g4, g5, g6⟩ := finish_within x a b h1 h2 h8 c1 c2 c7
  refine ⟨F, n, k, y, z, fun fuel hfu => by rw [hF fuel hfu, g5], c1, c2, g1, ?_, g3, g4, g6, ?_⟩
  · have e : t * 10 ^ d * 10 ^ (n - d) = t * 10 ^ n := by
      rw [mul_assoc, ← zpow_add₀ (by norm_num), add_sub_cancel]
    have := (g2.scale (c := 10 ^ (n - d)) (zpow_pos (by norm_num) _))
    rw [e] at this
    exact (this.trans hw).mono (by omega)
  · refine le_trans ?_ hw.2.2
    have : (0 : ℚ) < 10 ^ n := zpow_pos (by norm_num) _
    nlinarith

/-- C161, partial: the result stands for a number `k · 10^e` with the given number of significant figures that is nearest to the argument,
up to one rounding for each decimal place the argument is moved and one more, and is within two roundings for each decimal place of it.
Missing: numbers below `10^-299` (`C161_tiny`), the range from `10^7` to `10^8` and eight figures, where `pow10` is wrong (C56), more than 22
figures, and overflow. -/
theorem C161_near_partial {x : ℚ} (hx : Repr binary64 x) (hl : 1 / 10 ^ 299 ≤ |x|) (hr : |x| ≤ 10 ^ 309)
    (h7 : ¬(10 ^ 7 - 1 ≤ |x| ∧ |x| ≤ 10 ^ 8 + 1)) {figs : Int} (h1 : 1 ≤ figs) (h2 : figs ≤ 22) (h8 : figs ≠ 8) (asserts : Bool) :
    ∃ (F : Nat) (n k : Int) (z : ℚ), (∀ fuel, F ≤ fuel → roundSigFig (rnd binary64) asserts fuel x figs = some (.ok (copySign z x))) ∧
      10 ^ (figs - 1) ≤ (k : ℚ) ∧ (k : ℚ) ≤ 10 ^ figs ∧ 0 < z ∧
      |(k : ℚ) * 10 ^ (n - figs + 1) - (|x|)| ≤ 10 ^ (n - figs + 1) / 2 + ((1 + u64) ^ (n.natAbs + 1) - 1) * |x| ∧
      |z - k * 10 ^ (n - figs + 1)| ≤ ((1 + u64) ^ (2 * (figs.natAbs + n.natAbs)) - 1) * (k * 10 ^ (n - figs + 1)) := by
  obtain ⟨F, n, k, y, z, g1, -, -, g4, g5, g6, g7, g8, -⟩ :=
    sig_within hx hl hr h7 (d := figs - 1) (by omega) (by omega) (by omega) asserts
  rw [sub_add_cancel] at g1 g7
  have e : n - (figs - 1) = n - figs + 1 := by ring
  rw [e] at g5 g8
  refine ⟨F, n, k, z, g1, g6, g7, g8.pos, ?_, ?_⟩
  · have hw : (0 : ℚ) < 10 ^ (n - figs + 1) := zpow_pos (by norm_num) _
    have b1 := g5.abs
    have b2 : |(k : ℚ) - y| ≤ 1 / 2 := by
      have c1 := Int.floor_le (y + 1 / 2)
      have c2 := Int.lt_floor_add_one (y + 1 / 2)
      rw [← g4] at c1 c2
      rw [abs_le]
      constructor <;> linarith
    have b3 := mul_le_mul_of_nonneg_right b2 hw.le
    nth_rw 1 [← abs_of_pos hw] at b3
    rw [← abs_mul, sub_mul] at b3
    have := abs_sub_le ((k : ℚ) * 10 ^ (n - figs + 1)) (y * 10 ^ (n - figs + 1)) |x|
    linarith
  · refine g8.abs.trans (mul_le_mul_of_nonneg_right (sub_le_sub_right (pow_hi_le (by omega)) _) g8.1.le)

theorem nearest_int {y T : ℚ} {M k : Int} (small : (1 + u64) ^ 402 ≤ 1 + 1 / 10 ^ 13) (hyM : Within 402 y M) (hT12 : T ≤ 10 ^ 12)
    (g7 : (k : ℚ) ≤ T) (g4 : k = ⌊y + 1 / 2⌋) : k = M := by
  have b1 := hyM.abs
  have b2 : y < T + 1 := by
    have := Int.lt_floor_add_one (y + 1 / 2)
    rw [← g4] at this
    linarith
  have b3 : (M : ℚ) ≤ 2 * 10 ^ 12 := by
    have := hyM.2.1
    have b4 := mul_le_mul_of_nonneg_left (pow_lo_half (N := 402) (by norm_num)) hyM.1.le
    generalize (M : ℚ) * (1 - u64) ^ 402 = w at *
    norm_num at hT12 ⊢
    linarith
  have b5 : |y - M| ≤ 1 / 4 := by
    refine b1.trans ?_
    have h0 := hyM.1
    clear hyM b1
    generalize (1 + u64) ^ 402 = w at *
    norm_num at small b3
    nlinarith
  rw [abs_le] at b5
  rw [g4, Int.floor_eq_iff]
  constructor <;> linarith

/-- C161, partial: a number with the given figures keeps them. The double nearest to `m · 10^E` comes out as the product of these digits and
a power of ten, within two roundings for each decimal place.
Missing: that the result is the same double, which is false (`C161_decimal`), and what `C161_near_partial` excludes. -/
theorem C161_decimal_partial {m E : Int} {figs : Int} (h1 : 1 ≤ figs) (h2 : figs ≤ 12) (h8 : figs ≠ 8) (hm : 0 < m) (hm' : (m : ℚ) < 10 ^ figs)
    (hl : 1 / 10 ^ 298 ≤ (m : ℚ) * 10 ^ E) (hr : (m : ℚ) * 10 ^ E ≤ 10 ^ 308)
    (h7 : ¬(10 ^ 7 - 2 ≤ (m : ℚ) * 10 ^ E ∧ (m : ℚ) * 10 ^ E ≤ 10 ^ 8 + 2)) (asserts : Bool) :
    ∃ (F : Nat) (z : ℚ), (∀ fuel, F ≤ fuel → roundSigFig (rnd binary64) asserts fuel (rnd binary64 (m * 10 ^ E)) figs = some (.ok z)) ∧
      |z - m * 10 ^ E| ≤ ((1 + u64) ^ 824 - 1) * (m * 10 ^ E) := by
  have hv : 0 < (m : ℚ) * 10 ^ E := mul_pos (by exact_mod_cast hm) (zpow_pos (by norm_num) _)
  have big : (1 : ℚ) / 10 ^ 302 ≤ 1 / 10 ^ 298 := one_div_le_one_div_of_le (by positivity) (pow_le_pow_right₀ (by norm_num) (by norm_num))
  have hx := within_rnd (big.trans hl)
  have hx0 := hx.pos
  have hx1 := hx.2.1
  have hx2 := hx.2.2
  rw [pow_one, u64_eq] at hx1 hx2
  have hrep := repr_rnd binary64 ((m : ℚ) * 10 ^ E)
  generalize rnd binary64 ((m : ℚ) * 10 ^ E) = x at hx hx0 hx1 hx2 hrep
  obtain ⟨F, n, k, y, z, g1, c1, c2, g4, g5, g6, g7, g8, g9⟩ := sig_within (x := x) hrep (by
      rw [abs_of_pos hx0]
      have e : (1 : ℚ) / 10 ^ 298 = 10 * (1 / 10 ^ 299) := by rw [pow_succ (10 : ℚ) 298]; field_simp
      have e0 : (0 : ℚ) < 1 / 10 ^ 299 := by positivity
      rw [e] at hl
      generalize (1 : ℚ) / 10 ^ 299 = w at hl e0 ⊢
      clear big e
      linarith) (by
      rw [abs_of_pos hx0]
      have e : (10 : ℚ) ^ 309 = 10 * 10 ^ 308 := pow_succ' _ _
      have e0 : (0 : ℚ) < 10 ^ 308 := by positivity
      rw [e]
      generalize (10 : ℚ) ^ 308 = w at hr e0 ⊢
      clear big hl e
      linarith) (by
      rw [abs_of_pos hx0]
      rintro ⟨a, b⟩
      refine h7 ⟨?_, ?_⟩
      · clear big hl hr; norm_num at a ⊢; linarith
      · clear big hl hr; norm_num at b ⊢; linarith)
    (d := figs - 1) (by omega) (by omega) (by omega) asserts
  rw [sub_add_cancel] at g1 g7
  rw [abs_of_pos hx0] at g5 g9
  have small : (1 + u64) ^ 402 ≤ 1 + 1 / 10 ^ 13 := by decide +kernel
  have hT : (0 : ℚ) < 10 ^ figs := zpow_pos (by norm_num) _
  have hT12 : (10 : ℚ) ^ figs ≤ 10 ^ 12 := by
    rw [← zpow_natCast]
    exact zpow_le_zpow_right₀ (by norm_num) (by push_cast; omega)
  have hm1 : (m : ℚ) + 1 ≤ 10 ^ figs := by
    obtain ⟨j, rfl⟩ := Int.eq_ofNat_of_zero_le (a := figs) (by omega)
    rw [zpow_natCast] at hm' ⊢
    have : m < 10 ^ j := by exact_mod_cast hm'
    exact_mod_cast (by omega : m + 1 ≤ 10 ^ j)
  have hm0 : (1 : ℚ) ≤ m := by exact_mod_cast hm
  -- the exponent
  have hn : n ≤ E + (figs - 1) := by
    have b1 : (10 : ℚ) ^ n ≤ m * 10 ^ E * (1 + u64) ^ 402 := by
      refine g9.trans ((mul_le_mul_of_nonneg_right hx.2.2 (pow_hi _).le).trans ?_)
      rw [mul_assoc, ← pow_add]
      exact mul_le_mul_of_nonneg_left (pow_hi_le (by omega)) hv.le
    have b2 : (m : ℚ) * (1 + u64) ^ 402 < 10 ^ figs := by
      clear g5 g8 g9 b1 hx big hl hr
      generalize (1 + u64) ^ 402 = w at *
      norm_num at small hT12
      nlinarith
    have b3 : (10 : ℚ) ^ n < 10 ^ (E + figs) := by
      rw [zpow_add₀ (by norm_num)]
      have hE : (0 : ℚ) < 10 ^ E := zpow_pos (by norm_num) _
      have := mul_lt_mul_of_pos_left b2 hE
      generalize (1 + u64) ^ 402 = w at *
      linarith
    have := (zpow_lt_zpow_iff_right₀ (by norm_num : (1 : ℚ) < 10)).1 b3
    omega
  obtain ⟨q, hq⟩ := Int.eq_ofNat_of_zero_le (a := E + (figs - 1) - n) (by omega)
  have eM : (m : ℚ) * 10 ^ E = ((m * 10 ^ q : Int) : ℚ) * 10 ^ (n - (figs - 1)) := by
    push_cast
    rw [mul_assoc, ← zpow_natCast, ← zpow_add₀ (by norm_num)]
    congr 2
    omega
  generalize m * 10 ^ q = M at eM
  have hw : (0 : ℚ) < 10 ^ (n - (figs - 1)) := zpow_pos (by norm_num) _
  have hyM : Within 402 y M := by
    have := ((g5.trans hx).mono (N := 402) (by omega)).scale (inv_pos.2 hw)
    rwa [eM, mul_assoc, mul_assoc, mul_inv_cancel₀ hw.ne', mul_one, mul_one] at this
  have hkM : k = M := nearest_int small hyM hT12 g7 g4
  subst hkM
  rw [← eM] at g8
  refine ⟨F, z, fun fuel hfu => by rw [g1 fuel hfu, copySign_of_nonneg hx0.le, abs_of_pos g8.pos], ?_⟩
  exact (g8.mono (N := 824) (by omega)).abs

/-- Decimals are changed: `roundSigFig(0.3, 1)` is `3 * 0.1`, the double above `0.3`. -/
theorem C161_decimal : ∃ z, roundSigFig (rnd binary64) true 2 (rnd binary64 (3 / 10)) 1 = some (.ok z) ∧ rnd binary64 (3 / 10) < z := by
  refine ⟨rnd binary64 (3 * rnd binary64 (1 / 10)), ?_, ?_⟩ <;> decide +kernel

theorem mulLoop_add (fl : ℚ → ℚ) (c : ℚ) (a b : Nat) : ∀ r, mulLoop fl c (a + b) r = mulLoop fl c b (mulLoop fl c a r) := by
  induction a with
  | zero => intro r; rw [Nat.zero_add]; rfl
  | succ a ih => intro r; rw [show a + 1 + b = a + b + 1 by omega]; exact ih _

theorem pow10_underflow : pow10 (rnd binary64) (-324) = 0 := by
  have h1 : mulLoop (rnd binary64) (rnd binary64 (1 / 10)) 108 1 = 5288447750322023 / 2 ^ 411 := by decide +kernel
  have h2 : mulLoop (rnd binary64) (rnd binary64 (1 / 10)) 108 (5288447750322023 / 2 ^ 411) = 6210072369202914 / 2 ^ 770 := by
    decide +kernel
  have h3 : mulLoop (rnd binary64) (rnd binary64 (1 / 10)) 108 (6210072369202914 / 2 ^ 770) = 0 := by decide +kernel
  have e : pow10 (rnd binary64) (-324) = mulLoop (rnd binary64) (rnd binary64 (1 / 10)) (108 + 108 + 108) 1 := by
    unfold pow10
    rw [dif_neg (by decide), if_neg (by decide), show (-(-324 : Int)).toNat = 108 + 108 + 108 by decide]
  rw [e, mulLoop_add, mulLoop_add, h1, h2, h3]

/-- The smallest doubles become zero, whatever the number of figures: `pow10(-324)` is zero. -/
theorem C161_tiny {x : ℚ} (hx : x = 2 ^ (-1074 : Int) ∨ x = 2 * 2 ^ (-1074 : Int)) {figs : Int} (hf : 0 < figs) (asserts : Bool) :
    roundSigFig (rnd binary64) asserts 400 x figs = some (.ok 0) := by
  have ha : Out.assert asserts (decide (0 < figs)) = .ok () := by simp [Out.assert, hf]
  have hz : pow10 (rnd binary64) (-324) = 0 := pow10_underflow
  have key : ∀ x : ℚ, x ≠ 0 → (∃ t, downLoop (rnd binary64) 400 (abs' x) 0 = some (abs' x, 0) ∧ upLoop (rnd binary64) 400 (abs' x) 0 = some (t, -324)) →
      roundSigFig (rnd binary64) asserts 400 x figs = some (.ok 0) := by
    rintro x h0 ⟨t, h1, h2⟩
    unfold roundSigFig
    rw [ha]
    simp only [if_neg h0, h1, h2, Option.bind_eq_bind, Option.bind_some]
    unfold sigFinish
    rw [round_units (by decide) (by decide), hz]
    show some (Out.ok _) = _
    rw [mul_zero, rnd_zero]
    simp [copySign, abs'_eq]
  rcases hx with rfl | rfl
  · refine key _ (by decide +kernel) ⟨_, by decide +kernel, (by decide +kernel : _ = some ((upLoop (rnd binary64) 400 (2 ^ (-1074 : Int)) 0).get!.1, _))⟩
  · refine key _ (by decide +kernel) ⟨_, by decide +kernel, (by decide +kernel : _ = some ((upLoop (rnd binary64) 400 (2 * 2 ^ (-1074 : Int)) 0).get!.1, _))⟩

/-- The whole property: a double nearest to a number with the given significant figures is not changed, and the result is not zero unless
the argument is. -/
def C161Claim : Prop :=
  (∀ (m E figs : Int) (fuel : Nat) (z : ℚ), 1 ≤ figs → figs ≤ 15 → 0 < m → m < 10 ^ figs.toNat →
    roundSigFig (rnd binary64) true fuel (rnd binary64 (m * 10 ^ E)) figs = some (.ok z) → z = rnd binary64 (m * 10 ^ E)) ∧
  ∀ (x : ℚ) (figs : Int) (fuel : Nat) (z : ℚ), Repr binary64 x → x ≠ 0 → 1 ≤ figs →
    roundSigFig (rnd binary64) true fuel x figs = some (.ok z) → z ≠ 0

/-- C161 fails: `roundSigFig(0.3, 1)` is not `0.3`. -/
theorem C161_false : ¬C161Claim := by
  rintro ⟨h, -⟩
  obtain ⟨z, h1, h2⟩ := C161_decimal
  have e : ((3 : Int) : ℚ) * 10 ^ (-1 : Int) = 3 / 10 := by norm_num
  have := h 3 (-1) 1 2 z (by norm_num) (by norm_num) (by norm_num) (by norm_num) (by rw [e]; exact h1)
  rw [e] at this
  exact absurd this h2.ne'

/-- The hypotheses are met by ordinary numbers, and rounding takes place. -/
example : Repr binary64 123456 ∧ (1 : ℚ) / 10 ^ 299 ≤ |123456| ∧ ¬((10 : ℚ) ^ 7 - 1 ≤ |123456| ∧ |(123456 : ℚ)| ≤ 10 ^ 8 + 1) ∧
    roundSigFig (rnd binary64) true 9 123456 3 = some (.ok 123000) := by
  refine ⟨⟨123456, 0, by decide, by decide, by norm_num⟩, by decide +kernel, by norm_num, by decide +kernel⟩

/-- Those of `C161_decimal_partial` by `0.123`; here the result is the same double. -/
example : ((123 : Int) : ℚ) < 10 ^ (3 : Int) ∧ (1 : ℚ) / 10 ^ 298 ≤ ((123 : Int) : ℚ) * 10 ^ (-3 : Int) ∧
    ((123 : Int) : ℚ) * 10 ^ (-3 : Int) ≤ 10 ^ 308 ∧
    ¬((10 : ℚ) ^ 7 - 2 ≤ ((123 : Int) : ℚ) * 10 ^ (-3 : Int) ∧ ((123 : Int) : ℚ) * 10 ^ (-3 : Int) ≤ 10 ^ 8 + 2) ∧
    roundSigFig (rnd binary64) true 9 (rnd binary64 (123 / 1000)) 3 = some (.ok (rnd binary64 (123 / 1000))) := by
  refine ⟨by norm_num, by decide +kernel, by decide +kernel, by norm_num, by decide +kernel⟩

end Verif.ScalarM
