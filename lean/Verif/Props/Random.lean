import Verif.Lemmas.Random
import Mathlib.Tactic.FinCases

/-!
# C43, C44: ranges of random numbers, seeding
-/

namespace Verif.RandomM

open Verif.ScalarM Verif.Ieee

/-- `u` can be a result of the distribution: a `double` of `[0, 1)`. -/
def Draw (u : ℚ) : Prop := Repr binary64 u ∧ 0 ≤ u ∧ u < 1

/-- The largest `double` below one. -/
theorem Draw.le {u : ℚ} (h : Draw u) : u ≤ 1 - 1 / 2 ^ binary64.p := by
  obtain ⟨hr, h0, h1⟩ := h
  change u ≤ 1 - 1 / 2 ^ 53
  rcases lt_or_ge u (1 / 2) with hh | hh
  · norm_num; linarith
  · have hlog : Int.log 2 u = -1 := log_eq (by norm_num; linarith) (by norm_num; exact h1)
    have hE : ulpExp binary64 u = -53 := by
      rw [ulpExp_of_pos (by linarith), hlog]
      rfl
    obtain ⟨n, hn⟩ := repr_grid hr
    rw [hE] at hn
    have h53 : (2 : ℚ) ^ (-53 : Int) = 1 / 2 ^ 53 := by norm_num
    rw [h53] at hn
    have hlt : (n : ℚ) < 2 ^ 53 := by
      have : (n : ℚ) * (1 / 2 ^ 53) < 1 := by rw [← hn]; exact h1
      rw [mul_one_div, div_lt_one (by positivity)] at this
      exact this
    have hle : n ≤ 2 ^ 53 - 1 := by
      have : n < 2 ^ 53 := by exact_mod_cast hlt
      omega
    have hle' : (n : ℚ) ≤ 2 ^ 53 - 1 := by exact_mod_cast hle
    rw [hn]
    have := mul_le_mul_of_nonneg_right hle' (by positivity : (0 : ℚ) ≤ 1 / 2 ^ 53)
    linarith

/-- C43 in full, in the arithmetic of the machine; integers that `double` represents. -/
def C43Claim : Prop :=
  (∀ a b u, Repr binary64 a → Repr binary64 b → a ≤ b → Draw u →
    a ≤ randomVal (rnd binary64) a b u ∧ randomVal (rnd binary64) a b u ≤ b) ∧
  (∀ (lo hi : Int) (u : ℚ), lo ≤ hi → -2 ^ 52 ≤ lo → hi < 2 ^ 52 → Draw u →
    ∃ z, randintVal (rnd binary64) lo hi u = .ok z ∧ lo ≤ z ∧ z ≤ hi)

/-- `random(a, b)` lies in `[a, b]`, for all `double`s `a ≤ b` and every draw, with every rounding of the computation. -/
theorem C43_random (a b u : ℚ) (ha : Repr binary64 a) (hb : Repr binary64 b) (hab : a ≤ b) (hu : Draw u) :
    a ≤ randomVal (rnd binary64) a b u ∧ randomVal (rnd binary64) a b u ≤ b :=
  randomVal_mem ha hb hab hu.2.1 hu.le

/-- The upper end can be reached, although the comment in the code excludes it: `random(1., 3.)` can return 3. -/
theorem C43_random_end : Draw (1 - 1 / 2 ^ 53) ∧ randomVal (rnd binary64) 1 3 (1 - 1 / 2 ^ 53) = 3 :=
  ⟨⟨⟨2 ^ 53 - 1, -53, by decide, by decide, by norm_num⟩, by norm_num, by norm_num⟩, by decide +kernel⟩

theorem repr64_int {n : Int} (h0 : -2 ^ 53 ≤ n) (h1 : n ≤ 2 ^ 53) : Repr binary64 (n : ℚ) :=
  repr_int (by decide) (abs_le.mpr ⟨by simpa [binary64] using h0, by simpa [binary64] using h1⟩)

/-- `random` on integers lies in its interval too, negative ones included. -/
theorem C43_random_int (lo hi : Int) (u : ℚ) (h : lo ≤ hi) (h0 : -2 ^ 52 ≤ lo) (h1 : hi ≤ 2 ^ 52) (hu : Draw u) :
    lo ≤ randomValI (rnd binary64) lo hi u ∧ randomValI (rnd binary64) lo hi u ≤ hi := by
  have ha : Repr binary64 (lo : ℚ) := repr64_int (by omega) (by omega)
  have hb : Repr binary64 (hi : ℚ) := repr64_int (by omega) (by omega)
  have hm := C43_random lo hi u ha hb (by exact_mod_cast h) hu
  have e : randomValI (rnd binary64) lo hi u = trunc (randomVal (rnd binary64) lo hi u) := by
    unfold randomValI randomVal
    rw [rnd_of_repr ha]
    push_cast
    rfl
  rw [e]
  have t1 := trunc_mono hm.1
  have t2 := trunc_mono hm.2
  rw [trunc_int] at t1 t2
  exact ⟨t1, t2⟩

/-- C43 fails: `randint(-3, -1)` is `-4` for the draw 0. -/
theorem C43_false : ¬C43Claim := by
  intro h
  obtain ⟨z, hz, h1, h2⟩ := h.2 (-3) (-1) 0 (by decide) (by decide) (by decide)
    ⟨repr_zero _, le_refl _, by norm_num⟩
  have e : randintVal (rnd binary64) (-3) (-1) 0 = .ok (-4) := by decide +kernel
  rw [e] at hz
  cases hz
  omega

/-- `toI64` of a value of a range. -/
theorem toI64_ok {x : ℚ} {a b : Int} (ha : (a : ℚ) ≤ x) (hb : x ≤ b) (h0 : -2 ^ 63 ≤ a) (h1 : b < 2 ^ 63) :
    toI64 x = .ok (trunc x) := by
  have t1 := trunc_mono ha
  have t2 := trunc_mono hb
  rw [trunc_int] at t1 t2
  rw [toI64, if_pos ⟨by omega, by omega⟩]

/-- For negative `hi`, a whole interval of draws, of length `1 / (hi - lo + 2)`, gives the value `hi + 1`, above the range
(in exact arithmetic). -/
theorem C43_negative_false (lo hi : Int) (u : ℚ) (h : lo ≤ hi) (hn : hi < 0) (hm : -2 ^ 62 ≤ lo)
    (hu : 1 - 1 / ((hi : ℚ) - lo + 2) < u) (hu1 : u < 1) : randintVal id lo hi u = .ok (hi + 1) := by
  have hlo : lo < 0 := by omega
  have hw : (0 : ℚ) < (hi : ℚ) - lo + 2 := by
    have : (lo : ℚ) ≤ hi := by exact_mod_cast h
    linarith
  unfold randintVal
  rw [if_neg (by omega), if_pos hlo]
  unfold randomVal
  simp only [id]
  push_cast
  have hx : (lo : ℚ) - 1 + ((hi : ℚ) + 1 - (lo - 1)) * u = (lo : ℚ) - 1 + ((hi : ℚ) - lo + 2) * u := by ring
  rw [hx]
  have h1 : ((hi : ℚ) - lo + 2) * u < (hi : ℚ) - lo + 2 := by nlinarith
  have h2 : (hi : ℚ) - lo + 1 < ((hi : ℚ) - lo + 2) * u := by
    have := mul_lt_mul_of_pos_left hu hw
    rw [mul_sub, mul_one, mul_one_div, div_self hw.ne'] at this
    linarith
  have hhi : (hi : ℚ) ≤ -1 := by exact_mod_cast (by omega : hi ≤ -1)
  generalize ((hi : ℚ) - lo + 2) * u = t at *
  rw [toI64_ok (a := hi) (b := hi + 1) (by linarith) (by push_cast; linarith) (by omega) (by omega)]
  rw [trunc_of_neg (by linarith)]
  congr 1
  rw [Int.ceil_eq_iff]
  push_cast
  exact ⟨by linarith, by linarith⟩

/-- For every negative `lo`, the draw 0 gives `lo - 1`, below the range. -/
theorem C43_zero_false (lo hi : Int) (hn : lo < 0) (h0 : -2 ^ 52 ≤ lo) :
    randintVal (rnd binary64) lo hi 0 = .ok (lo - 1) := by
  have hr : Repr binary64 ((lo - 1 : Int) : ℚ) := repr64_int (by omega) (by omega)
  unfold randintVal
  rw [if_neg (by omega), if_pos hn]
  unfold randomVal
  rw [mul_zero, rnd_zero, add_zero, rnd_of_repr hr, rnd_of_repr hr,
    toI64_ok (le_refl _) (le_refl _) (by omega) (by omega), trunc_int]

/-- Rounding also takes `randint` above its range for positive limits: `randint(1, 2)` can return 3, and
`randint(2^40, 2^40 + 2)` returns `2^40 + 3` for the draw `1 - 2^-16`. -/
theorem C43_rounding_false :
    randintVal (rnd binary64) 1 2 (1 - 1 / 2 ^ 53) = .ok 3 ∧
    randintVal (rnd binary64) (2 ^ 40) (2 ^ 40 + 2) (1 - 1 / 2 ^ 16) = .ok (2 ^ 40 + 3) := by
  decide +kernel

/-- C43, partial: `randint` in exact arithmetic is in range when `lo` is not negative, and when `lo < 0 ≤ hi` and the draw is
not 0.
Missing: negative `hi` (`C43_negative_false`), the draw 0 (`C43_zero_false`), the effect of rounding (`C43_rounding_false`). -/
theorem C43_randint_exact_partial (lo hi : Int) (u : ℚ) (h : lo ≤ hi) (hh : 0 ≤ hi) (hm : -2 ^ 62 ≤ lo) (hM : hi < 2 ^ 62)
    (h0 : 0 ≤ u) (h1 : u < 1) (hu : 0 ≤ lo ∨ 0 < u) :
    ∃ z, randintVal id lo hi u = .ok z ∧ lo ≤ z ∧ z ≤ hi := by
  have hq : (lo : ℚ) ≤ hi := by exact_mod_cast h
  have hhq : (0 : ℚ) ≤ hi := by exact_mod_cast hh
  unfold randintVal
  rw [if_neg (by omega)]
  unfold randomVal
  simp only [id]
  rcases le_or_gt 0 lo with hl | hl
  · rw [if_neg (by omega), sub_zero]
    have a1 : 0 ≤ ((hi : ℚ) + 1 - lo) * u := mul_nonneg (by linarith) h0
    have a2 : ((hi : ℚ) + 1 - lo) * u < (hi : ℚ) + 1 - lo := by nlinarith
    have hlq : (0 : ℚ) ≤ lo := by exact_mod_cast hl
    generalize ((hi : ℚ) + 1 - lo) * u = t at *
    rw [toI64_ok (a := lo) (b := hi + 1) (by linarith) (by push_cast; linarith) (by omega) (by omega)]
    refine ⟨_, rfl, ?_, ?_⟩
    · have := trunc_mono (x := lo) (y := lo + t) (by linarith)
      rwa [trunc_int] at this
    · have := trunc_lt (x := lo + t) (n := hi + 1) (by linarith) (by push_cast; linarith)
      omega
  · have hu' : 0 < u := by
      rcases hu with h | h
      · omega
      · exact h
    rw [if_pos hl]
    push_cast
    have hlq : (lo : ℚ) < 0 := by exact_mod_cast hl
    have a1 : 0 < ((hi : ℚ) + 1 - (lo - 1)) * u := mul_pos (by linarith) hu'
    have a2 : ((hi : ℚ) + 1 - (lo - 1)) * u < (hi : ℚ) + 1 - (lo - 1) := by nlinarith
    generalize ((hi : ℚ) + 1 - (lo - 1)) * u = t at *
    rw [toI64_ok (a := lo - 1) (b := hi + 1) (by push_cast; linarith) (by push_cast; linarith) (by omega) (by omega)]
    refine ⟨_, rfl, ?_, ?_⟩
    · rcases lt_or_ge ((lo : ℚ) - 1 + t) 0 with hx | hx
      · rw [trunc_of_neg hx]
        have : lo - 1 < ⌈(lo : ℚ) - 1 + t⌉ := Int.lt_ceil.mpr (by push_cast; linarith)
        omega
      · rw [trunc_of_nonneg hx]
        have := Int.floor_nonneg.mpr hx
        omega
    · rcases lt_or_ge ((lo : ℚ) - 1 + t) 0 with hx | hx
      · rw [trunc_of_neg hx]
        have : ⌈(lo : ℚ) - 1 + t⌉ ≤ 0 := Int.ceil_le.mpr (by push_cast; linarith)
        omega
      · have := trunc_lt (x := (lo : ℚ) - 1 + t) (n := hi + 1) hx (by push_cast; linarith)
        omega

/-- C43, partial: `randint(0, hi)` is in range on the machine, for every draw. -/
theorem C43_randint_zero_partial (hi : Int) (u : ℚ) (h : 0 ≤ hi) (hM : hi < 2 ^ 53) (hu : Draw u) :
    ∃ z, randintVal (rnd binary64) 0 hi u = .ok z ∧ 0 ≤ z ∧ z ≤ hi := by
  have hr : Repr binary64 ((hi + 1 : Int) : ℚ) := repr64_int (by omega) (by omega)
  have hr' : Repr binary64 (hi : ℚ) := repr64_int (by omega) (by omega)
  have hhq : (0 : ℚ) ≤ hi := by exact_mod_cast h
  have hlt : rnd binary64 (((hi + 1 : Int) : ℚ) * u) < ((hi + 1 : Int) : ℚ) := by
    refine rnd_mul_lt hr ?_ hu.2.1 hu.le
    have h1 : (2 : ℚ) ^ (binary64.emin + (binary64.p : Int)) ≤ 2 ^ (0 : Int) := zpow_le_zpow.mpr (by decide)
    push_cast
    simp only [zpow_zero] at h1
    linarith
  have hge : 0 ≤ rnd binary64 (((hi + 1 : Int) : ℚ) * u) :=
    rnd_nonneg (mul_nonneg (by push_cast; linarith) hu.2.1)
  have e : randintVal (rnd binary64) 0 hi u = toI64 (rnd binary64 (((hi + 1 : Int) : ℚ) * u)) := by
    unfold randintVal randomVal
    rw [if_neg (by decide), if_neg (by decide), rnd_of_repr hr']
    have h2 : rnd binary64 ((hi : ℚ) + 1) = ((hi + 1 : Int) : ℚ) := by
      have := rnd_of_repr hr
      push_cast at this ⊢
      exact this
    rw [h2, sub_zero, Int.cast_zero, rnd_zero, sub_zero, rnd_of_repr hr, zero_add, rnd_of_repr (repr_rnd _ _)]
  rw [e, toI64_ok (a := 0) (b := hi + 1) (by rw [Int.cast_zero]; exact hge) hlt.le (by decide) (by omega)]
  refine ⟨_, rfl, ?_, ?_⟩
  · have := trunc_mono hge
    have h0 : trunc 0 = 0 := by simpa using trunc_int 0
    rwa [h0] at this
  · have := trunc_lt hge hlt
    omega

/-- C43, partial: for `0 ≤ lo ≤ hi` on the machine, `randint(lo, hi)` is at most one above its range.
Missing: the excess of one, which occurs (`C43_rounding_false`). -/
theorem C43_randint_machine_partial (lo hi : Int) (u : ℚ) (h0 : 0 ≤ lo) (h : lo ≤ hi) (hM : hi < 2 ^ 53) (hu : Draw u) :
    ∃ z, randintVal (rnd binary64) lo hi u = .ok z ∧ lo ≤ z ∧ z ≤ hi + 1 := by
  have hr : Repr binary64 ((hi + 1 : Int) : ℚ) := repr64_int (by omega) (by omega)
  have hr' : Repr binary64 (hi : ℚ) := repr64_int (by omega) (by omega)
  have hl : Repr binary64 (lo : ℚ) := repr64_int (by omega) (by omega)
  have h2 : rnd binary64 ((hi : ℚ) + 1) = ((hi + 1 : Int) : ℚ) := by
    have := rnd_of_repr hr
    push_cast at this ⊢
    exact this
  have hm := C43_random lo (hi + 1 : Int) u hl hr (by exact_mod_cast (by omega : lo ≤ hi + 1)) hu
  unfold randintVal
  rw [if_neg (by omega), if_neg (by omega), sub_zero, rnd_of_repr hl, rnd_of_repr hr', h2]
  rw [toI64_ok hm.1 hm.2 (by omega) (by omega)]
  have t1 := trunc_mono hm.1
  have t2 := trunc_mono hm.2
  rw [trunc_int] at t1 t2
  exact ⟨_, rfl, t1, t2⟩

example : randintVal (rnd binary64) 3 7 (1 / 2) = .ok 5 ∧ randintVal (rnd binary64) (-3) 7 (1 / 8) = .ok (-2) ∧
    Draw (1 / 2) :=
  ⟨by decide +kernel, by decide +kernel, ⟨1, -1, by decide, by decide, by norm_num⟩, by norm_num, by norm_num⟩

/-! ## C44 -/

/-- C44 in full: two programs that have called anything before, then set the same seed, then make the same calls, get the same
results. `none` (the loop of `randomGaussian` not ended after `fuel` iterations) also counts as a result. -/
def C44Claim {G : Type} (fl mult : ℚ → ℚ) (gen : Gen G) : Prop :=
  ∀ (seed0 seed0' fuel fuel0 : Nat) (hist hist' prog : List Call) (s : Nat) (r r' : List Res) (st st' : St G),
    calls fl mult gen fuel0 (start seed0) hist = some (r, st) →
    calls fl mult gen fuel0 (start seed0') hist' = some (r', st') →
    (calls fl mult gen fuel (setSeed s st) prog).map Prod.fst = (calls fl mult gen fuel (setSeed s st') prog).map Prod.fst

/-- C44 fails for every generator whose first two values after some seed differ: only the first instantiation of `random`
called after `setSeed` is seeded again. -/
theorem C44_instances_false {G : Type} (fl mult : ℚ → ℚ) (gen : Gen G) (s : Nat)
    (hne : randomVal fl 0 1 (gen.draw (gen.ofSeed (s % 2 ^ 32))).1 ≠
      randomVal fl 0 1 (gen.draw (gen.draw (gen.ofSeed (s % 2 ^ 32))).2).1) : ¬C44Claim fl mult gen := by
  intro h
  have := h s s 0 0 [] [.random (.dbl, .int) 0 1] [.random (.dbl, .dbl) 0 1, .random (.dbl, .int) 0 1] s _ _ _ _ rfl rfl
  simp only [calls, call, drawOf, current, setSeed, start, castTo] at this
  simp at this
  exact hne this

/-- C44 fails for `randomGaussian` too: the second value of a pair is kept across `setSeed`. For every generator: if, drawn
afresh after a seed, the two values of the pair differ, the claim fails. -/
theorem C44_gaussian_false {G : Type} (fl mult : ℚ → ℚ) (gen : Gen G) (s fuel : Nat) (r : (ℚ × ℚ × ℚ) × St G)
    (hp : polar fl gen fuel (setSeed s (start s)) = some r)
    (hne : fl (r.1.1 * mult r.1.2.2) ≠ fl (r.1.2.1 * mult r.1.2.2)) : ¬C44Claim fl mult gen := by
  intro h
  have hg : gaussian fl mult gen fuel (setSeed s (start s)) =
      some (fl (r.1.1 * mult r.1.2.2), { r.2 with gauss := some (fl (r.1.2.1 * mult r.1.2.2)) }) := by
    unfold gaussian
    have : (setSeed s (start s) : St G).gauss = none := rfl
    rw [this, hp]
    rfl
  have hc : call fl mult gen fuel (setSeed s (start s)) .gaussian =
      some (.num (fl (r.1.1 * mult r.1.2.2)), { r.2 with gauss := some (fl (r.1.2.1 * mult r.1.2.2)) }) := by
    unfold call
    rw [hg]
    rfl
  have h1 : calls fl mult gen fuel (start s) [.setSeed s, .gaussian] =
      some ([.unit, .num (fl (r.1.1 * mult r.1.2.2))], { r.2 with gauss := some (fl (r.1.2.1 * mult r.1.2.2)) }) := by
    have hs : call fl mult gen fuel (start s) (.setSeed s) = some (.unit, setSeed s (start s)) := rfl
    simp only [calls, hs, Option.bind_some, hc, Option.map_some]
  have := h s s fuel fuel [] [.setSeed s, .gaussian] [.gaussian] s _ _ _ _ rfl h1
  simp only [calls, hc, Option.bind_some, Option.map_some] at this
  simp [call, gaussian, setSeed] at this
  exact hne this

/-- C44 fails for the generator of the library, `std::mt19937`. -/
theorem C44_false (mult : ℚ → ℚ) : ¬C44Claim (rnd binary64) mult mt19937 :=
  C44_instances_false _ _ _ 1 (by decide +kernel)

/-- The instantiation of `random` a call draws from. -/
def Call.inst : Call → Option Inst
  | .random i _ _ => some i
  | .randint _ _ => some (.dbl, .dbl)
  | .gaussian => some (.dbl, .int)
  | .setSeed _ => none

/-- Two states that agree on what the instantiation `i` will draw and on the kept Gaussian value. -/
def Agree {G : Type} (gen : Gen G) (i : Inst) (st st' : St G) : Prop :=
  st.seed = st'.seed ∧ st.reseed = st'.reseed ∧ current gen st i = current gen st' i ∧ st.gauss = st'.gauss

theorem agree_draw {G : Type} {gen : Gen G} {i : Inst} {st st' : St G} (h : Agree gen i st st') :
    (drawOf gen st i).1 = (drawOf gen st' i).1 ∧ Agree gen i (drawOf gen st i).2 (drawOf gen st' i).2 := by
  obtain ⟨h1, h2, h3, h4⟩ := h
  unfold drawOf
  simp only [h3]
  refine ⟨trivial, h1, rfl, ?_, h4⟩
  simp [current]

theorem agree_polar {G : Type} {fl : ℚ → ℚ} {gen : Gen G} {fuel : Nat} {st st' : St G}
    (h : Agree gen (.dbl, .int) st st') :
    (polar fl gen fuel st = none ∧ polar fl gen fuel st' = none) ∨
    ∃ v t t', polar fl gen fuel st = some (v, t) ∧ polar fl gen fuel st' = some (v, t') ∧ Agree gen (.dbl, .int) t t' := by
  induction fuel generalizing st st' with
  | zero => exact .inl ⟨rfl, rfl⟩
  | succ fuel ih =>
    obtain ⟨e1, a1⟩ := agree_draw h
    obtain ⟨e2, a2⟩ := agree_draw a1
    unfold polar
    simp only [e1, e2]
    split
    · exact ih a2
    · exact .inr ⟨_, _, _, rfl, rfl, a2⟩

/-- A call in two states that agree: the same value, or none, and states that agree. -/
theorem agree_call {G : Type} {fl mult : ℚ → ℚ} {gen : Gen G} {fuel : Nat} {i : Inst} {c : Call} (hc : c.inst = none ∨ c.inst = some i)
    {st st' : St G} (hA : Agree gen i st st') :
    (call fl mult gen fuel st c = none ∧ call fl mult gen fuel st' c = none) ∨
      ∃ v t t', call fl mult gen fuel st c = some (v, t) ∧ call fl mult gen fuel st' c = some (v, t') ∧ Agree gen i t t' := by
  cases c with
  | random j a b =>
    have hj : j = i := by simpa [Call.inst] using hc
    subst hj
    obtain ⟨e, a⟩ := agree_draw hA
    exact .inr ⟨_, _, _, rfl, by simp only [call, e], a⟩
  | randint a b =>
    have hj : (Ty.dbl, Ty.dbl) = i := by simpa [Call.inst] using hc
    subst hj
    obtain ⟨e, a⟩ := agree_draw hA
    exact .inr ⟨_, _, _, rfl, by simp only [call, e], a⟩
  | gaussian =>
    have hj : (Ty.dbl, Ty.int) = i := by simpa [Call.inst] using hc
    subst hj
    have hgg := hA.2.2.2
    unfold call gaussian
    cases hs : st.gauss with
    | some g =>
      rw [← hgg, hs]
      exact .inr ⟨_, _, _, rfl, rfl, hA.1, hA.2.1, hA.2.2.1, rfl⟩
    | none =>
      rw [← hgg, hs]
      rcases agree_polar (fl := fl) (fuel := fuel) hA with ⟨p1, p2⟩ | ⟨v, t, t', p1, p2, a⟩
      · left
        simp [p1, p2]
      · right
        simp only [p1, p2, Option.map_some]
        exact ⟨_, _, _, rfl, rfl, a.1, a.2.1, a.2.2.1, rfl⟩
  | setSeed s =>
    refine .inr ⟨_, _, _, rfl, rfl, rfl, rfl, ?_, hA.2.2.2⟩
    simp [current, setSeed]

/-- C44, partial: a program all of whose calls draw from one instantiation of `random` (for example only `randint` and
`random` on `double`s, or only `randomGaussian`), run after `setSeed` in any two states that keep the same Gaussian value or
none, gets the same results.
Missing: programs that use several instantiations (`C44_instances_false`), and a Gaussian value kept from before
(`C44_gaussian_false`). -/
theorem C44_partial {G : Type} (fl mult : ℚ → ℚ) (gen : Gen G) (fuel : Nat) (i : Inst) (prog : List Call)
    (hi : ∀ c ∈ prog, c.inst = none ∨ c.inst = some i) (s : Nat) (st st' : St G) (hg : st.gauss = st'.gauss) :
    (calls fl mult gen fuel (setSeed s st) prog).map Prod.fst =
      (calls fl mult gen fuel (setSeed s st') prog).map Prod.fst := by
  have key : ∀ (prog : List Call), (∀ c ∈ prog, c.inst = none ∨ c.inst = some i) → ∀ st st' : St G, Agree gen i st st' →
      (calls fl mult gen fuel st prog).map Prod.fst = (calls fl mult gen fuel st' prog).map Prod.fst := by
    intro prog
    induction prog with
    | nil => intro _ st st' _; rfl
    | cons c cs ih =>
      intro hi st st' hA
      have hstep := agree_call (fl := fl) (mult := mult) (fuel := fuel) (hi c List.mem_cons_self) hA
      rcases hstep with ⟨p1, p2⟩ | ⟨v, t, t', p1, p2, a⟩
      · simp [calls, p1, p2]
      · have := ih (fun c hc => hi c (List.mem_cons_of_mem _ hc)) t t' a
        simp only [calls, p1, p2, Option.bind_some, Option.map_map]
        have e : ∀ x : Option (List Res × St G),
            x.map (Prod.fst ∘ fun rs => (v :: rs.1, rs.2)) = (x.map Prod.fst).map (v :: ·) := by
          intro x; cases x <;> rfl
        rw [e, e, this]
  exact key prog hi _ _ ⟨rfl, rfl, by simp [current, setSeed], hg⟩

/-- The hypotheses are met: with `std::mt19937`, `randint` and `random` on `double`s, from two different states. -/
example (mult : ℚ → ℚ) (st st' : St Mt) (hg : st.gauss = none) (hg' : st'.gauss = none) :
    (calls (rnd binary64) mult mt19937 5 (setSeed 7 st) [.randint 1 6, .random (.dbl, .dbl) 0 1]).map Prod.fst =
      (calls (rnd binary64) mult mt19937 5 (setSeed 7 st') [.randint 1 6, .random (.dbl, .dbl) 0 1]).map Prod.fst :=
  C44_partial _ _ _ _ (.dbl, .dbl) _ (by intro c hc; fin_cases hc <;> right <;> rfl) _ _ _ (hg.trans hg'.symm)

end Verif.RandomM
