import Verif.Spec.DualFl
import Verif.Lemmas.FloatSum

/-!
# C159: dual numbers in floating point
-/

namespace Verif.DualM

open Verif.Ieee PExpr Polynomial

variable {f : Fmt}

/-- `x̂` approximates `x`, relative to a bound `A` of `x`, up to the factor `g`. -/
def Near (g A x' x : ℚ) : Prop := 1 ≤ g ∧ |x| ≤ A ∧ |x' - x| ≤ (g - 1) * A

theorem Near.nonneg {g A x' x : ℚ} (h : Near g A x' x) : 0 ≤ A := le_trans (abs_nonneg _) h.2.1

theorem Near.bound {g A x' x : ℚ} (h : Near g A x' x) : |x'| ≤ g * A := by
  have := abs_add_le (x' - x) x
  rw [sub_add_cancel] at this
  linarith [h.2.1, h.2.2]

theorem Near.mono {g h A x' x : ℚ} (hn : Near g A x' x) (hg : g ≤ h) : Near h A x' x :=
  ⟨le_trans hn.1 hg, hn.2.1, le_trans hn.2.2 (mul_le_mul_of_nonneg_right (by linarith) hn.nonneg)⟩

theorem Near.exact (x : ℚ) : Near 1 |x| x x := ⟨le_rfl, le_rfl, by simp⟩

theorem Near.zero {g A : ℚ} (hg : 1 ≤ g) (hA : 0 ≤ A) : Near g A 0 0 :=
  ⟨hg, by simpa using hA, by simpa using mul_nonneg (by linarith) hA⟩

theorem Near.round {g A x' x y u : ℚ} (h : Near g A x' x) (hu : 0 ≤ u) (hy : |y - x'| ≤ u * |x'|) : Near ((1 + u) * g) A y x := by
  refine ⟨?_, h.2.1, ?_⟩
  · have := mul_nonneg hu (le_trans zero_le_one h.1)
    linarith [h.1]
  · have a := abs_add_le (y - x') (x' - x)
    rw [sub_add_sub_cancel] at a
    have b := mul_le_mul_of_nonneg_left h.bound hu
    linarith [h.2.2]

theorem Near.neg {g A x' x : ℚ} (h : Near g A x' x) : Near g A (-x') (-x) :=
  ⟨h.1, by rw [abs_neg]; exact h.2.1, by rw [← neg_sub', abs_neg]; exact h.2.2⟩

theorem Near.add {g A B x' x y' y : ℚ} (h : Near g A x' x) (k : Near g B y' y) : Near g (A + B) (x' + y') (x + y) := by
  refine ⟨h.1, le_trans (abs_add_le _ _) (add_le_add h.2.1 k.2.1), ?_⟩
  have a := abs_add_le (x' - x) (y' - y)
  rw [show x' - x + (y' - y) = x' + y' - (x + y) by ring] at a
  linarith [h.2.2, k.2.2]

theorem Near.sub {g A B x' x y' y : ℚ} (h : Near g A x' x) (k : Near g B y' y) : Near g (A + B) (x' - y') (x - y) := by
  rw [sub_eq_add_neg, sub_eq_add_neg]
  exact h.add k.neg

theorem Near.mul {g h A B x' x y' y : ℚ} (a : Near g A x' x) (b : Near h B y' y) : Near (g * h) (A * B) (x' * y') (x * y) := by
  refine ⟨?_, ?_, ?_⟩
  · nlinarith [a.1, b.1]
  · rw [abs_mul]
    exact mul_le_mul a.2.1 b.2.1 (abs_nonneg _) a.nonneg
  · have e : x' * y' - x * y = (x' - x) * y' + x * (y' - y) := by ring
    rw [e]
    refine le_trans (abs_add_le _ _) ?_
    rw [abs_mul, abs_mul]
    have h1 : |x' - x| * |y'| ≤ ((g - 1) * A) * (h * B) :=
      mul_le_mul a.2.2 b.bound (abs_nonneg _) (mul_nonneg (by linarith [a.1]) a.nonneg)
    have h2 : |x| * |y' - y| ≤ A * ((h - 1) * B) := mul_le_mul a.2.1 b.2.2 (abs_nonneg _) a.nonneg
    linarith

theorem safe_err {q : ℚ} (h : Safe f q) : |rnd f q - q| ≤ unitRoundoff f * |q| := by
  rcases h with h | h
  · exact rnd_mult_err h
  · exact rnd_rel h

theorem unit_nonneg (f : Fmt) : 0 ≤ unitRoundoff f := (two_zpow_pos _).le

theorem one_le_pow_unit (f : Fmt) (n : Nat) : 1 ≤ (1 + unitRoundoff f) ^ n := one_le_pow₀ (by linarith [unit_nonneg f])

theorem pow_unit_mono (f : Fmt) {m n : Nat} (h : m ≤ n) : (1 + unitRoundoff f) ^ m ≤ (1 + unitRoundoff f) ^ n :=
  pow_le_pow_right₀ (by linarith [unit_nonneg f]) h

/-- The rounding of a sum. -/
theorem Near.addFl {n : Nat} {A B x y : ℚ} {a b : Fl f} (h : Near ((1 + unitRoundoff f) ^ n) A a.val x)
    (k : Near ((1 + unitRoundoff f) ^ n) B b.val y) : Near ((1 + unitRoundoff f) ^ (n + 1)) (A + B) (a + b).val (x + y) := by
  rw [pow_succ']
  exact (h.add k).round (unit_nonneg f) (rnd_add_err a.repr b.repr)

theorem Near.subFl {n : Nat} {A B x y : ℚ} {a b : Fl f} (h : Near ((1 + unitRoundoff f) ^ n) A a.val x)
    (k : Near ((1 + unitRoundoff f) ^ n) B b.val y) : Near ((1 + unitRoundoff f) ^ (n + 1)) (A + B) (a - b).val (x - y) := by
  rw [pow_succ']
  refine (h.sub k).round (unit_nonneg f) ?_
  have := rnd_add_err a.repr (repr_neg b.repr)
  rwa [← sub_eq_add_neg] at this

/-- The rounding of a product. -/
theorem Near.mulFl {m n : Nat} {A B x y : ℚ} {a b : Fl f} (h : Near ((1 + unitRoundoff f) ^ m) A a.val x)
    (k : Near ((1 + unitRoundoff f) ^ n) B b.val y) (hs : Safe f (a.val * b.val)) :
    Near ((1 + unitRoundoff f) ^ (m + n + 1)) (A * B) (a * b).val (x * y) := by
  rw [pow_succ', pow_add]
  exact (h.mul k).round (unit_nonneg f) (safe_err hs)

theorem negFl_val (a : Fl f) : (-a).val = -a.val := rfl

/-- The value that comes with the derivative is the one plain arithmetic gives, to the last bit, whatever the arithmetic. -/
theorem C159_value {K : Type} [Zero K] [Add K] [Sub K] [Neg K] [Mul K] [Div K] [DecidableEq K] (x : Dual K) (e : PExpr K) :
    (e.dual x).value = e.plain x.value := by
  induction e <;> simp_all [dual, plain, ofScalar, DualM.neg, DualM.pos, DualM.add, DualM.sub, DualM.mul, DualM.addS, DualM.sAdd,
    DualM.subS, DualM.sSub, DualM.mulS, DualM.sMul]

/-- The two statements of the theorem below, which are proved together. -/
theorem near_poly (x : Dual (Fl f)) (e : PExpr (Fl f)) (h : e.NoUnderflow x) :
    Near ((1 + unitRoundoff f) ^ e.cost) (e.absPoly.eval |x.value.val|) (e.dual x).value.val (e.poly.eval x.value.val) ∧
    Near ((1 + unitRoundoff f) ^ e.cost) (e.absPoly.derivative.eval |x.value.val| * |x.derivative.val|) (e.dual x).derivative.val
      (e.poly.derivative.eval x.value.val * x.derivative.val) := by
  have cn : ∀ c : Fl f, Near ((1 + unitRoundoff f) ^ 0) |c.val| c.val c.val := fun c => by simpa using Near.exact c.val
  have cn' : ∀ (c : Fl f) (n : Nat), Near ((1 + unitRoundoff f) ^ n) |c.val| c.val c.val := fun c n =>
    (cn c).mono (pow_unit_mono f (Nat.zero_le n))
  induction e with
  | var => simpa [dual, poly, absPoly, cost] using And.intro (Near.exact x.value.val) (Near.exact x.derivative.val)
  | const c =>
    have h0 : (0 : Fl f).val = 0 := rfl
    simpa [dual, poly, absPoly, cost, ofScalar, h0] using
      And.intro (Near.exact c.val) (Near.zero (le_refl (1 : ℚ)) (le_refl (0 : ℚ)))
  | neg a iha =>
    obtain ⟨v, d⟩ := iha h
    refine ⟨by simpa [poly, absPoly, cost, dual, DualM.neg, negFl_val] using v.neg, ?_⟩
    have := d.neg
    rw [← neg_mul] at this
    simpa [poly, absPoly, cost, dual, DualM.neg, negFl_val] using this
  | pos a iha => exact iha h
  | add a b iha ihb =>
    obtain ⟨va, da⟩ := iha h.1
    obtain ⟨vb, db⟩ := ihb h.2
    have ma := pow_unit_mono f (le_max_left a.cost b.cost)
    have mb := pow_unit_mono f (le_max_right a.cost b.cost)
    refine ⟨by simpa [poly, absPoly, cost, dual, DualM.add] using (va.mono ma).addFl (vb.mono mb), ?_⟩
    have := (da.mono ma).addFl (db.mono mb)
    rw [← add_mul, ← add_mul] at this
    simpa [poly, absPoly, cost, dual, DualM.add] using this
  | sub a b iha ihb =>
    obtain ⟨va, da⟩ := iha h.1
    obtain ⟨vb, db⟩ := ihb h.2
    have ma := pow_unit_mono f (le_max_left a.cost b.cost)
    have mb := pow_unit_mono f (le_max_right a.cost b.cost)
    refine ⟨by simpa [poly, absPoly, cost, dual, DualM.sub] using (va.mono ma).subFl (vb.mono mb), ?_⟩
    have := (da.mono ma).subFl (db.mono mb)
    rw [← add_mul, ← sub_mul] at this
    simpa [poly, absPoly, cost, dual, DualM.sub] using this
  | mul a b iha ihb =>
    obtain ⟨ha, hb, s1, s2, s3⟩ := h
    obtain ⟨va, da⟩ := iha ha
    obtain ⟨vb, db⟩ := ihb hb
    constructor
    · have := (va.mulFl vb s1).mono (pow_unit_mono f (by omega : a.cost + b.cost + 1 ≤ a.cost + b.cost + 2))
      simpa [poly, absPoly, cost, dual, DualM.mul] using this
    · have := (da.mulFl vb s2).addFl (va.mulFl db s3)
      simp only [poly, absPoly, cost, dual, DualM.mul, derivative_mul, eval_add, eval_mul, add_mul]
      convert this using 2 <;> ring
  | addS a c iha =>
    obtain ⟨v, d⟩ := iha h
    refine ⟨by simpa [poly, absPoly, cost, dual, DualM.addS] using v.addFl (cn' c _), ?_⟩
    simpa [poly, absPoly, cost, dual, DualM.addS] using d.mono (pow_unit_mono f (Nat.le_succ _))
  | sAdd c a iha =>
    obtain ⟨v, d⟩ := iha h
    refine ⟨by simpa [poly, absPoly, cost, dual, DualM.sAdd] using (cn' c _).addFl v, ?_⟩
    simpa [poly, absPoly, cost, dual, DualM.sAdd] using d.mono (pow_unit_mono f (Nat.le_succ _))
  | subS a c iha =>
    obtain ⟨v, d⟩ := iha h
    refine ⟨by simpa [poly, absPoly, cost, dual, DualM.subS] using v.subFl (cn' c _), ?_⟩
    simpa [poly, absPoly, cost, dual, DualM.subS] using d.mono (pow_unit_mono f (Nat.le_succ _))
  | sSub c a iha =>
    obtain ⟨v, d⟩ := iha h
    refine ⟨by simpa [poly, absPoly, cost, dual, DualM.sSub] using (cn' c _).subFl v, ?_⟩
    have := (d.mono (pow_unit_mono f (Nat.le_succ _))).neg
    rw [← neg_mul] at this
    simpa [poly, absPoly, cost, dual, DualM.sSub, negFl_val] using this
  | mulS a c iha =>
    obtain ⟨ha, s1, s2⟩ := h
    obtain ⟨v, d⟩ := iha ha
    constructor
    · simpa [poly, absPoly, cost, dual, DualM.mulS] using v.mulFl (cn c) s1
    · have := d.mulFl (cn c) s2
      simp only [poly, absPoly, cost, dual, DualM.mulS, derivative_mul, derivative_C, mul_zero, add_zero, eval_mul, eval_C]
      convert this using 1 <;> ring
  | sMul c a iha =>
    obtain ⟨ha, s1, s2⟩ := h
    obtain ⟨v, d⟩ := iha ha
    constructor
    · have := (cn c).mulFl v s1
      rw [Nat.zero_add] at this
      simpa [poly, absPoly, cost, dual, DualM.sMul] using this
    · have := (cn c).mulFl d s2
      rw [Nat.zero_add] at this
      simp only [poly, absPoly, cost, dual, DualM.sMul, derivative_mul, derivative_C, zero_mul, zero_add, eval_mul, eval_C]
      convert this using 1 <;> ring

/-- C159, partial: value and derivative of every expression in `+`, `-`, `*` are off the value and the derivative of the polynomial it
denotes by as many roundings as can meet on the way, relative to the polynomial without cancellation.
Missing: division, for which see below. -/
theorem C159_poly_partial (x : Dual (Fl f)) (e : PExpr (Fl f)) (h : e.NoUnderflow x) :
    |(e.dual x).value.val - e.poly.eval x.value.val| ≤ ((1 + unitRoundoff f) ^ e.cost - 1) * e.absPoly.eval |x.value.val| ∧
    |(e.dual x).derivative.val - e.poly.derivative.eval x.value.val * x.derivative.val| ≤
      ((1 + unitRoundoff f) ^ e.cost - 1) * (e.absPoly.derivative.eval |x.value.val| * |x.derivative.val|) :=
  ⟨(near_poly x e h).1.2.2, (near_poly x e h).2.2.2⟩

theorem unit_lt_one (f : Fmt) : unitRoundoff f < 1 := by
  have : unitRoundoff f ≤ (2 : ℚ) ^ (-1 : Int) := zpow_le_zpow.2 (by have := f.hp; omega)
  norm_num at this
  linarith

/-- Division by a rounded number. -/
theorem Near.div {g M N' N B' B u : ℚ} (h : Near g M N' N) (hu : 0 ≤ u) (hu1 : u < 1) (hB : 0 < B) (hB' : |B' - B| ≤ u * B) :
    Near (g / (1 - u)) (M / B) (N' / B') (N / B) := by
  have k : 0 < 1 - u := by linarith
  have b1 : (1 - u) * B ≤ B' := by linarith [(abs_le.1 hB').1]
  have b0 : 0 < B' := lt_of_lt_of_le (mul_pos k hB) b1
  refine ⟨?_, ?_, ?_⟩
  · rw [le_div_iff₀ k]
    linarith [h.1]
  · rw [abs_div, abs_of_pos hB]
    exact div_le_div_of_nonneg_right h.2.1 hB.le
  · have e : N' / B' - N / B = ((N' - N) * B - N * (B' - B)) / (B' * B) := by
      field_simp
      ring
    rw [e, abs_div, abs_of_pos (mul_pos b0 hB), div_le_iff₀ (mul_pos b0 hB)]
    have h1 : |(N' - N) * B - N * (B' - B)| ≤ ((g - 1) * M) * B + M * (u * B) := by
      rw [sub_eq_add_neg]
      refine le_trans (abs_add_le _ _) ?_
      rw [abs_neg, abs_mul, abs_mul, abs_of_pos hB]
      exact add_le_add (mul_le_mul_of_nonneg_right h.2.2 hB.le) (mul_le_mul h.2.1 hB' (abs_nonneg _) h.nonneg)
    refine le_trans h1 ?_
    have e2 : (g / (1 - u) - 1) * (M / B) * (B' * B) = ((g - 1 + u) * M) * (B' / (1 - u)) := by
      field_simp
      ring
    rw [e2]
    have h2 : B ≤ B' / (1 - u) := by rw [le_div_iff₀ k]; linarith
    have := mul_le_mul_of_nonneg_left h2 (mul_nonneg (by linarith [h.1] : 0 ≤ g - 1 + u) h.nonneg)
    linarith

theorem mul_self_ne {b : Fl f} (hb : b ≠ 0) (hs : Safe f (b.val * b.val)) :
    0 < b.val * b.val ∧ b * b ≠ 0 := by
  have b0 : b.val ≠ 0 := fun h => hb (by
    cases b
    simp only at h
    subst h
    rfl)
  have p : 0 < b.val * b.val := mul_self_pos.2 b0
  refine ⟨p, fun h => ?_⟩
  have e := safe_err hs
  have h' : rnd f (b.val * b.val) = 0 := congrArg Fl.val h
  rw [h', abs_of_pos p, zero_sub, abs_neg, abs_of_pos p] at e
  have := mul_lt_mul_of_pos_right (unit_lt_one f) p
  linarith

/-- C159, partial: the quotient of two duals. The value is rounded once; the derivative is off by the roundings of the formula relative to the
same formula without cancellation.
Missing: divisors whose square underflows (`C159_false`). -/
theorem C159_div_partial (a b : Dual (Fl f)) (hb : b.value ≠ 0) (s1 : Safe f (a.derivative.val * b.value.val))
    (s2 : Safe f (a.value.val * b.derivative.val)) (s3 : Safe f (b.value.val * b.value.val)) (s4 : Safe f (a.value.val / b.value.val))
    (s5 : Safe f ((a.derivative * b.value - a.value * b.derivative).val / (b.value * b.value).val)) :
    ∃ r, div a b = some r ∧ |r.value.val - a.value.val / b.value.val| ≤ unitRoundoff f * |a.value.val / b.value.val| ∧
      |r.derivative.val - (a.derivative.val * b.value.val - a.value.val * b.derivative.val) / b.value.val ^ 2| ≤
        ((1 + unitRoundoff f) ^ 3 / (1 - unitRoundoff f) - 1) *
          ((|a.derivative.val * b.value.val| + |a.value.val * b.derivative.val|) / b.value.val ^ 2) := by
  obtain ⟨p, h2⟩ := mul_self_ne hb s3
  refine ⟨⟨a.value / b.value, (a.derivative * b.value - a.value * b.derivative) / (b.value * b.value)⟩,
    by simp [DualM.div, cDiv, hb, h2], safe_err s4, ?_⟩
  have en : ∀ c : Fl f, Near ((1 + unitRoundoff f) ^ 0) |c.val| c.val c.val := fun c => by simpa using Near.exact c.val
  have n1 := (en a.derivative).mulFl (en b.value) s1
  have n2 := (en a.value).mulFl (en b.derivative) s2
  have n3 := n1.subFl n2
  have eb := safe_err s3
  rw [abs_of_pos p] at eb
  have n4 := (n3.div (unit_nonneg f) (unit_lt_one f) p eb).round (unit_nonneg f) (safe_err s5)
  rw [abs_mul, abs_mul, sq]
  have e : (1 + unitRoundoff f) ^ 3 / (1 - unitRoundoff f) =
      (1 + unitRoundoff f) * ((1 + unitRoundoff f) ^ (0 + 0 + 1 + 1) / (1 - unitRoundoff f)) := by ring
  rw [e]
  exact n4.2.2

/-- C159, partial: a scalar divided by a dual.
Missing: divisors whose square underflows. -/
theorem C159_sDiv_partial (c : Fl f) (b : Dual (Fl f)) (hb : b.value ≠ 0) (s1 : Safe f (c.val * b.derivative.val))
    (s3 : Safe f (b.value.val * b.value.val)) (s4 : Safe f (c.val / b.value.val))
    (s5 : Safe f ((-c * b.derivative).val / (b.value * b.value).val)) :
    ∃ r, sDiv c b = some r ∧ |r.value.val - c.val / b.value.val| ≤ unitRoundoff f * |c.val / b.value.val| ∧
      |r.derivative.val - -(c.val * b.derivative.val) / b.value.val ^ 2| ≤
        ((1 + unitRoundoff f) ^ 2 / (1 - unitRoundoff f) - 1) * (|c.val * b.derivative.val| / b.value.val ^ 2) := by
  obtain ⟨p, h2⟩ := mul_self_ne hb s3
  refine ⟨⟨c / b.value, (-c * b.derivative) / (b.value * b.value)⟩, by simp [DualM.sDiv, cDiv, hb, h2], safe_err s4, ?_⟩
  have en : ∀ c : Fl f, Near ((1 + unitRoundoff f) ^ 0) |c.val| c.val c.val := fun c => by simpa using Near.exact c.val
  have s1' : Safe f ((-c).val * b.derivative.val) := by
    rw [negFl_val, neg_mul]
    rcases s1 with h | h
    · exact .inl h.neg
    · exact .inr (by rwa [abs_neg])
  have n1 := (en (-c)).mulFl (en b.derivative) s1'
  have eb := safe_err s3
  rw [abs_of_pos p] at eb
  have n4 := (n1.div (unit_nonneg f) (unit_lt_one f) p eb).round (unit_nonneg f) (safe_err s5)
  rw [negFl_val, abs_neg, ← abs_mul, neg_mul] at n4
  rw [sq (b.value.val)]
  have e : (1 + unitRoundoff f) ^ 2 / (1 - unitRoundoff f) =
      (1 + unitRoundoff f) * ((1 + unitRoundoff f) ^ (0 + 0 + 1) / (1 - unitRoundoff f)) := by ring
  rw [e]
  exact n4.2.2

/-- The property in full: quotients too have a derivative accurate to `2^-50` relative to the formula without cancellation,
as long as the divisor is not zero. -/
def C159Claim : Prop := ∀ a b : Dual (Fl binary64), b.value ≠ 0 → ∃ r, div a b = some r ∧
  |r.derivative.val - (a.derivative.val * b.value.val - a.value.val * b.derivative.val) / b.value.val ^ 2| ≤
    2 ^ (-50 : Int) * ((|a.derivative.val * b.value.val| + |a.value.val * b.derivative.val|) / b.value.val ^ 2) + 2 ^ (-1074 : Int)

deriving instance DecidableEq for Dual

/-- C159 fails: `x / 2^-600` has the derivative `2^600`; its formula divides by the square of `2^-600`, which is rounded to zero. -/
theorem C159_square : let b : Dual (Fl binary64) := ⟨.round _ (2 ^ (-600 : Int)), 0⟩
    b.value.val = 2 ^ (-600 : Int) ∧ div ⟨1, 1⟩ b = none ∧ divS ⟨1, 1⟩ b.value = some ⟨.round _ (2 ^ 600), .round _ (2 ^ 600)⟩ := by
  decide +kernel

theorem C159_false : ¬C159Claim := by
  intro h
  obtain ⟨r, hr, _⟩ := h ⟨1, 1⟩ ⟨.round _ (2 ^ (-600 : Int)), 0⟩ (by decide +kernel)
  rw [C159_square.2.1] at hr
  exact absurd hr (by simp)

/-- `(x - 3) * x + 2` at `5`. -/
example : let x : Dual (Fl binary64) := ⟨.round _ 5, 1⟩
    let e : PExpr (Fl binary64) := .addS (.mul (.subS .var (.round _ 3)) .var) (.round _ 2)
    (e.dual x).value.val = 12 ∧ (e.dual x).derivative.val = 7 ∧ e.cost = 4 := by decide +kernel

example : let x : Dual (Fl binary64) := ⟨.round _ 5, 1⟩
    PExpr.NoUnderflow x (.addS (.mul (.subS .var (.round _ 3)) .var) (.round _ 2)) := by
  refine ⟨trivial, trivial, .inr ?_, .inr ?_, .inr ?_⟩ <;> decide +kernel

/-- `x / (x - 3)` at `5`: the hypotheses of the quotient hold. -/
example : let a : Dual (Fl binary64) := ⟨.round _ 5, 1⟩
    let b : Dual (Fl binary64) := DualM.subS a (.round _ 3)
    b.value ≠ 0 ∧ Safe binary64 (a.derivative.val * b.value.val) ∧ Safe binary64 (a.value.val * b.derivative.val) ∧
    Safe binary64 (b.value.val * b.value.val) ∧ Safe binary64 (a.value.val / b.value.val) ∧
    Safe binary64 ((a.derivative * b.value - a.value * b.derivative).val / (b.value * b.value).val) := by
  refine ⟨?_, .inr ?_, .inr ?_, .inr ?_, .inr ?_, .inr ?_⟩ <;> decide +kernel

end Verif.DualM
