import Verif.Spec.Named
import Verif.Props.Expr
import Mathlib.Tactic.Linarith
import Mathlib.Tactic.FieldSimp
import Mathlib.Tactic.NormNum
import Mathlib.Tactic.Ring
import Mathlib.Analysis.SpecialFunctions.Trigonometric.DerivHyp
import Mathlib.Analysis.Complex.ExponentialBounds

/-! Property theorems for the named element-wise functions (C24). -/

namespace Verif.Named

open ExprM ShapeM Conc

/-- The functions that have a functor of another name. -/
def Wrong (n : Name) : Prop := n = .asinh ∨ n = .acosh ∨ n = .atanh ∨ n = .exp2 ∨ n = .exp10

/-- The scalar functions of the library mean what they say (here, that the idealised standard library does). -/
theorem scalarFn_means (n : Name) {x : ℝ} (hx : Domain n x) : ∃ y, scalarFn n x = some y ∧ Means n x y := by
  cases n <;> simp only [scalarFn, Means, Domain] at hx ⊢
  case sin => exact ⟨_, rfl, rfl⟩
  case cos => exact ⟨_, rfl, rfl⟩
  case tan => exact ⟨_, by rw [if_neg hx], Real.tan_mul_cos hx⟩
  case asin => exact ⟨_, by rw [if_pos hx], Real.neg_pi_div_two_le_arcsin x, Real.arcsin_le_pi_div_two x, Real.sin_arcsin hx.1 hx.2⟩
  case acos => exact ⟨_, by rw [if_pos hx], Real.arccos_nonneg x, Real.arccos_le_pi x, Real.cos_arccos hx.1 hx.2⟩
  case atan =>
    refine ⟨_, rfl, Real.neg_pi_div_two_lt_arctan x, Real.arctan_lt_pi_div_two x, ?_⟩
    have h1 : Real.cos (Real.arctan x) ≠ 0 := (Real.cos_arctan_pos x).ne'
    have h2 := Real.tan_mul_cos h1
    rw [Real.tan_arctan] at h2
    exact h2.symm
  case sinh => exact ⟨_, rfl, by rw [Real.sinh_eq]; ring⟩
  case cosh => exact ⟨_, rfl, by rw [Real.cosh_eq]; ring⟩
  case tanh =>
    refine ⟨_, rfl, ?_⟩
    rw [Real.tanh_eq_sinh_div_cosh, Real.sinh_eq, Real.cosh_eq]
    have := Real.exp_pos x
    have := Real.exp_pos (-x)
    field_simp
  case asinh =>
    refine ⟨_, rfl, ?_⟩
    have := Real.sinh_arsinh x
    rw [Real.sinh_eq] at this
    linarith
  case acosh =>
    refine ⟨_, by rw [if_pos hx], Real.arcosh_nonneg hx, ?_⟩
    have := Real.cosh_arcosh hx
    rw [Real.cosh_eq] at this
    linarith
  case atanh =>
    refine ⟨_, by rw [if_pos hx], ?_⟩
    have h1 := Real.tanh_artanh (x := x) ⟨hx.1, hx.2⟩
    rw [Real.tanh_eq_sinh_div_cosh, Real.sinh_eq, Real.cosh_eq] at h1
    generalize Real.artanh x = y at h1 ⊢
    have := Real.exp_pos y
    have := Real.exp_pos (-y)
    rw [← h1]
    field_simp
  case exp => exact ⟨_, rfl, Real.exp_pos x, Real.log_exp x⟩
  case exp2 => exact ⟨_, rfl, by positivity, Real.log_rpow (by norm_num) x⟩
  case exp10 => exact ⟨_, rfl, by positivity, Real.log_rpow (by norm_num) x⟩
  case log => exact ⟨_, by rw [if_pos hx], Real.exp_log hx⟩
  case log2 => exact ⟨_, by rw [if_pos hx], Real.rpow_logb (by norm_num) (by norm_num) hx⟩
  case log10 => exact ⟨_, by rw [if_pos hx], Real.rpow_logb (by norm_num) (by norm_num) hx⟩
  case sqrt => exact ⟨_, by rw [if_pos hx], Real.sqrt_nonneg x, Real.mul_self_sqrt hx⟩
  case cbrt =>
    refine ⟨_, rfl, ?_⟩
    have key : ∀ z : ℝ, 0 ≤ z → z ^ (1 / 3 : ℝ) * z ^ (1 / 3 : ℝ) * z ^ (1 / 3 : ℝ) = z := by
      intro z hz
      have : (z ^ (1 / 3 : ℝ)) ^ (3 : ℕ) = z := by
        rw [← Real.rpow_natCast, ← Real.rpow_mul hz]
        norm_num
      calc _ = (z ^ (1 / 3 : ℝ)) ^ (3 : ℕ) := by ring
        _ = z := this
    split
    · exact key x ‹_›
    · have := key (-x) (by linarith)
      generalize (-x) ^ (1 / 3 : ℝ) = w at this ⊢
      linarith
  case abs =>
    refine ⟨_, rfl, ?_⟩
    split
    · exact ⟨by linarith, Or.inr rfl⟩
    · exact ⟨by linarith, Or.inl rfl⟩
  case floor => exact ⟨_, rfl, _, rfl, Int.floor_le x, Int.lt_floor_add_one x⟩
  case ceil => exact ⟨_, rfl, _, rfl, Int.le_ceil x, Int.ceil_lt_add_one x⟩

/-- The defining properties determine the value, so `Means` really names one function. -/
theorem means_unique (n : Name) {x y z : ℝ} (hx : Domain n x) (hy : Means n x y) (hz : Means n x z) : y = z := by
  have hexp : ∀ y z : ℝ, y < z → Real.exp y - Real.exp (-y) < Real.exp z - Real.exp (-z) := by
    intro y z h
    have h1 : Real.exp y < Real.exp z := Real.exp_lt_exp.2 h
    have h2 : Real.exp (-z) < Real.exp (-y) := Real.exp_lt_exp.2 (by linarith)
    linarith
  cases n <;> simp only [Means, Domain] at hx hy hz
  case sin => rw [hy, hz]
  case cos => rw [hy, hz]
  case tan => exact mul_right_cancel₀ hx (hy.trans hz.symm)
  case asin => exact Real.injOn_sin ⟨hy.1, hy.2.1⟩ ⟨hz.1, hz.2.1⟩ (hy.2.2.trans hz.2.2.symm)
  case acos => exact Real.injOn_cos ⟨hy.1, hy.2.1⟩ ⟨hz.1, hz.2.1⟩ (hy.2.2.trans hz.2.2.symm)
  case atan =>
    have cy := Real.cos_pos_of_mem_Ioo ⟨hy.1, hy.2.1⟩
    have cz := Real.cos_pos_of_mem_Ioo ⟨hz.1, hz.2.1⟩
    apply Real.injOn_tan ⟨hy.1, hy.2.1⟩ ⟨hz.1, hz.2.1⟩
    rw [Real.tan_eq_sin_div_cos, Real.tan_eq_sin_div_cos, hy.2.2, hz.2.2]
    field_simp
  case sinh => linarith
  case cosh => linarith
  case tanh =>
    have := Real.exp_pos x
    have := Real.exp_pos (-x)
    exact mul_right_cancel₀ (by positivity) (hy.trans hz.symm)
  case asinh =>
    rcases lt_trichotomy y z with h | h | h
    · have := hexp _ _ h; linarith
    · exact h
    · have := hexp _ _ h; linarith
  case acosh =>
    have e1 : Real.cosh y = Real.cosh z := by rw [Real.cosh_eq, Real.cosh_eq, hy.2, hz.2]
    have := Real.cosh_le_cosh.1 e1.le
    have := Real.cosh_le_cosh.1 e1.ge
    rw [abs_of_nonneg hy.1, abs_of_nonneg hz.1] at *
    linarith
  case atanh =>
    have e1 : ∀ w : ℝ, Real.exp w - Real.exp (-w) = x * (Real.exp w + Real.exp (-w)) → Real.tanh w = x := by
      intro w hw
      rw [Real.tanh_eq_sinh_div_cosh, Real.sinh_eq, Real.cosh_eq, hw]
      have := Real.exp_pos w
      have := Real.exp_pos (-w)
      field_simp
    exact Real.tanh_injective ((e1 y hy).trans (e1 z hz).symm)
  case exp => exact Real.log_injOn_pos hy.1 hz.1 (hy.2.trans hz.2.symm)
  case exp2 => exact Real.log_injOn_pos hy.1 hz.1 (hy.2.trans hz.2.symm)
  case exp10 => exact Real.log_injOn_pos hy.1 hz.1 (hy.2.trans hz.2.symm)
  case log => exact Real.exp_injective (hy.trans hz.symm)
  case log2 => rw [← Real.logb_rpow (b := 2) (x := y) (by norm_num) (by norm_num), hy, ← hz, Real.logb_rpow (by norm_num) (by norm_num)]
  case log10 => rw [← Real.logb_rpow (b := 10) (x := y) (by norm_num) (by norm_num), hy, ← hz, Real.logb_rpow (by norm_num) (by norm_num)]
  case sqrt => exact (mul_self_inj_of_nonneg hy.1 hz.1).1 (hy.2.trans hz.2.symm)
  case cbrt =>
    have : y ^ 3 = z ^ 3 := by linarith [hy, hz, pow_succ y 2, pow_succ z 2, sq y, sq z]
    exact (Odd.strictMono_pow (n := 3) ⟨1, rfl⟩).injective this
  case abs => rcases hy.2 with h | h <;> rcases hz.2 with h' | h' <;> linarith [hy.1, hz.1]
  case floor =>
    obtain ⟨a, rfl, h1, h2⟩ := hy
    obtain ⟨b, rfl, h3, h4⟩ := hz
    have h5 : (a : ℝ) < b + 1 := by linarith
    have h6 : (b : ℝ) < a + 1 := by linarith
    norm_cast at h5 h6 ⊢
    omega
  case ceil =>
    obtain ⟨a, rfl, h1, h2⟩ := hy
    obtain ⟨b, rfl, h3, h4⟩ := hz
    have h5 : (a : ℝ) < b + 1 := by linarith
    have h6 : (b : ℝ) < a + 1 := by linarith
    norm_cast at h5 h6 ⊢
    omega

/-- The full property C24: every named function computes the function it names at every element. -/
def C24Claim : Prop := ∀ (n : Name) (x : ℝ), Domain n x → ∃ y, applied n x = some y ∧ Means n x y

/-- **C24** is false of the code: `asinh` applies `sinh`, `acosh` applies `cosh`, `atanh` applies `tanh`, and `exp2` and `exp10`
apply `exp`. -/
theorem C24_false : ¬ C24Claim := by
  intro h
  obtain ⟨y, h1, h2⟩ := h .exp2 1 trivial
  simp only [applied, functorOf, scalarOf, scalarFn, Option.some.injEq] at h1
  subst h1
  simp only [Means, Real.log_exp] at h2
  linarith [h2.2, Real.log_two_lt_d9]

/-- Each of the five is wrong: there is an argument at which the result is not the named function's value. -/
theorem C24_wrong_false (n : Name) (hn : Wrong n) : ∃ x, Domain n x ∧ ∀ y, applied n x = some y → ¬ Means n x y := by
  have h2 := Real.log_two_lt_d9
  rcases hn with rfl | rfl | rfl | rfl | rfl
  · refine ⟨1, trivial, ?_⟩
    intro y h1 hm
    simp only [applied, functorOf, scalarOf, scalarFn, Option.some.injEq] at h1
    have : Real.sinh (Real.sinh 1) = 1 := by
      rw [h1, Real.sinh_eq]
      simp only [Means] at hm
      linarith
    have g1 : 1 < Real.sinh 1 := Real.self_lt_sinh_iff.2 one_pos
    have g2 : Real.sinh 1 < Real.sinh (Real.sinh 1) := Real.sinh_lt_sinh.2 g1
    linarith
  · refine ⟨1, le_refl _, ?_⟩
    intro y h1 hm
    simp only [applied, functorOf, scalarOf, scalarFn, Option.some.injEq] at h1
    have : Real.cosh (Real.cosh 1) = 1 := by
      rw [h1, Real.cosh_eq]
      simp only [Means] at hm
      linarith
    have g1 : (1 : ℝ) < Real.cosh (Real.cosh 1) := Real.one_lt_cosh.2 (Real.cosh_pos 1).ne'
    linarith
  · refine ⟨9 / 10, ⟨by norm_num, by norm_num⟩, ?_⟩
    intro y h1 hm
    simp only [applied, functorOf, scalarOf, scalarFn, Option.some.injEq] at h1
    simp only [Means] at hm
    have e1 : y < 1 := by rw [← h1]; exact Real.tanh_lt_one _
    have e2 : Real.exp y < 3 := by
      have := Real.exp_lt_exp.2 e1
      linarith [Real.exp_one_lt_d9]
    have e3 : Real.exp y * Real.exp (-y) = 1 := by rw [← Real.exp_add]; simp
    have := Real.exp_pos y
    have := Real.exp_pos (-y)
    have e4 : Real.exp y = 19 * Real.exp (-y) := by linarith
    nlinarith
  · refine ⟨1, trivial, ?_⟩
    intro y h1 hm
    simp only [applied, functorOf, scalarOf, scalarFn, Option.some.injEq] at h1
    subst h1
    simp only [Means, Real.log_exp] at hm
    linarith [hm.2]
  · refine ⟨1, trivial, ?_⟩
    intro y h1 hm
    simp only [applied, functorOf, scalarOf, scalarFn, Option.some.injEq] at h1
    subst h1
    simp only [Means, Real.log_exp] at hm
    have : Real.log 2 * 3 < Real.log 10 := by
      rw [mul_comm, show (3 : ℝ) * Real.log 2 = Real.log (2 ^ 3) by rw [Real.log_pow]; norm_num]
      exact Real.log_lt_log (by norm_num) (by norm_num)
    linarith [hm.2, Real.log_two_gt_d9]

/-- **C24** for all but those five: applied to an array of real numbers in the function's domain and assigned to another array,
each named function gives at each index the mathematical function of that name of the element there. -/
theorem C24_partial {n : Name} (hn : ¬ Wrong n) {cfg : Cfg} {shapes : Nat → AnyShape} {junk : List (Option ℝ)} {d id : Nat}
    {m : Mem (Option ℝ)} (hd : id ≠ d) (hw : 0 < cfg.width) (hfix : cfg.fixed = false) (hs : ext (shapes d) = ext (shapes id))
    (hj : junk.length = size (shapes id)) (hne : size (shapes id) ≠ 0) (hlen : (m id).length = size (shapes id))
    (hdom : ∀ (i : Nat) o, (m id)[i]? = some o → ∃ x, o = some x ∧ Domain n x) :
    (∃ o, Assign cfg shapes junk d (namedExpr n id) m o) ∧
      ∀ o, Assign cfg shapes junk d (namedExpr n id) m o → ∃ m', o = .ok m' ∧ (m' d).length = size (shapes id) ∧
        (∀ i, i < size (shapes id) → ∃ x y, (m id)[i]? = some (some x) ∧ (m' d)[i]? = some (some y) ∧ Means n x y) ∧
        m' id = m id := by
  obtain ⟨h1, h2⟩ := C23_value_partial (cfg := cfg) (shapes := shapes) (junk := junk) (d := d) (e := namedExpr n id) (m := m)
    (s := shapes id) hw hfix rfl hs hj (fun _ => hne) hlen
  refine ⟨h1, fun o ho => ?_⟩
  obtain ⟨m', rfl, h3, h4, h5⟩ := h2 o ho
  refine ⟨m', rfl, h3, ?_, h5 id hd⟩
  intro i hi
  obtain ⟨v, h6, h7⟩ := h4 i hi
  obtain ⟨x, h8, h9⟩ := hdom i ((m id)[i]'(by omega)) (List.getElem?_eq_getElem _)
  have h10 : (m id)[i]? = some (some x) := by rw [List.getElem?_eq_getElem (by omega), h8]
  obtain ⟨y, h11, h12⟩ := scalarFn_means n h9
  refine ⟨x, y, h10, ?_, h12⟩
  rw [h7, ← h6]
  have h13 : applied n x = scalarFn n x := by
    cases n <;> first | rfl | exact absurd (by simp [Wrong]) hn
  simp [namedExpr, valueAt, h10, h13, h11]

/-- A concrete case: the square roots of `[4, 9]`. -/
example : ¬ Wrong .sqrt ∧ Domain .sqrt 4 ∧ Domain .sqrt 9 ∧ Means .sqrt 9 3 := by
  refine ⟨by simp [Wrong], ?_, ?_, ?_, ?_⟩ <;> norm_num [Domain]

end Verif.Named
