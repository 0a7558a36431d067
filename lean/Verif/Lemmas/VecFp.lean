import Verif.Model.VecFp
import Verif.Props.FloatVec
import Verif.Lemmas.Num
import Mathlib.Analysis.SpecialFunctions.Pow.Real
import Mathlib.Tactic.Linarith

/-!
# Lengths of vectors of `double`
-/

namespace Verif.Num

open Verif.Ieee Verif.IntSqrt

/-- A number that may be too large for a `double`. -/
def big (x : ℚ) : Fp := if (2 : ℚ) ^ 1024 ≤ x then .inf false else .fin false x

theorem toFp_big (x : ℚ) : toFp .dbl false x = big (rnd binary64 x) := rfl

theorem big_zero : big 0 = 0 := by
  unfold big
  rw [if_neg (not_le.2 (by positivity))]
  rfl

theorem big_lt {x : ℚ} (h : x < 2 ^ 1024) : big x = .fin false x := if_neg (not_le.2 h)

theorem big_ge {x : ℚ} (h : 2 ^ 1024 ≤ x) : big x = .inf false := if_pos h

/-- Sums of numbers that are not negative: the overflow of a part is the overflow of the whole. -/
theorem addF_big {a b : ℚ} (ha : 0 ≤ a) (hb : 0 ≤ b) (ra : Repr binary64 a) (rb : Repr binary64 b) :
    addF (big a) (big b) = big (rnd binary64 (a + b)) := by
  have ga : a ≤ rnd binary64 (a + b) := le_rnd_of_repr ra (by linarith)
  have gb : b ≤ rnd binary64 (a + b) := le_rnd_of_repr rb (by linarith)
  by_cases h1 : (2 : ℚ) ^ 1024 ≤ a
  · rw [big_ge h1, big_ge (h1.trans ga)]
    by_cases h2 : (2 : ℚ) ^ 1024 ≤ b
    · rw [big_ge h2]; rfl
    · rw [big_lt (not_le.1 h2)]; rfl
  · rw [big_lt (not_le.1 h1)]
    by_cases h2 : (2 : ℚ) ^ 1024 ≤ b
    · rw [big_ge h2, big_ge (h2.trans gb)]; rfl
    · rw [big_lt (not_le.1 h2)]
      simp only [addF, Fp.signed, Bool.false_eq_true, if_false]
      by_cases h0 : a + b = 0
      · rw [if_pos h0, h0, rnd_zero, big_zero]; rfl
      · rw [if_neg h0, decide_eq_false (by linarith), abs_of_nonneg (by linarith), toFp_big]

theorem mulF_self (s : Bool) (m : ℚ) : mulF (.fin s m) (.fin s m) = big (rnd binary64 (m * m)) := by
  cases s <;> exact toFp_big _

/-- The correctly rounded root is within half a unit of the last place. -/
theorem sqrtRnd_err {m : ℚ} (hm : 0 < m) : |(sqrtRnd m : ℝ) - √(m : ℝ)| ≤ (2 : ℝ) ^ (-53 : ℤ) * √(m : ℝ) := by
  set E := rootExp m with hE
  have h4 : (0 : ℚ) < (4 : ℚ) ^ E := zpow_pos (by norm_num) _
  have h2 : (0 : ℝ) < (2 : ℝ) ^ E := zpow_pos (by norm_num) _
  have e4 : ((4 : ℚ) ^ E) = (2 : ℚ) ^ E * (2 : ℚ) ^ E := by
    rw [← mul_zpow]; norm_num
  set q := m / (4 : ℚ) ^ E with hq
  have hq0 : 0 < q := div_pos hm h4
  have hlo : (2 : ℚ) ^ 104 ≤ q := by
    rw [hq, le_div_iff₀ h4]
    have := Int.zpow_log_le_self (b := 2) (by norm_num) hm
    refine le_trans ?_ this
    have e : (2 : ℚ) ^ 104 * (4 : ℚ) ^ E = (2 : ℚ) ^ (104 + 2 * E) := by
      have e0 : (2 : ℚ) ^ (104 : ℤ) = 2 ^ (104 : ℕ) := by norm_cast
      rw [e4, two_mul, zpow_add₀ (by norm_num), zpow_add₀ (by norm_num), e0]
    rw [e]
    push_cast
    refine zpow_le_zpow_right₀ (by norm_num) ?_
    rw [hE, rootExp]
    omega
  set k := rootFloor m with hk
  have hkd : k = Nat.sqrt ⌊q⌋.toNat := rfl
  have hfl : ((⌊q⌋.toNat : ℕ) : ℚ) = ((⌊q⌋ : ℤ) : ℚ) := by
    have : (0 : ℤ) ≤ ⌊q⌋ := Int.floor_nonneg.2 hq0.le
    exact_mod_cast Int.toNat_of_nonneg this
  have k1 : (k : ℚ) ^ 2 ≤ q := by
    have : k ^ 2 ≤ ⌊q⌋.toNat := by rw [hkd]; exact Nat.sqrt_le' _
    have : ((k ^ 2 : ℕ) : ℚ) ≤ ((⌊q⌋.toNat : ℕ) : ℚ) := by exact_mod_cast this
    rw [hfl] at this
    push_cast at this
    exact this.trans (Int.floor_le q)
  have k2 : q < ((k : ℚ) + 1) ^ 2 := by
    have : ⌊q⌋.toNat + 1 ≤ (k + 1) ^ 2 := by rw [hkd]; exact Nat.lt_succ_sqrt' _
    have : ((⌊q⌋.toNat + 1 : ℕ) : ℚ) ≤ (((k + 1) ^ 2 : ℕ) : ℚ) := by exact_mod_cast this
    push_cast at this
    rw [hfl] at this
    exact lt_of_lt_of_le (Int.lt_floor_add_one q) this
  have c1 : ((k : ℝ)) ^ 2 ≤ (q : ℝ) := by exact_mod_cast k1
  have c2 : (q : ℝ) < ((k : ℝ) + 1) ^ 2 := by exact_mod_cast k2
  have r1 : (k : ℝ) ≤ √(q : ℝ) := Real.le_sqrt_of_sq_le c1
  have r2 : √(q : ℝ) < k + 1 := by
    rw [Real.sqrt_lt' (by positivity)]
    exact c2
  have r3 : (2 : ℝ) ^ 52 ≤ √(q : ℝ) := by
    apply Real.le_sqrt_of_sq_le
    have : ((2 : ℚ) ^ 104 : ℚ) ≤ q := hlo
    have : (((2 : ℚ) ^ 104 : ℚ) : ℝ) ≤ (q : ℝ) := by exact_mod_cast this
    push_cast at this
    norm_num at this ⊢
    exact this
  have em : √(m : ℝ) = √(q : ℝ) * (2 : ℝ) ^ E := by
    have : (m : ℝ) = (q : ℝ) * ((2 : ℝ) ^ E * (2 : ℝ) ^ E) := by
      have : m = q * ((2 : ℚ) ^ E * (2 : ℚ) ^ E) := by rw [← e4, hq, div_mul_cancel₀ _ h4.ne']
      rw [this]
      push_cast
      rfl
    rw [this, Real.sqrt_mul (by positivity), Real.sqrt_mul_self h2.le]
  have key : ∃ z : ℝ, (sqrtRnd m : ℝ) = z * (2 : ℝ) ^ E ∧ |z - √(q : ℝ)| ≤ 1 / 2 := by
    unfold sqrtRnd
    rw [if_neg hm.ne']
    by_cases c : m / (4 : ℚ) ^ rootExp m < (rootFloor m + 1 / 2) ^ 2
    · rw [if_pos c]
      refine ⟨k, by push_cast; rfl, ?_⟩
      have c' : (q : ℝ) < ((k : ℝ) + 1 / 2) ^ 2 := by
        have : q < ((k : ℚ) + 1 / 2) ^ 2 := c
        have : (q : ℝ) < (((((k : ℚ) + 1 / 2) ^ 2 : ℚ)) : ℝ) := by exact_mod_cast this
        push_cast at this
        exact this
      have : √(q : ℝ) < k + 1 / 2 := by
        rw [Real.sqrt_lt' (by positivity)]
        exact c'
      rw [abs_le]
      constructor <;> linarith
    · rw [if_neg c]
      refine ⟨k + 1, by push_cast; rfl, ?_⟩
      have c' : ((k : ℝ) + 1 / 2) ^ 2 ≤ (q : ℝ) := by
        have : ((k : ℚ) + 1 / 2) ^ 2 ≤ q := not_lt.1 c
        have : (((((k : ℚ) + 1 / 2) ^ 2 : ℚ)) : ℝ) ≤ (q : ℝ) := by exact_mod_cast this
        push_cast at this
        exact this
      have : (k : ℝ) + 1 / 2 ≤ √(q : ℝ) := Real.le_sqrt_of_sq_le c'
      rw [abs_le]
      constructor <;> linarith
  obtain ⟨z, hz, hzq⟩ := key
  rw [hz, em, ← sub_mul, abs_mul, abs_of_pos h2, ← mul_assoc]
  refine mul_le_mul_of_nonneg_right (hzq.trans ?_) h2.le
  have : (2 : ℝ) ^ (-53 : ℤ) * 2 ^ 52 = 1 / 2 := by norm_num
  have h3 := mul_le_mul_of_nonneg_left r3 (zpow_pos (by norm_num : (0 : ℝ) < 2) (-53)).le
  linarith

end Verif.Num

namespace Verif.Vec

open Verif.Ieee Verif.Num Verif.IntSqrt

/-- The components are finite `double`s. -/
def Finite (v : V Fp) : Prop := ∀ j, j < v.dims → ∃ s m, v.lane j = .fin s m ∧ 0 ≤ m ∧ Repr binary64 m

/-- The rational number of a component (0 for NaN and infinities). -/
def value : Fp → ℚ
  | .fin s m => Fp.signed s m
  | _ => 0

theorem value_sq (s : Bool) (m : ℚ) : value (.fin s m) * value (.fin s m) = m * m := by
  cases s <;> simp [value, Fp.signed]

theorem repr_signed {s : Bool} {m : ℚ} (h : Repr binary64 m) : Repr binary64 (Fp.signed s m) := by
  cases s
  · exact h
  · exact repr_neg h

/-- The same vector with the numbers of `Model/Fl.lean`. -/
def flVec (v : V Fp) : V (Fl binary64) := ⟨v.dims, v.width, fun j => .round _ (value (v.lane j))⟩

theorem flVec_val {v : V Fp} (hv : Finite v) {j : Nat} (hj : j < v.dims) : ((flVec v).lane j).val = value (v.lane j) := by
  obtain ⟨s, m, e, -, hr⟩ := hv j hj
  show rnd binary64 (value (v.lane j)) = _
  rw [e]
  exact rnd_of_repr (repr_signed hr)

theorem addUp_big (n : Nat) (g : Nat → Fp) (g' : Nat → Fl binary64) (h0 : ∀ i, i < n → 0 ≤ (g' i).val)
    (h : ∀ i, i < n → g i = big (g' i).val) : 0 ≤ (addUp n g').val ∧ addUp n g = big (addUp n g').val := by
  unfold addUp
  induction n with
  | zero => exact ⟨le_refl _, big_zero.symm⟩
  | succ n ih =>
    obtain ⟨i1, i2⟩ := ih (fun i hi => h0 i (by omega)) fun i hi => h i (by omega)
    simp only [List.range_succ, List.foldl_append, List.foldl_cons, List.foldl_nil]
    refine ⟨rnd_nonneg (add_nonneg i1 (h0 n (by omega))), ?_⟩
    rw [i2, h n (by omega)]
    exact addF_big i1 (h0 n (by omega)) (Fl.repr _) (Fl.repr _)

/-- `mag2` with infinities is `mag2` without, unless that is too large. -/
theorem mag2_big (asserts : Bool) (mem : Nat → Fp) (mem' : Nat → Fl binary64) {v : V Fp} (hv : Finite v) (hw : 1 ≤ v.width)
    (hd : v.width ∣ v.dims) :
    ∃ M, mag2 asserts mem' (.vec (flVec v)) = .ok M ∧ 0 ≤ M.val ∧ mag2 asserts mem (.vec v) = .ok (big M.val) := by
  have hp := packets_mul hw hd
  have key := addUp_big v.width (fun l => addUp v.length fun i => v.lane (i * v.width + l) * v.lane (i * v.width + l))
    (fun l => addUp v.length fun i => (flVec v).lane (i * v.width + l) * (flVec v).lane (i * v.width + l))
  have inner : ∀ l, l < v.width → _ := fun l hl =>
    addUp_big v.length (fun i => v.lane (i * v.width + l) * v.lane (i * v.width + l))
      (fun i => (flVec v).lane (i * v.width + l) * (flVec v).lane (i * v.width + l))
      (fun i _ => rnd_nonneg (mul_self_nonneg _)) (fun i hi => by
        have hj : i * v.width + l < v.dims := by
          calc i * v.width + l < i * v.width + v.width := by omega
            _ = (i + 1) * v.width := by ring
            _ ≤ packets v.dims v.width * v.width := Nat.mul_le_mul_right _ hi
            _ = v.dims := hp
        obtain ⟨s, m, e, -, -⟩ := hv _ hj
        show mulF _ _ = big (rnd binary64 (((flVec v).lane _).val * ((flVec v).lane _).val))
        rw [flVec_val hv hj, e, mulF_self, value_sq])
  obtain ⟨k1, k2⟩ := key (fun l hl => (inner l hl).1) fun l hl => (inner l hl).2
  exact ⟨_, rfl, k1, congrArg Out.ok k2⟩

end Verif.Vec
