import Verif.Lemmas.ConstantsZeta
import Mathlib.NumberTheory.EulerProduct.Basic
import Mathlib.Algebra.Order.BigOperators.Ring.Finset

/-! Products over the primes, compared with values of the zeta function. -/

namespace Verif.Constants
open Verif.Ieee

/-! ### Polynomials as lists of coefficients -/

def evalL : List ℤ → ℝ → ℝ
  | [], _ => 0
  | a :: l, x => a + x * evalL l x

def addL : List ℤ → List ℤ → List ℤ
  | [], m => m
  | l, [] => l
  | a :: l, b :: m => (a + b) :: addL l m

def mulL : List ℤ → List ℤ → List ℤ
  | [], _ => []
  | a :: l, m => addL (m.map (a * ·)) (0 :: mulL l m)

theorem evalL_add : ∀ (l m : List ℤ) (x : ℝ), evalL (addL l m) x = evalL l x + evalL m x
  | [], m, x => by simp [addL, evalL]
  | a :: l, [], x => by simp [addL, evalL]
  | a :: l, b :: m, x => by
    simp only [addL, evalL, evalL_add l m x]
    push_cast
    ring

theorem evalL_map (a : ℤ) (m : List ℤ) (x : ℝ) : evalL (m.map (a * ·)) x = a * evalL m x := by
  induction m with
  | nil => simp [evalL]
  | cons b m ih => simp only [List.map_cons, evalL, ih]; push_cast; ring

theorem evalL_mul (l m : List ℤ) (x : ℝ) : evalL (mulL l m) x = evalL l x * evalL m x := by
  induction l with
  | nil => simp [mulL, evalL]
  | cons a l ih => simp only [mulL, evalL_add, evalL_map, evalL, ih]; push_cast; ring

/-- The polynomial with the absolute values of the coefficients. -/
def absL : List ℤ → ℚ → ℚ
  | [], _ => 0
  | a :: l, r => |(a : ℚ)| + r * absL l r

theorem evalL_abs (l : List ℤ) {x : ℝ} {r : ℚ} (h0 : 0 ≤ x) (hr : x ≤ r) : |evalL l x| ≤ (absL l r : ℚ) ∧ (0 : ℝ) ≤ (absL l r : ℚ) := by
  induction l with
  | nil => simp [evalL, absL]
  | cons a l ih =>
    obtain ⟨i1, i2⟩ := ih
    simp only [evalL, absL]
    push_cast
    have hr0 : (0 : ℝ) ≤ r := h0.trans hr
    constructor
    · refine (abs_add_le _ _).trans ?_
      rw [abs_mul, abs_of_nonneg h0]
      gcongr
    · positivity

/-- 1 - x^k -/
def facL (k : ℕ) : List ℤ := 1 :: (List.replicate (k - 1) 0 ++ [-1])

theorem evalL_replicate (k : ℕ) (m : List ℤ) (x : ℝ) : evalL (List.replicate k 0 ++ m) x = x ^ k * evalL m x := by
  induction k with
  | zero => simp
  | succ k ih => simp only [List.replicate_succ, List.cons_append, evalL, ih]; push_cast; ring

theorem evalL_fac {k : ℕ} (hk : 1 ≤ k) (x : ℝ) : evalL (facL k) x = 1 - x ^ k := by
  obtain ⟨k, rfl⟩ := Nat.exists_eq_add_of_le' hk
  simp only [facL, evalL, evalL_replicate, Nat.add_sub_cancel]
  push_cast
  ring

def prodL : List ℕ → List ℤ
  | [] => [1]
  | k :: ks => mulL (facL k) (prodL ks)

/-- The product of 1 - x^k over a list of exponents. -/
def prodR (x : ℝ) : List ℕ → ℝ
  | [] => 1
  | k :: ks => (1 - x ^ k) * prodR x ks

theorem evalL_prod (x : ℝ) (ks : List ℕ) (h : ∀ k ∈ ks, 1 ≤ k) : evalL (prodL ks) x = prodR x ks := by
  induction ks with
  | nil => simp [prodL, prodR, evalL]
  | cons k ks ih =>
    rw [prodL, evalL_mul, evalL_fac (h k (by simp)), ih (fun j hj => h j (by simp [hj])), prodR]

/-- If the first coefficients of the product are those of 1 - 2x and the next is positive, the product bounds 1 - 2x tightly. -/
theorem prod_bounds (ks : List ℕ) (s : ℕ) (c : ℤ) (E : List ℤ) (h : ∀ k ∈ ks, 1 ≤ k) (hp : prodL ks = 1 :: -2 :: (List.replicate s 0 ++ c :: E))
    (hE : absL E (1 / 1000) ≤ 900) (hc : 1 ≤ c) {x : ℝ} (h0 : 0 ≤ x) (h1 : x ≤ 1 / 1000) :
    1 - 2 * x ≤ prodR x ks ∧ prodR x ks * (1 - (2 * c) * x ^ (s + 2)) ≤ 1 - 2 * x := by
  obtain ⟨e1, e2⟩ := evalL_abs E (r := 1 / 1000) h0 (by push_cast; exact h1)
  have hE' : ((absL E (1 / 1000) : ℚ) : ℝ) ≤ 900 := by exact_mod_cast hE
  obtain ⟨e3, e4⟩ := abs_le.1 (e1.trans hE')
  have hv : prodR x ks = 1 - 2 * x + x ^ (s + 2) * (c + x * evalL E x) := by
    rw [← evalL_prod x ks h, hp]
    simp only [evalL, evalL_replicate]
    push_cast
    ring
  have hc' : (1 : ℝ) ≤ c := by exact_mod_cast hc
  have hx : 0 ≤ x ^ (s + 2) := pow_nonneg h0 _
  have hx1 : x ^ (s + 2) ≤ 1 := pow_le_one₀ h0 (by linarith)
  have b1 : -(0.9 : ℝ) ≤ x * evalL E x := by nlinarith
  have b2 : x * evalL E x ≤ 0.9 := by nlinarith
  have lo : 1 - 2 * x ≤ prodR x ks := by rw [hv]; nlinarith
  refine ⟨lo, ?_⟩
  have : prodR x ks * (1 - 2 * c * x ^ (s + 2)) = 1 - 2 * x - x ^ (s + 2) * (2 * c * prodR x ks - (c + x * evalL E x)) := by
    conv_lhs => rw [mul_sub, mul_one]
    nth_rw 1 [hv]
    ring
  rw [this]
  have hq : 0 ≤ 2 * c * prodR x ks - (c + x * evalL E x) := by
    have : (0.998 : ℝ) ≤ prodR x ks := by linarith
    nlinarith
  nlinarith [mul_nonneg hx hq]

/-! ### Euler products -/

/-- Products over primes as products over all numbers. -/
noncomputable def primeProd (f : ℕ → ℝ) (n : ℕ) : ℝ := ∏ p ∈ Nat.primesBelow n, f p

theorem primeProd_succ (f : ℕ → ℝ) (n : ℕ) : primeProd f (n + 1) = primeProd f n * (if n.Prime then f n else 1) := by
  unfold primeProd Nat.primesBelow
  rw [Finset.prod_filter, Finset.prod_filter, Finset.prod_range_succ]

theorem zeta_prod {k : ℕ} (hk : 1 ≤ k) : Filter.Tendsto (primeProd fun p => 1 - 1 / (p : ℝ) ^ (k + 1)) Filter.atTop (nhds (1 / zeta (k + 1))) := by
  let f : ℕ →*₀ ℝ := { toFun := fun n => 1 / (n : ℝ) ^ (k + 1), map_zero' := by simp, map_one' := by simp, map_mul' := by intro a b; push_cast; rw [mul_pow]; rw [one_div_mul_one_div] }
  have hs : Summable (‖f ·‖) := by
    have : (fun n => ‖f n‖) = fun n : ℕ => 1 / (n : ℝ) ^ (k + 1) := by
      funext n
      exact Real.norm_of_nonneg (show (0 : ℝ) ≤ 1 / (n : ℝ) ^ (k + 1) by positivity)
    rw [this]
    exact zeta_summable k hk
  have h := (EulerProduct.eulerProduct_completely_multiplicative hs).inv₀ (by
    have : (∑' n, f n) = zeta (k + 1) := rfl
    rw [this]
    have h1 := (zeta_bounds k 1 hk (by decide)).1
    have h2 : (0 : ℝ) ≤ 1 / (k * (((1 : ℕ) : ℝ) + 1) ^ k) := by positivity
    have h3 : ∑ i ∈ Finset.range (1 + 1), 1 / (i : ℝ) ^ (k + 1) = 1 := by simp [Finset.sum_range_succ]
    rw [h3] at h1
    linarith)
  rw [one_div]
  refine h.congr (fun n => ?_)
  rw [← Finset.prod_inv_distrib]
  simp only [inv_inv]
  rfl

theorem primeProd_mul (f g : ℕ → ℝ) : primeProd (fun p => f p * g p) = fun n => primeProd f n * primeProd g n := by
  funext n; exact Finset.prod_mul_distrib

theorem prodR_tendsto (ks : List ℕ) (h : ∀ k ∈ ks, 2 ≤ k) :
    Filter.Tendsto (primeProd fun p => prodR (1 / (p : ℝ)) ks) Filter.atTop (nhds (ks.map fun k => 1 / zeta k).prod) := by
  induction ks with
  | nil =>
    have : (primeProd fun p => prodR (1 / (p : ℝ)) []) = fun _ => 1 := by funext n; simp [primeProd, prodR]
    rw [this]
    simp
  | cons k ks ih =>
    have e : (primeProd fun p => prodR (1 / (p : ℝ)) (k :: ks)) = fun n => primeProd (fun p => 1 - 1 / (p : ℝ) ^ k) n * primeProd (fun p => prodR (1 / (p : ℝ)) ks) n := by
      rw [← primeProd_mul]
      simp only [prodR, one_div_pow]
    rw [e]
    obtain ⟨j, rfl⟩ : ∃ j, k = j + 1 := ⟨k - 1, by have := h k (by simp); omega⟩
    rw [List.map_cons, List.prod_cons]
    exact (zeta_prod (by have := h (j + 1) (by simp); omega)).mul (ih fun i hi => h i (by simp [hi]))


/-- A product over primes is that of its comparison up to what the terms from 1000 on leave. -/
theorem prod_limit {f H : ℕ → ℝ} {l h c : ℝ} {m : ℕ} (hm : 1 ≤ m) (hf : Filter.Tendsto (primeProd f) Filter.atTop (nhds l))
    (hH : Filter.Tendsto (primeProd H) Filter.atTop (nhds h)) (hc : 0 ≤ c)
    (hpos : ∀ p, 2 ≤ p → 0 < H p) (hfpos : ∀ p, 2 ≤ p → 0 ≤ f p)
    (hb : ∀ p, 1000 ≤ p → f p ≤ H p ∧ H p * (1 - c * (1 / (p : ℝ) ^ (m + 1))) ≤ f p) :
    primeProd (fun p => f p / H p) 1000 * h * (1 - c * (1 / (m * (999 : ℝ) ^ m))) ≤ l ∧ l ≤ primeProd (fun p => f p / H p) 1000 * h := by
  have hq : ∀ n, primeProd (fun p => f p / H p) n * primeProd H n = primeProd f n := by
    intro n
    unfold primeProd
    rw [← Finset.prod_mul_distrib]
    refine Finset.prod_congr rfl fun p hp => ?_
    exact div_mul_cancel₀ _ (hpos p (Nat.prime_of_mem_primesBelow hp).two_le).ne'
  have key : ∀ n, primeProd (fun p => f p / H p) (1000 + n) ≤ primeProd (fun p => f p / H p) 1000 ∧
      primeProd (fun p => f p / H p) 1000 * (1 - c * (1 / (m * (999 : ℝ) ^ m) - 1 / (m * ((999 + n : ℕ) : ℝ) ^ m))) ≤ primeProd (fun p => f p / H p) (1000 + n) ∧
      0 ≤ primeProd (fun p => f p / H p) (1000 + n) := by
    intro n
    induction n with
    | zero =>
      have : 0 ≤ primeProd (fun p => f p / H p) 1000 := Finset.prod_nonneg fun p hp =>
        div_nonneg (hfpos p (Nat.prime_of_mem_primesBelow hp).two_le) (hpos p (Nat.prime_of_mem_primesBelow hp).two_le).le
      simp [this]
    | succ n ih =>
      obtain ⟨i1, i2, i3⟩ := ih
      rw [← Nat.add_assoc, primeProd_succ _ (1000 + n)]
      have hstep := rest_step_hi m hm (t := (999 : ℝ) + n) (add_pos_of_pos_of_nonneg (by norm_num) (Nat.cast_nonneg n))
      have hstep' : 1 / ((1000 + n : ℕ) : ℝ) ^ (m + 1) ≤ 1 / (m * ((999 + n : ℕ) : ℝ) ^ m) - 1 / (m * ((999 + (n + 1) : ℕ) : ℝ) ^ m) := by
        push_cast
        rw [show (999 : ℝ) + n + 1 = 1000 + n from by ring] at hstep
        rw [show (999 : ℝ) + (n + 1) = 1000 + n from by ring]
        exact hstep
      have hR0 : 0 ≤ primeProd (fun p => f p / H p) 1000 := i3.trans i1
      have ht : 0 ≤ 1 / ((1000 + n : ℕ) : ℝ) ^ (m + 1) := by positivity
      generalize primeProd (fun p => f p / H p) (1000 + n) = R at *
      generalize primeProd (fun p => f p / H p) 1000 = R0 at *
      obtain ⟨b1, b2⟩ := hb (1000 + n) (by omega)
      have hHp := hpos (1000 + n) (by omega)
      have hfp := hfpos (1000 + n) (by omega)
      generalize 1 / ((1000 + n : ℕ) : ℝ) ^ (m + 1) = t at *
      generalize 1 / (m * ((999 + n : ℕ) : ℝ) ^ m) = a at *
      generalize 1 / (m * ((999 + (n + 1) : ℕ) : ℝ) ^ m) = b at *
      generalize 1 / (m * (999 : ℝ) ^ m) = z at *
      have hq : ∃ q, (if (1000 + n).Prime then f (1000 + n) / H (1000 + n) else 1) = q ∧ 0 ≤ q ∧ q ≤ 1 ∧ 1 - c * t ≤ q := by
        split
        · refine ⟨_, rfl, div_nonneg hfp hHp.le, (div_le_one hHp).2 b1, ?_⟩
          rw [le_div_iff₀ hHp]
          linarith
        · exact ⟨1, rfl, by norm_num, le_rfl, by nlinarith [mul_nonneg hc ht]⟩
      obtain ⟨q, e, q0, q1, q2⟩ := hq
      rw [e]
      refine ⟨by nlinarith, ?_, mul_nonneg i3 q0⟩
      have s1 : R * (1 - c * t) ≤ R * q := mul_le_mul_of_nonneg_left q2 i3
      have s2 : R * (c * t) ≤ R0 * (c * (a - b)) := mul_le_mul i1 (mul_le_mul_of_nonneg_left hstep' hc) (mul_nonneg hc ht) hR0
      nlinarith
  have hR0 : 0 ≤ primeProd (fun p => f p / H p) 1000 := (key 0).2.2
  have hW : ∀ n, 0 ≤ primeProd H n := fun n => Finset.prod_nonneg fun p hp => (hpos p (Nat.prime_of_mem_primesBelow hp).two_le).le
  constructor
  · have h1 : Filter.Tendsto (fun n => primeProd (fun p => f p / H p) 1000 * primeProd H n * (1 - c * (1 / (m * (999 : ℝ) ^ m)))) Filter.atTop
        (nhds (primeProd (fun p => f p / H p) 1000 * h * (1 - c * (1 / (m * (999 : ℝ) ^ m))))) := (hH.const_mul _).mul_const _
    refine le_of_tendsto_of_tendsto h1 hf ?_
    filter_upwards [Filter.eventually_ge_atTop 1000] with n hn
    obtain ⟨n, rfl⟩ := Nat.exists_eq_add_of_le hn
    obtain ⟨-, k2, -⟩ := key n
    rw [← hq]
    have hr : (0 : ℝ) ≤ 1 / (m * ((999 + n : ℕ) : ℝ) ^ m) := by positivity
    have k3 : primeProd (fun p => f p / H p) 1000 * (1 - c * (1 / (m * (999 : ℝ) ^ m))) ≤ primeProd (fun p => f p / H p) (1000 + n) := by
      refine le_trans (mul_le_mul_of_nonneg_left ?_ hR0) k2
      nlinarith
    nlinarith [mul_le_mul_of_nonneg_right k3 (hW (1000 + n))]
  · refine le_of_tendsto_of_tendsto hf (hH.const_mul _) ?_
    filter_upwards [Filter.eventually_ge_atTop 1000] with n hn
    obtain ⟨n, rfl⟩ := Nat.exists_eq_add_of_le hn
    rw [← hq]
    exact mul_le_mul_of_nonneg_right (key n).1 (hW _)

/-! ### Computing the first terms -/

/-- Primality of numbers below 1024. -/
def isP (n : ℕ) : Bool := decide (2 ≤ n) && (List.range 32).all fun d => decide (d < 2) || decide (n % d ≠ 0) || decide (d = n)

theorem isP_iff {n : ℕ} (hn : n < 1024) : isP n = true ↔ n.Prime := by
  simp only [isP, Bool.and_eq_true, decide_eq_true_eq, List.all_eq_true, List.mem_range, Bool.or_eq_true]
  constructor
  · rintro ⟨h2, h⟩
    by_contra hp
    have hm := Nat.minFac_sq_le_self (by omega : 0 < n) hp
    have hlt : n.minFac < 32 := by nlinarith
    rcases h _ hlt with (h1 | h1) | h1
    · exact absurd (Nat.minFac_prime (by omega : n ≠ 1)).two_le (by omega)
    · exact h1 (Nat.mod_eq_zero_of_dvd (Nat.minFac_dvd n))
    · exact hp (h1 ▸ Nat.minFac_prime (by omega : n ≠ 1))
  · intro hp
    refine ⟨hp.two_le, fun d _ => ?_⟩
    by_cases h1 : d < 2
    · exact .inl (.inl h1)
    · by_cases h2 : n % d = 0
      · rcases (Nat.dvd_prime hp).1 (Nat.dvd_of_mod_eq_zero h2) with h | h
        · omega
        · exact .inr h
      · exact .inl (.inr h2)

def prodLo (q : ℕ → ℚ) : ℕ → ℤ
  | 0 => 2 ^ 100
  | n + 1 => if isP n then ⌊prodLo q n * q n⌋ else prodLo q n

def prodHi (q : ℕ → ℚ) : ℕ → ℤ
  | 0 => 2 ^ 100
  | n + 1 => if isP n then ⌈prodHi q n * q n⌉ else prodHi q n

theorem btw_primeProd (q : ℕ → ℚ) {f : ℕ → ℝ} (hf : ∀ p, 2 ≤ p → f p = q p) (h0 : ∀ p, 2 ≤ p → 0 ≤ q p) :
    ∀ n ≤ 1000, Btw (prodLo q n / 2 ^ 100) (prodHi q n / 2 ^ 100) (primeProd f n) := by
  intro n hn
  induction n with
  | zero => simp [prodLo, prodHi, Btw, primeProd, Nat.primesBelow]; norm_num
  | succ n ih =>
    have hi := ih (by omega)
    rw [primeProd_succ, prodLo, prodHi]
    by_cases hp : n.Prime
    · have hq := h0 n hp.two_le
      rw [if_pos hp, if_pos ((isP_iff (by omega)).2 hp), if_pos ((isP_iff (by omega)).2 hp), hf n hp.two_le]
      obtain ⟨i1, i2⟩ := hi
      have hq' : (0 : ℝ) ≤ q n := by exact_mod_cast hq
      constructor
      · have h1 : ((⌊prodLo q n * q n⌋ : ℤ) : ℚ) / 2 ^ 100 ≤ prodLo q n / 2 ^ 100 * q n := by
          rw [div_mul_eq_mul_div]
          exact div_le_div_of_nonneg_right (Int.floor_le _) (by positivity)
        refine le_trans (Rat.cast_le (K := ℝ).2 h1) ?_
        rw [Rat.cast_mul]
        exact mul_le_mul_of_nonneg_right i1 hq'
      · have h1 : prodHi q n / 2 ^ 100 * q n ≤ ((⌈prodHi q n * q n⌉ : ℤ) : ℚ) / 2 ^ 100 := by
          rw [div_mul_eq_mul_div]
          exact div_le_div_of_nonneg_right (Int.le_ceil _) (by positivity)
        refine le_trans ?_ (Rat.cast_le (K := ℝ).2 h1)
        rw [Rat.cast_mul]
        exact mul_le_mul_of_nonneg_right i2 hq'
    · have hp' : ¬ isP n = true := fun h => hp ((isP_iff (by omega)).1 h)
      rw [if_neg hp, if_neg hp', if_neg hp', mul_one]
      exact hi

/-! ### Comparison with the zeta function -/

def prodQ (x : ℚ) : List ℕ → ℚ
  | [] => 1
  | k :: ks => (1 - x ^ k) * prodQ x ks

theorem prodR_cast (x : ℚ) (ks : List ℕ) : prodR (x : ℝ) ks = (prodQ x ks : ℚ) := by
  induction ks with
  | nil => simp [prodR, prodQ]
  | cons k ks ih => simp only [prodR, prodQ, ih]; push_cast; rfl

theorem prodQ_pos {x : ℚ} (h0 : 0 ≤ x) (h1 : x < 1) (ks : List ℕ) (h : ∀ k ∈ ks, 1 ≤ k) : 0 < prodQ x ks := by
  induction ks with
  | nil => simp [prodQ]
  | cons k ks ih =>
    rw [prodQ]
    have : x ^ k < 1 := pow_lt_one₀ h0 h1 (by have := h k (by simp); omega)
    exact mul_pos (by linarith) (ih fun j hj => h j (by simp [hj]))

theorem primeProd_converges {f : ℕ → ℝ} (h0 : ∀ p, 2 ≤ p → 0 ≤ f p) (h1 : ∀ p, 2 ≤ p → f p ≤ 1) :
    ∃ l, Filter.Tendsto (primeProd f) Filter.atTop (nhds l) := by
  have hn : ∀ n, 0 ≤ primeProd f n := fun n => Finset.prod_nonneg fun p hp => h0 p (Nat.prime_of_mem_primesBelow hp).two_le
  refine ⟨_, tendsto_atTop_ciInf (antitone_nat_of_succ_le fun n => ?_) ⟨0, ?_⟩⟩
  · rw [primeProd_succ]
    split
    · next hp => exact mul_le_of_le_one_right (hn n) (h1 n hp.two_le)
    · rw [mul_one]
  · rintro _ ⟨n, rfl⟩
    exact hn n

/-- A limit of products over primes between rational numbers, by comparison with values of the zeta function. -/
theorem btw_limit (q : ℕ → ℚ) {f : ℕ → ℝ} {l : ℝ} {c : ℚ} {m : ℕ} (ks : List ℕ) (hks : ∀ k ∈ ks, 2 ≤ k) (hm : 1 ≤ m)
    (hf : Filter.Tendsto (primeProd f) Filter.atTop (nhds l)) (hq : ∀ p, 2 ≤ p → f p = q p) (h0 : ∀ p, 2 ≤ p → 0 ≤ q p) (hc : 0 ≤ c)
    (hb : ∀ p, 1000 ≤ p → f p ≤ prodR (1 / (p : ℝ)) ks ∧ prodR (1 / (p : ℝ)) ks * (1 - c * (1 / (p : ℝ) ^ (m + 1))) ≤ f p)
    {a b zl zh : ℚ} (ha : 0 ≤ a) (hal : a ≤ prodLo (fun p => q p / prodQ (1 / p) ks) 1000 / 2 ^ 100)
    (hbh : prodHi (fun p => q p / prodQ (1 / p) ks) 1000 / 2 ^ 100 ≤ b)
    (hz : Btw zl zh (ks.map fun k => 1 / zeta k).prod) (hz0 : 0 ≤ zl) (hsmall : c * (1 / (m * 999 ^ m)) ≤ 1) :
    Btw (a * zl * (1 - c * (1 / (m * 999 ^ m)))) (b * zh) l := by
  have hx : ∀ p : ℕ, prodR (1 / (p : ℝ)) ks = ((prodQ (1 / (p : ℚ)) ks : ℚ) : ℝ) := by
    intro p
    have := prodR_cast (1 / (p : ℚ)) ks
    push_cast at this
    exact this
  have hpos : ∀ p : ℕ, 2 ≤ p → 0 < prodQ (1 / (p : ℚ)) ks := by
    intro p hp
    have : (2 : ℚ) ≤ p := by exact_mod_cast hp
    refine prodQ_pos (by positivity) ?_ ks (fun k hk => by have := hks k hk; omega)
    rw [div_lt_one (by linarith)]
    linarith
  obtain ⟨l1, l2⟩ := prod_limit (f := f) (H := fun p => prodR (1 / (p : ℝ)) ks) (c := c) hm hf (prodR_tendsto ks hks) (by exact_mod_cast hc)
    (fun p hp => by rw [hx]; exact_mod_cast hpos p hp) (fun p hp => by rw [hq p hp]; exact_mod_cast h0 p hp) hb
  have hR := (btw_primeProd (fun p => q p / prodQ (1 / p) ks) (f := fun p => f p / prodR (1 / (p : ℝ)) ks)
    (fun p hp => by rw [hq p hp, hx]; push_cast; rfl) (fun p hp => div_nonneg (h0 p hp) (hpos p hp).le) 1000 le_rfl).widen hal hbh
  obtain ⟨r1, r2⟩ := hR
  obtain ⟨z1, z2⟩ := hz
  have ha' : (0 : ℝ) ≤ a := by exact_mod_cast ha
  have hz0' : (0 : ℝ) ≤ zl := by exact_mod_cast hz0
  have hs' : (c : ℝ) * (1 / (m * 999 ^ m)) ≤ 1 := by
    have := Rat.cast_le (K := ℝ).2 hsmall
    push_cast at this
    exact this
  constructor
  · refine le_trans ?_ l1
    push_cast
    exact mul_le_mul_of_nonneg_right (mul_le_mul r1 z1 hz0' (ha'.trans r1)) (by linarith)
  · refine l2.trans ?_
    push_cast
    exact mul_le_mul r2 z2 (hz0'.trans z1) ((ha'.trans r1).trans r2)

end Verif.Constants
