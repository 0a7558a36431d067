import Verif.Model.Fl
import Verif.Spec.FloatSum
import Verif.Lemmas.IeeeRel
import Verif.Lemmas.ErrFree
import Mathlib.Algebra.Order.BigOperators.Group.List
import Mathlib.Tactic.Linarith

/-!
# Error of sums of products in floating-point arithmetic
-/

namespace Verif.Ieee

variable {f : Fmt} {x y v : ℚ} {l l' : List (ℚ × ℚ)}

theorem unit_pos (f : Fmt) : 0 < unitRoundoff f := two_zpow_pos _

theorem tiny_pos (f : Fmt) : 0 < halfTiny f := two_zpow_pos _

theorem unit_le_quarter (f : Fmt) : unitRoundoff f ≤ 1 / 4 := by
  have : (2 : ℚ) ^ (-(f.p : Int)) ≤ 2 ^ (-2 : Int) := zpow_le_zpow.2 (by have := f.hp; omega)
  have e : (2 : ℚ) ^ (-2 : Int) = 1 / 4 := by norm_num
  rw [e] at this
  exact this

/-- Any rounding: relative in the normal range, half of the smallest number below. -/
theorem rnd_err (f : Fmt) (x : ℚ) : |rnd f x - x| ≤ unitRoundoff f * |x| + halfTiny f := by
  by_cases h : (2 : ℚ) ^ (f.emin + f.p - 1) ≤ |x|
  · have := rnd_rel h
    have := tiny_pos f
    unfold unitRoundoff
    linarith
  · push Not at h
    have h0 : 0 ≤ unitRoundoff f * |x| := mul_nonneg (unit_pos f).le (abs_nonneg x)
    by_cases hx : x = 0
    · subst hx
      rw [rnd_zero, sub_zero, abs_zero, mul_zero, zero_add]
      exact (tiny_pos f).le
    · have hE : ulpExp f x ≤ f.emin := by
        refine ulpExp_le hx le_rfl (lt_of_lt_of_le h (zpow_le_zpow.2 (by omega)))
      have h1 := rnd_close f x
      have h2 : (2 : ℚ) ^ ulpExp f x ≤ 2 ^ f.emin := zpow_le_zpow.2 hE
      have e : halfTiny f = 2 ^ f.emin / 2 := by
        unfold halfTiny
        rw [zpow_sub₀ (by norm_num)]
        norm_num
      rw [e]
      linarith

/-- Multiples of the smallest number: nothing is lost below the normal range. -/
theorem rnd_mult_err (hm : Mult f.emin x) : |rnd f x - x| ≤ unitRoundoff f * |x| := by
  by_cases h : (2 : ℚ) ^ (f.emin + f.p - 1) ≤ |x|
  · exact rnd_rel h
  · push Not at h
    have : Repr f x := repr_of_mult hm le_rfl (le_of_lt (lt_of_lt_of_le h (zpow_le_zpow.2 (by omega))))
    rw [rnd_of_repr this, sub_self, abs_zero]
    exact mul_nonneg (unit_pos f).le (abs_nonneg _)

theorem mult_emin (hx : Repr f x) : Mult f.emin x := (mult_repr hx).mono (ulpExp_ge f x)

/-- Additions are of this kind. -/
theorem rnd_add_err (hx : Repr f x) (hy : Repr f y) : |rnd f (x + y) - (x + y)| ≤ unitRoundoff f * |x + y| :=
  rnd_mult_err ((mult_emin hx).add (mult_emin hy))

/-- So are products with integers. -/
theorem rnd_mul_int_err (hx : Repr f x) (n : Int) : |rnd f (x * n) - x * n| ≤ unitRoundoff f * |x * n| := by
  refine rnd_mult_err ?_
  obtain ⟨m, hm⟩ := mult_emin hx
  exact ⟨m * n, by rw [hm]; push_cast; ring⟩

theorem SumOf.repr (h : SumOf f l v) : Repr f v := by
  induction h with
  | empty => exact repr_zero f
  | product a b => exact repr_rnd f _
  | add _ _ _ _ => exact repr_rnd f _
  | fused _ _ _ _ => exact repr_rnd f _
  | reorder _ _ ih => exact ih

theorem SumOf.eq_zero (h : SumOf f l v) (hl : l = []) : v = 0 := by
  induction h with
  | empty => rfl
  | product a b => cases hl
  | add _ _ ih ih' =>
    obtain ⟨h1, h2⟩ := List.append_eq_nil_iff.1 hl
    rw [ih h1, ih' h2, add_zero, rnd_zero]
  | fused _ _ _ _ =>
    obtain ⟨h1, h2⟩ := List.append_eq_nil_iff.1 hl
    cases h2
  | reorder p _ ih =>
    subst hl
    exact ih p.eq_nil

theorem exactSum_append : exactSum (l ++ l') = exactSum l + exactSum l' := by simp [exactSum]

theorem magnitudeSum_append : magnitudeSum (l ++ l') = magnitudeSum l + magnitudeSum l' := by simp [magnitudeSum]

theorem magnitudeSum_nonneg (l : List (ℚ × ℚ)) : 0 ≤ magnitudeSum l :=
  List.sum_nonneg fun x hx => by
    obtain ⟨p, -, rfl⟩ := List.mem_map.1 hx
    exact abs_nonneg _

theorem abs_exactSum_le (l : List (ℚ × ℚ)) : |exactSum l| ≤ magnitudeSum l := by
  induction l with
  | nil => simp [exactSum, magnitudeSum]
  | cons p l ih =>
    simp only [exactSum, magnitudeSum, List.map_cons, List.sum_cons] at ih ⊢
    exact le_trans (abs_add_le _ _) (by linarith)

theorem exactSum_perm (h : l.Perm l') : exactSum l = exactSum l' := (h.map _).sum_eq

theorem magnitudeSum_perm (h : l.Perm l') : magnitudeSum l = magnitudeSum l' := (h.map _).sum_eq

/-- One more rounding of a quantity `s` near `S`. -/
theorem err_step {u r s S T e d h : ℚ} (hu : 0 ≤ u) (h1 : |r - s| ≤ u * |s| + h) (h2 : |s - S| ≤ e * T + d) (h3 : |S| ≤ T) :
    |r - S| ≤ ((1 + u) * (1 + e) - 1) * T + ((1 + u) * d + h) := by
  have a1 : |r - S| ≤ |r - s| + |s - S| := by
    have := abs_add_le (r - s) (s - S)
    rwa [sub_add_sub_cancel] at this
  have a2 : |s| ≤ |S| + |s - S| := by
    have := abs_add_le S (s - S)
    rwa [add_sub_cancel] at this
  have a3 : u * |s| ≤ u * (T + (e * T + d)) := mul_le_mul_of_nonneg_left (by linarith) hu
  have e1 : ((1 + u) * (1 + e) - 1) * T + ((1 + u) * d + h) = u * (T + (e * T + d)) + h + (e * T + d) := by ring
  rw [e1]
  linarith

/-- The error bound with `n` roundings on each term. -/
def sumBound (f : Fmt) (n : Nat) (T : ℚ) : ℚ := ((1 + unitRoundoff f) ^ n - 1) * T + n * (1 + unitRoundoff f) ^ n * halfTiny f

theorem one_le_pow_unit (f : Fmt) (n : Nat) : 1 ≤ (1 + unitRoundoff f) ^ n :=
  one_le_pow₀ (by have := unit_pos f; linarith)

theorem pow_unit_mono (f : Fmt) {n m : Nat} (h : n ≤ m) : (1 + unitRoundoff f) ^ n ≤ (1 + unitRoundoff f) ^ m :=
  pow_le_pow_right₀ (by have := unit_pos f; linarith) h

theorem sumBound_add (f : Fmt) {n n' m : Nat} {T T' : ℚ} (hT : 0 ≤ T) (hT' : 0 ≤ T') (h : n ≤ m) (h' : n' ≤ m) :
    sumBound f n T + sumBound f n' T' ≤ ((1 + unitRoundoff f) ^ m - 1) * (T + T') +
      (n + n' : Nat) * (1 + unitRoundoff f) ^ m * halfTiny f := by
  have p := pow_unit_mono f h
  have p' := pow_unit_mono f h'
  have t := tiny_pos f
  have a1 := mul_le_mul_of_nonneg_right p hT
  have a2 := mul_le_mul_of_nonneg_right p' hT'
  have a3 : (n : ℚ) * (1 + unitRoundoff f) ^ n * halfTiny f ≤ n * (1 + unitRoundoff f) ^ m * halfTiny f := by gcongr
  have a4 : (n' : ℚ) * (1 + unitRoundoff f) ^ n' * halfTiny f ≤ n' * (1 + unitRoundoff f) ^ m * halfTiny f := by gcongr
  unfold sumBound
  push_cast
  linarith

/-- The error of any evaluation of a sum of products. -/
theorem SumOf.error (h : SumOf f l v) : |v - exactSum l| ≤ sumBound f l.length (magnitudeSum l) := by
  have hu := unit_pos f
  have ht := tiny_pos f
  induction h with
  | empty => simp [exactSum, magnitudeSum, sumBound]
  | product a b =>
    have := rnd_err f (a * b)
    simp only [exactSum, magnitudeSum, sumBound, List.map_cons, List.map_nil, List.sum_cons, List.sum_nil, add_zero, List.length_cons,
      List.length_nil, zero_add, pow_one, Nat.cast_one]
    have : 0 ≤ unitRoundoff f * halfTiny f := mul_nonneg hu.le ht.le
    linarith
  | @add l l' v v' h h' ih ih' =>
    by_cases hl : l = []
    · rw [h.eq_zero hl, zero_add, rnd_of_repr h'.repr, hl]
      exact ih'
    by_cases hl' : l' = []
    · rw [h'.eq_zero hl', add_zero, rnd_of_repr h.repr, hl', List.append_nil]
      exact ih
    have n1 : 0 < l.length := List.length_pos_iff.2 hl
    have n2 : 0 < l'.length := List.length_pos_iff.2 hl'
    obtain ⟨m, hm⟩ : ∃ m, (l ++ l').length = m + 1 := ⟨l.length + l'.length - 1, by simp; omega⟩
    have hm' : l.length + l'.length = m + 1 := by simpa using hm
    have b := sumBound_add f (magnitudeSum_nonneg l) (magnitudeSum_nonneg l') (n := l.length) (n' := l'.length) (m := m) (by omega) (by omega)
    have s1 : |v + v' - exactSum (l ++ l')| ≤ ((1 + unitRoundoff f) ^ m - 1) * magnitudeSum (l ++ l') +
        (l.length + l'.length : Nat) * (1 + unitRoundoff f) ^ m * halfTiny f := by
      rw [exactSum_append, magnitudeSum_append, show v + v' - (exactSum l + exactSum l') = (v - exactSum l) + (v' - exactSum l') by ring]
      exact le_trans (abs_add_le _ _) (by linarith)
    have s2 := err_step hu.le (h := 0) (by rw [add_zero]; exact rnd_add_err h.repr h'.repr) s1 (abs_exactSum_le _)
    refine le_trans s2 (le_of_eq ?_)
    unfold sumBound
    rw [hm, hm', pow_succ]
    ring
  | @fused l v a b h ih =>
    have e1 := exactSum_append (l := l) (l' := [(a, b)])
    have e2 := magnitudeSum_append (l := l) (l' := [(a, b)])
    have e3 : exactSum [(a, b)] = a * b := by simp [exactSum]
    have e4 : magnitudeSum [(a, b)] = |a * b| := by simp [magnitudeSum]
    have g := sumBound_add f (magnitudeSum_nonneg l) (abs_nonneg (a * b)) (n := l.length) (n' := 0) (m := l.length) (by omega) (by omega)
    have z : sumBound f 0 |a * b| = 0 := by simp [sumBound]
    have s1 : |v + a * b - exactSum (l ++ [(a, b)])| ≤ ((1 + unitRoundoff f) ^ l.length - 1) * magnitudeSum (l ++ [(a, b)]) +
        (l.length + 0 : Nat) * (1 + unitRoundoff f) ^ l.length * halfTiny f := by
      rw [e1, e2, e3, e4, add_sub_add_right_eq_sub]
      linarith
    have s2 := err_step hu.le (rnd_err f (v + a * b)) s1 (abs_exactSum_le _)
    refine le_trans s2 ?_
    have p := one_le_pow_unit f (l.length + 1)
    have p' : halfTiny f ≤ (1 + unitRoundoff f) ^ (l.length + 1) * halfTiny f := le_mul_of_one_le_left ht.le p
    unfold sumBound
    rw [List.length_append, List.length_singleton]
    push_cast
    rw [pow_succ] at p' ⊢
    linarith
  | reorder p _ ih => rwa [← exactSum_perm p, ← magnitudeSum_perm p, ← p.length_eq]

/-- The error of any evaluation of a sum of numbers of the format (products that are exact): one rounding less, and no underflow. -/
theorem SumOf.error_exact (h : SumOf f l v) (hl : ∀ p ∈ l, Repr f (p.1 * p.2)) :
    |v - exactSum l| ≤ ((1 + unitRoundoff f) ^ (l.length - 1) - 1) * magnitudeSum l := by
  have hu := unit_pos f
  have mono : ∀ {n m : Nat} (T : ℚ), 0 ≤ T → n ≤ m → ((1 + unitRoundoff f) ^ n - 1) * T ≤ ((1 + unitRoundoff f) ^ m - 1) * T := by
    intro n m T hT h
    have := mul_le_mul_of_nonneg_right (pow_unit_mono f h) hT
    linarith
  induction h with
  | empty => simp [exactSum, magnitudeSum]
  | product a b =>
    rw [rnd_of_repr (hl (a, b) (by simp))]
    simp [exactSum]
  | @add l l' v v' h h' ih ih' =>
    have ih := ih fun p hp => hl p (List.mem_append_left _ hp)
    have ih' := ih' fun p hp => hl p (List.mem_append_right _ hp)
    by_cases hl : l = []
    · rw [h.eq_zero hl, zero_add, rnd_of_repr h'.repr, hl]
      exact ih'
    by_cases hl' : l' = []
    · rw [h'.eq_zero hl', add_zero, rnd_of_repr h.repr, hl', List.append_nil]
      exact ih
    have n1 : 0 < l.length := List.length_pos_iff.2 hl
    have n2 : 0 < l'.length := List.length_pos_iff.2 hl'
    obtain ⟨m, hm⟩ : ∃ m, l.length + l'.length = m + 2 := ⟨l.length + l'.length - 2, by omega⟩
    have b1 := le_trans ih (mono _ (magnitudeSum_nonneg l) (show l.length - 1 ≤ m by omega))
    have b2 := le_trans ih' (mono _ (magnitudeSum_nonneg l') (show l'.length - 1 ≤ m by omega))
    have s1 : |v + v' - exactSum (l ++ l')| ≤ ((1 + unitRoundoff f) ^ m - 1) * magnitudeSum (l ++ l') + 0 := by
      rw [exactSum_append, magnitudeSum_append, show v + v' - (exactSum l + exactSum l') = (v - exactSum l) + (v' - exactSum l') by ring]
      exact le_trans (abs_add_le _ _) (by linarith)
    have s2 := err_step hu.le (h := 0) (by rw [add_zero]; exact rnd_add_err h.repr h'.repr) s1 (abs_exactSum_le _)
    refine le_trans s2 (le_of_eq ?_)
    rw [List.length_append, hm, show m + 2 - 1 = m + 1 by omega, pow_succ]
    ring
  | @fused l v a b h ih =>
    have ih := ih fun p hp => hl p (List.mem_append_left _ hp)
    have hab : Repr f (a * b) := hl (a, b) (by simp)
    by_cases hl : l = []
    · rw [h.eq_zero hl, zero_add, rnd_of_repr hab, hl]
      simp [exactSum]
    have n1 : 0 < l.length := List.length_pos_iff.2 hl
    obtain ⟨m, hm⟩ : ∃ m, l.length = m + 1 := ⟨l.length - 1, by omega⟩
    have e1 := exactSum_append (l := l) (l' := [(a, b)])
    have e2 := magnitudeSum_append (l := l) (l' := [(a, b)])
    have e3 : exactSum [(a, b)] = a * b := by simp [exactSum]
    have e4 : magnitudeSum [(a, b)] = |a * b| := by simp [magnitudeSum]
    rw [hm, Nat.add_sub_cancel] at ih
    have s1 : |v + a * b - exactSum (l ++ [(a, b)])| ≤ ((1 + unitRoundoff f) ^ m - 1) * magnitudeSum (l ++ [(a, b)]) + 0 := by
      rw [e1, e2, e3, e4, add_sub_add_right_eq_sub]
      have : 0 ≤ ((1 + unitRoundoff f) ^ m - 1) * |a * b| :=
        mul_nonneg (by linarith [one_le_pow_unit f m]) (abs_nonneg _)
      linarith
    have s2 := err_step hu.le (h := 0) (by rw [add_zero]; exact rnd_add_err h.repr hab) s1 (abs_exactSum_le _)
    refine le_trans s2 (le_of_eq ?_)
    rw [List.length_append, List.length_singleton, hm, Nat.add_sub_cancel, pow_succ]
    ring
  | reorder p _ ih =>
    rw [← exactSum_perm p, ← magnitudeSum_perm p, ← p.length_eq]
    exact ih fun q hq => hl q (p.mem_iff.1 hq)

/-- Sums of terms that are not negative are not negative. -/
theorem SumOf.nonneg (h : SumOf f l v) (hl : ∀ p ∈ l, 0 ≤ p.1 * p.2) : 0 ≤ v := by
  induction h with
  | empty => exact le_rfl
  | product a b => exact rnd_nonneg (hl (a, b) (by simp))
  | add _ _ ih ih' =>
    exact rnd_nonneg (add_nonneg (ih fun p hp => hl p (List.mem_append_left _ hp)) (ih' fun p hp => hl p (List.mem_append_right _ hp)))
  | fused a b _ ih => exact rnd_nonneg (add_nonneg (ih fun p hp => hl p (List.mem_append_left _ hp)) (hl (a, b) (by simp)))
  | reorder p _ ih => exact ih fun q hq => hl q (p.mem_iff.1 hq)

/-- The usual form of the constant. -/
theorem pow_unit_le {u : ℚ} {n : Nat} (hu : 0 ≤ u) (h : n * u < 1) : (1 + u) ^ n - 1 ≤ n * u / (1 - n * u) := by
  have key : (1 + u) ^ n * (1 - n * u) ≤ 1 := by
    clear h
    induction n with
    | zero => simp
    | succ n ih =>
      have hp : 0 ≤ (1 + u) ^ n := by positivity
      have : (1 + u) * (1 - (n + 1 : Nat) * u) ≤ 1 - n * u := by
        push_cast
        have h2 : 0 ≤ (n : ℚ) * (u * u) := by positivity
        have h3 : 0 ≤ u * u := mul_nonneg hu hu
        linarith
      calc (1 + u) ^ (n + 1) * (1 - (n + 1 : Nat) * u) = (1 + u) ^ n * ((1 + u) * (1 - (n + 1 : Nat) * u)) := by ring
        _ ≤ (1 + u) ^ n * (1 - n * u) := mul_le_mul_of_nonneg_left this hp
        _ ≤ 1 := ih
  have hd : 0 < 1 - n * u := by linarith
  rw [le_div_iff₀ hd]
  linarith

/-- Integers: nothing is rounded. -/
theorem SumOf.exact (h : SumOf f l v) (he : f.emin ≤ 0) (hi : ∀ p ∈ l, ∃ n : Int, p.1 * p.2 = n) (hm : magnitudeSum l ≤ 2 ^ f.p) :
    v = exactSum l := by
  have rep : ∀ l : List (ℚ × ℚ), (∀ p ∈ l, ∃ n : Int, p.1 * p.2 = n) → magnitudeSum l ≤ 2 ^ f.p → rnd f (exactSum l) = exactSum l := by
    intro l hi hm
    obtain ⟨n, hn⟩ : ∃ n : Int, exactSum l = n := by
      clear hm
      induction l with
      | nil => exact ⟨0, by simp [exactSum]⟩
      | cons p l ih =>
        obtain ⟨a, ha⟩ := hi p (by simp)
        obtain ⟨b, hb⟩ := ih fun q hq => hi q (List.mem_cons_of_mem _ hq)
        refine ⟨a + b, ?_⟩
        simp only [exactSum, List.map_cons, List.sum_cons] at hb ⊢
        rw [hb, ha]
        push_cast
        rfl
    rw [hn]
    refine rnd_of_repr (repr_int he ?_)
    have := le_trans (abs_exactSum_le l) hm
    rw [hn] at this
    exact_mod_cast this
  induction h with
  | empty => simp [exactSum]
  | product a b =>
    have := rep [(a, b)] hi hm
    simpa [exactSum] using this
  | @add l l' v v' _ _ ih ih' =>
    rw [magnitudeSum_append] at hm
    have n1 := magnitudeSum_nonneg l
    have n2 := magnitudeSum_nonneg l'
    rw [ih (fun p hp => hi p (List.mem_append_left _ hp)) (by linarith), ih' (fun p hp => hi p (List.mem_append_right _ hp)) (by linarith),
      ← exactSum_append]
    exact rep _ hi (by rw [magnitudeSum_append]; exact hm)
  | @fused l v a b _ ih =>
    have hm' := hm
    rw [magnitudeSum_append] at hm
    have n2 := magnitudeSum_nonneg [(a, b)]
    rw [ih (fun p hp => hi p (List.mem_append_left _ hp)) (by linarith), show a * b = exactSum [(a, b)] by simp [exactSum], ← exactSum_append]
    exact rep _ hi hm'
  | reorder p _ ih =>
    rw [← exactSum_perm p]
    exact ih (fun q hq => hi q (p.mem_iff.1 hq)) (by rw [magnitudeSum_perm p]; exact hm)

/-- The loop of the library: from left to right, starting with 0. -/
theorem SumOf.loop (f : Fmt) (n : Nat) (a b : Nat → Fl f) :
    SumOf f ((List.range n).map fun l => ((a l).val, (b l).val)) ((List.range n).foldl (fun acc l => acc + a l * b l) 0).val := by
  induction n with
  | zero => exact .empty
  | succ n ih =>
    rw [List.range_succ, List.map_append, List.foldl_append]
    exact .add ih (.product _ _)

end Verif.Ieee
