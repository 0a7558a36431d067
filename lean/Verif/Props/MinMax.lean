import Verif.Lemmas.Num

/-! Property theorems for the scalar helpers `min`, `max`, `abs`, `mod`, `floor` and `ceil` (C114). -/

namespace Verif.Num

open Verif.Ieee

/-- `v` is the value of one of the arguments, and no argument is less. -/
def Least (args : List (Ty × Val)) (v : Val) : Prop :=
  (∃ p ∈ args, p.2 = v) ∧ ∃ k, v.key = some k ∧ ∀ p ∈ args, ∃ x, p.2.key = some x ∧ k ≤ x

/-- `v` is the value of one of the arguments, and no argument is greater. -/
def Greatest (args : List (Ty × Val)) (v : Val) : Prop :=
  (∃ p ∈ args, p.2 = v) ∧ ∃ k, v.key = some k ∧ ∀ p ∈ args, ∃ x, p.2.key = some x ∧ x ≤ k

/-- The argument is a number of its type (not NaN). -/
def Proper : Ty × Val → Prop
  | (.int sg w, .i z) => (w = 8 ∨ w = 16 ∨ w = 32 ∨ w = 64) ∧ InR sg w z
  | (.fp f, .f x) => x.Valid f
  | _ => False

/-- **C114**, `min` and `max`, full statement: they return the least and the greatest of their arguments, whatever types these have. -/
def C114Claim : Prop :=
  ∀ (a : Ty × Val) (r : List (Ty × Val)), (∀ p ∈ a :: r, Proper p) →
    (∃ v, min a r = .ok v ∧ Least (a :: r) v) ∧ (∃ v, max a r = .ok v ∧ Greatest (a :: r) v)

/-- **C114** fails: `min(-1, 1u)` is 1. -/
theorem C114_false : ¬ C114Claim := by
  intro h
  obtain ⟨⟨v, hv, -, k, hk, hl⟩, -⟩ := h (.int true 32, .i (-1)) [(.int false 32, .i 1)] (by
    intro p hp
    simp only [List.mem_cons, List.mem_nil_iff, or_false] at hp
    rcases hp with rfl | rfl
    · exact ⟨by simp, by decide⟩
    · exact ⟨by simp, by decide⟩)
  have e : min (.int true 32, .i (-1)) [(.int false 32, .i 1)] = .ok (.i 1) := by decide +kernel
  rw [e] at hv
  cases hv
  obtain ⟨x, hx, hle⟩ := hl (.int true 32, .i (-1)) (by simp)
  cases hk; cases hx
  simp only [WithBot.coe_le_coe, WithTop.coe_le_coe, Int.cast_le] at hle
  omega

/-- **C114** fails for every negative `int` with any `unsigned`: `max` returns neither of them when the `unsigned` is small. -/
theorem C114_max_false : max (.int true 32, .i (-1)) [(.int false 32, .i 1)] = .ok (.i 4294967295) := by decide +kernel

/-- **C114** fails with NaN: the result depends on the order of the arguments. -/
theorem C114_nan_false (s t : Bool) (m : ℚ) (hm : (Fp.fin t m).Valid .dbl) :
    min (.fp .dbl, .f (.nan s)) [(.fp .dbl, .f (.fin t m))] = .ok (.f (.fin t m)) ∧
    min (.fp .dbl, .f (.fin t m)) [(.fp .dbl, .f (.nan s))] = .ok (.f (.nan s)) := by
  have e : convFp .dbl (.fin t m) = .fin t m := conv_valid hm
  have e' : convFp .dbl (.nan s) = .nan s := rfl
  have ec : common (.fp .dbl) (.fp .dbl) = .fp .dbl := rfl
  have et : pickTy (.fp .dbl) [.fp .dbl] = .fp .dbl := by simp [pickTy, ternary]
  constructor
  · simp [min, less, cast, ltVal, Fp.lt, Fp.key, e, e', ec, et]
  · simp [min, less, cast, ltVal, Fp.lt, Fp.key, e, e', ec, et]

theorem min_good {g : Group} (a : Ty × Val) (r : List (Ty × Val)) (h : ∀ p ∈ a :: r, Good g p) :
    ∃ v, min a r = .ok v ∧ Good g (pickTy a.1 (r.map Prod.fst), v) ∧ Least (a :: r) v := by
  induction r generalizing a with
  | nil =>
    have ha := h a (by simp)
    obtain ⟨x, _, hx, _, _⟩ := less_good ha ha
    refine ⟨a.2, rfl, ha, ⟨a, by simp, rfl⟩, x, hx, ?_⟩
    intro p hp
    obtain rfl : p = a := by simpa using hp
    exact ⟨x, hx, le_refl x⟩
  | cons b r ih =>
    have ha := h a (by simp)
    have hb := h b (by simp)
    obtain ⟨x, y, hx, hy, hl⟩ := less_good ha hb
    have h1 : ∀ p ∈ a :: r, Good g p := fun p hp => h p (by simp only [List.mem_cons] at hp ⊢; tauto)
    have h2 : ∀ p ∈ b :: r, Good g p := fun p hp => h p (by simp only [List.mem_cons] at hp ⊢; tauto)
    have t1 : GoodTy g (pickTy a.1 (r.map Prod.fst)) := goodTy_pick _ _ (by
      intro t ht
      rw [← List.map_cons (f := Prod.fst)] at ht
      obtain ⟨p, hp, rfl⟩ := List.mem_map.1 ht
      exact (h1 p hp).ty)
    have t2 : GoodTy g (pickTy b.1 (r.map Prod.fst)) := goodTy_pick _ _ (by
      intro t ht
      rw [← List.map_cons (f := Prod.fst)] at ht
      obtain ⟨p, hp, rfl⟩ := List.mem_map.1 ht
      exact (h2 p hp).ty)
    by_cases hc : x < y
    · obtain ⟨v, hv, hg, ⟨q, hq, hqv⟩, k, hk, hle⟩ := ih a h1
      have hgood := good_ternary t1 t2 (Or.inl hg)
      refine ⟨v, ?_, hgood, ⟨q, by simp only [List.mem_cons] at hq ⊢; tauto, hqv⟩, k, hk, ?_⟩
      · simp only [min, hl, Out.ok_bind, hc, decide_true, if_true, hv]
        exact cast_self hgood
      · intro p hp
        simp only [List.mem_cons] at hp
        rcases hp with rfl | rfl | hp
        · exact hle p (by simp)
        · obtain ⟨x', hx', hkx⟩ := hle a (by simp)
          rw [hx] at hx'; cases hx'
          exact ⟨y, hy, le_trans hkx hc.le⟩
        · exact hle p (by simp [hp])
    · obtain ⟨v, hv, hg, ⟨q, hq, hqv⟩, k, hk, hle⟩ := ih b h2
      have hgood := good_ternary t1 t2 (Or.inr hg)
      refine ⟨v, ?_, hgood, ⟨q, by simp only [List.mem_cons] at hq ⊢; tauto, hqv⟩, k, hk, ?_⟩
      · simp only [min, hl, Out.ok_bind, hc, decide_false, Bool.false_eq_true, if_false, hv]
        exact cast_self hgood
      · intro p hp
        simp only [List.mem_cons] at hp
        rcases hp with rfl | rfl | hp
        · obtain ⟨y', hy', hky⟩ := hle b (by simp)
          rw [hy] at hy'; cases hy'
          exact ⟨x, hx, le_trans hky (not_lt.1 hc)⟩
        · exact hle p (by simp)
        · exact hle p (by simp [hp])

theorem max_good {g : Group} (a : Ty × Val) (r : List (Ty × Val)) (h : ∀ p ∈ a :: r, Good g p) :
    ∃ v, max a r = .ok v ∧ Good g (pickTy a.1 (r.map Prod.fst), v) ∧ Greatest (a :: r) v := by
  induction r generalizing a with
  | nil =>
    have ha := h a (by simp)
    obtain ⟨x, _, hx, _, _⟩ := less_good ha ha
    refine ⟨a.2, rfl, ha, ⟨a, by simp, rfl⟩, x, hx, ?_⟩
    intro p hp
    obtain rfl : p = a := by simpa using hp
    exact ⟨x, hx, le_refl x⟩
  | cons b r ih =>
    have ha := h a (by simp)
    have hb := h b (by simp)
    obtain ⟨y, x, hy, hx, hl⟩ := less_good hb ha
    have h1 : ∀ p ∈ a :: r, Good g p := fun p hp => h p (by simp only [List.mem_cons] at hp ⊢; tauto)
    have h2 : ∀ p ∈ b :: r, Good g p := fun p hp => h p (by simp only [List.mem_cons] at hp ⊢; tauto)
    have t1 : GoodTy g (pickTy a.1 (r.map Prod.fst)) := goodTy_pick _ _ (by
      intro t ht
      rw [← List.map_cons (f := Prod.fst)] at ht
      obtain ⟨p, hp, rfl⟩ := List.mem_map.1 ht
      exact (h1 p hp).ty)
    have t2 : GoodTy g (pickTy b.1 (r.map Prod.fst)) := goodTy_pick _ _ (by
      intro t ht
      rw [← List.map_cons (f := Prod.fst)] at ht
      obtain ⟨p, hp, rfl⟩ := List.mem_map.1 ht
      exact (h2 p hp).ty)
    by_cases hc : y < x
    · obtain ⟨v, hv, hg, ⟨q, hq, hqv⟩, k, hk, hle⟩ := ih a h1
      have hgood := good_ternary t1 t2 (Or.inl hg)
      refine ⟨v, ?_, hgood, ⟨q, by simp only [List.mem_cons] at hq ⊢; tauto, hqv⟩, k, hk, ?_⟩
      · simp only [max, hl, Out.ok_bind, hc, decide_true, if_true, hv]
        exact cast_self hgood
      · intro p hp
        simp only [List.mem_cons] at hp
        rcases hp with rfl | rfl | hp
        · exact hle p (by simp)
        · obtain ⟨x', hx', hkx⟩ := hle a (by simp)
          rw [hx] at hx'; cases hx'
          exact ⟨y, hy, le_trans hc.le hkx⟩
        · exact hle p (by simp [hp])
    · obtain ⟨v, hv, hg, ⟨q, hq, hqv⟩, k, hk, hle⟩ := ih b h2
      have hgood := good_ternary t1 t2 (Or.inr hg)
      refine ⟨v, ?_, hgood, ⟨q, by simp only [List.mem_cons] at hq ⊢; tauto, hqv⟩, k, hk, ?_⟩
      · simp only [max, hl, Out.ok_bind, hc, decide_false, Bool.false_eq_true, if_false, hv]
        exact cast_self hgood
      · intro p hp
        simp only [List.mem_cons] at hp
        rcases hp with rfl | rfl | hp
        · obtain ⟨y', hy', hky⟩ := hle b (by simp)
          rw [hy] at hy'; cases hy'
          exact ⟨x, hx, le_trans (not_lt.1 hc) hky⟩
        · exact hle p (by simp)
        · exact hle p (by simp [hp])

/-- **C114** for any number of arguments of one group: integers of any types none of which is negative, integers of signed types of
any widths, or `float`s and `double`s none of which is NaN. The result is one of the arguments with its value unchanged, and none is
less. Missing from the full statement: negative integers among unsigned ones, and integers among floating-point numbers. -/
theorem C114_min_partial (g : Group) (a : Ty × Val) (r : List (Ty × Val)) (h : ∀ p ∈ a :: r, Good g p) :
    ∃ v, min a r = .ok v ∧ Least (a :: r) v := by
  obtain ⟨v, hv, _, hl⟩ := min_good a r h
  exact ⟨v, hv, hl⟩

/-- **C114** for `max`, as for `min`. -/
theorem C114_max_partial (g : Group) (a : Ty × Val) (r : List (Ty × Val)) (h : ∀ p ∈ a :: r, Good g p) :
    ∃ v, max a r = .ok v ∧ Greatest (a :: r) v := by
  obtain ⟨v, hv, _, hl⟩ := max_good a r h
  exact ⟨v, hv, hl⟩

example : ∀ p ∈ [(Ty.int true 8, Val.i (-100)), (.int true 64, .i (-2 ^ 40)), (.int true 32, .i 7)], Good .signed p := by
  intro p hp
  simp only [List.mem_cons, List.mem_nil_iff, or_false] at hp
  rcases hp with rfl | rfl | rfl <;> exact ⟨rfl, by decide, by decide⟩

example : min (.int true 8, .i (-100)) [(.int true 64, .i (-2 ^ 40)), (.int true 32, .i 7)] = .ok (.i (-2 ^ 40)) := by decide +kernel

/-! ### abs -/

/-- **C114**, `abs` of a signed integer that is not the least of its type. -/
theorem C114_abs_partial (w : Nat) (hw : 1 ≤ w) (z : Int) (hr : InR true w z) (hz : z ≠ lo true w) : absI true w z = .ok |z| := by
  unfold absI
  split
  · next h =>
    have h1 : InR true w (-z) := by
      simp only [InR, lo, hi, if_true] at hr hz ⊢
      omega
    have hp : (promote true w).1 = true ∧ w ≤ (promote true w).2 := by
      unfold promote; split <;> simp; omega
    have hn : negI true w z = .ok (-z) := by
      unfold negI
      rw [hp.1, if_pos rfl, if_pos (inR_mono h1 hp.2)]
    rw [hn, abs_of_neg h]
    simp [wrap_eq hw h1]
  · next h => rw [abs_of_nonneg (not_lt.1 h)]

example : absI true 8 (-127) = .ok 127 := by decide

/-- **C114** fails for the least integer of a signed type: `abs` of the least `int` and `int64_t` is undefined, and of the least `int8_t`
and `int16_t` it is the argument itself, which is negative. -/
theorem C114_abs_false :
    absI true 32 (-2 ^ 31) = .ub ∧ absI true 64 (-2 ^ 63) = .ub ∧ absI true 8 (-2 ^ 7) = .ok (-2 ^ 7) ∧
    absI true 16 (-2 ^ 15) = .ok (-2 ^ 15) := by decide +kernel

/-- **C114**, `abs` of a floating-point number: the magnitude is kept and, unless the number is zero or NaN, the sign bit is clear. -/
theorem C114_abs_float_partial (x : Fp) (hx : ∀ s m, x = .fin s m → 0 < m) (hn : ∀ s, x ≠ .nan s) :
    absF x = x.withSign false := by
  cases x with
  | nan s => exact absurd rfl (hn s)
  | inf s =>
    cases s with
    | true =>
      have : Fp.lt (.inf true) (.fin false 0) = true := by
        simp [Fp.lt, Fp.key, WithBot.bot_lt_coe]
      simp [absF, this, Fp.withSign, Fp.sign]
    | false =>
      have : Fp.lt (.inf false) (.fin false 0) = false := by
        simp [Fp.lt, Fp.key]
      simp [absF, this, Fp.withSign]
  | fin s m =>
    have hm := hx s m rfl
    have hlt : Fp.lt (.fin s m) (.fin false 0) = s := by
      cases s
      · simp [Fp.lt, Fp.key, Fp.signed, hm.le]
      · have h0 : Fp.signed true m < Fp.signed false 0 := by simp [Fp.signed, hm]
        simp only [Fp.lt, Fp.key, WithBot.coe_lt_coe, WithTop.coe_lt_coe, h0, decide_true]
    unfold absF
    rw [hlt]
    cases s <;> simp [Fp.withSign, Fp.sign]

/-- **C114** fails for `abs(-0.0)`, which keeps its sign: `1 / abs(-0.0)` is minus infinity. -/
theorem C114_abs_zero_false : absF (.fin true 0) = .fin true 0 := by
  have : Fp.lt (.fin true 0) (.fin false 0) = false := by simp [Fp.lt, Fp.key, Fp.signed]
  simp [absF, this]

/-! ### mod -/

/-- **C114**, `mod` of integers none of which is negative, or of signed types: the remainder that is less than the divisor in magnitude and
has the sign of the dividend; the only quotient left out is the one that the type cannot hold. -/
theorem C114_mod_partial (g : Group) (sa : Bool) (wa : Nat) (sb : Bool) (wb : Nat) (a b : Int) (ha : Good g (.int sa wa, .i a))
    (hb : Good g (.int sb wb, .i b)) (h0 : b ≠ 0)
    (hm : ¬ (b = -1 ∧ a = lo true (commonInt (promote sa wa) (promote sb wb)).2)) :
    ∃ r, modI sa wa sb wb a b = .ok r ∧ (∃ q, a = q * b + r) ∧ |r| < |b| ∧ 0 ≤ r * a := by
  have e1 := cast_self (good_common ha.ty hb.ty (Or.inl ha))
  have e2 := cast_self (good_common ha.ty hb.ty (Or.inr hb))
  simp only [common, cast, Out.ok.injEq, Val.i.injEq] at e1 e2
  refine ⟨a.tmod b, ?_, ⟨a.tdiv b, ?_⟩, ?_, ?_⟩
  · simp only [modI, remI]
    rw [e1, e2, if_neg h0, if_neg]
    rintro ⟨hs, h1, h2⟩
    rw [hs] at h1
    exact hm ⟨h2, h1⟩
  · have := Int.tdiv_mul_add_tmod a b
    omega
  · have e : a.tmod |b| = a.tmod b := by
      rcases abs_choice b with h | h <;> rw [h]
      exact Int.tmod_neg a b
    have h := Int.tmod_lt_of_pos a (b := |b|) (abs_pos.2 h0)
    have hn := Int.lt_tmod_of_pos a (b := |b|) (abs_pos.2 h0)
    rw [e] at h hn
    exact abs_lt.2 ⟨hn, h⟩
  · rcases le_total 0 a with h | h
    · exact mul_nonneg (Int.tmod_nonneg b h) h
    · have h1 : a.tmod b ≤ 0 := by
        have := Int.tmod_nonneg b (neg_nonneg.2 h)
        rw [Int.neg_tmod] at this
        omega
      exact mul_nonneg_of_nonpos_of_nonpos h1 h

example : Good .signed (.int true 64, .i (-7)) ∧ Good .signed (.int true 32, .i 3) := ⟨⟨rfl, by decide, by decide⟩, rfl, by decide, by decide⟩

/-- **C114** fails for a negative number modulo an unsigned one: `mod(-7, 3u)` is 0, and 3 does not divide 7. -/
theorem C114_mod_false : modI true 32 false 32 (-7) 3 = .ok 0 := by decide

/-! ### floor and ceil -/

/-- **C114**, `floor` and `ceil` of an integer: the integer itself, up to 2^53. -/
theorem C114_floor_partial (sg : Bool) (w : Nat) (z : Int) (hr : InR sg w z) (hz : |z| ≤ 2 ^ 53) : floorI sg w z = .ok z := by
  have hc : (if decide (z < 0) = true then -|z| else |z|) = z := by
    by_cases h : z < 0
    · simp [h, abs_of_neg h]
    · simp [h, abs_of_nonneg (not_lt.1 h)]
  unfold floorI
  rw [ofInt_exact hz, ← Int.cast_abs, truncTo_int (by rw [hc]; exact hr), hc]

example : floorI true 64 (-2 ^ 53) = .ok (-2 ^ 53) := C114_floor_partial _ _ _ (by decide) (by decide)

/-- **C114** fails for larger integers: `floor` changes them, and of the greatest `int64_t` it is undefined. -/
theorem C114_floor_false : floorI true 64 (2 ^ 53 + 1) = .ok (2 ^ 53) ∧ floorI true 64 (2 ^ 63 - 1) = .ub := by decide +kernel

end Verif.Num
