import Verif.Model.PseudoFl
import Verif.Lemmas.Pseudo
import Verif.Lemmas.FloatSum
import Mathlib.Tactic.FieldSimp
import Mathlib.Tactic.NormNum

/-!
# linspace, arange and logspace (C108, C109)

C108: `linspace` and `arange` in floating-point arithmetic. `u` below is `unitRoundoff f`, `2 ^ -53` for `double`; the extra `halfTiny f` is
`2 ^ -1075`. C109: `logspace` over the real numbers.
-/

namespace Verif.PseudoM

open ShapeM Grid Ieee

variable {f : Fmt}

theorem round_int (he : f.emin ≤ 0) {n : Int} (hn : |n| ≤ 2 ^ f.p) : (Fl.round f (n : ℚ)).val = n := rnd_of_repr (repr_int he hn)

theorem round_nat (he : f.emin ≤ 0) {n : Nat} (hn : n ≤ 2 ^ f.p) : (Fl.round f (n : ℚ)).val = n := by
  have := round_int (f := f) he (n := (n : Int)) (by rw [Nat.abs_cast]; exact_mod_cast hn)
  exact_mod_cast this

theorem eq_zero_iff {a : Fl f} : a = 0 ↔ a.val = 0 := by
  constructor
  · rintro rfl
    rfl
  · intro h
    cases a
    simp only at h
    subst h
    rfl

/-- The value of an element of `linspace`, with `n` for the divisor. -/
def linVal (f : Fmt) (s t : ℚ) (i n : Nat) : ℚ := rnd f (s + rnd f (rnd f (rnd f (t - s) * i) / n))

theorem linspace_eq (he : f.emin ≤ 0) (asserts : Bool) (junk : Nat → Option (Fl f)) (start stop : Fl f) (num n : Nat) (includeEnd : Bool)
    (hn : num = n + if includeEnd then 1 else 0) (h0 : 0 < n) (hl : num < 2 ^ 32) (hp : num ≤ 2 ^ f.p) :
    ∃ vals : List (Fl f), linspaceFl asserts junk start stop num includeEnd = .ok ([num], vals.map some) ∧ vals.length = num ∧
      ∀ (i : Nat) (v : Fl f), vals[i]? = some v → i < num ∧ v.val = linVal f start.val stop.val i n := by
  have hc : (num : Int) - (if includeEnd then 1 else 0) = (n : Int) := by
    rw [hn]
    cases includeEnd <;> simp
  have hnum : 0 < num := by omega
  have hden : (Fl.round f ((n : Int) : ℚ)).val = n := by
    have := round_nat (f := f) he (n := n) (by omega)
    exact_mod_cast this
  have hz : Fl.round f ((n : Int) : ℚ) ≠ 0 := by
    intro h
    rw [eq_zero_iff, hden] at h
    have : n = 0 := by exact_mod_cast h
    omega
  refine ⟨(List.range num).map fun i : Nat => start + (stop - start) * .round f i / Fl.round f ((n : Int) : ℚ), ?_, by simp, fun i v hv => ?_⟩
  · unfold linspaceFl
    simp only [show (0 : Int) < (num : Int) by omega, decide_true, Bool.not_true, Bool.and_false, Bool.false_eq_true, if_false,
      u32_of_lt (show (0 : Int) ≤ (num : Int) by omega) (show (num : Int) < 2 ^ 32 by omega), fillLoop_ok, Out.ok_bind, Int.toNat_natCast,
      hc, Out.pure_eq, List.map_map]
    congr 3
    funext i
    unfold linValueFl
    rw [if_neg hz]
    rfl
  · have hi : i < num := by
      by_contra hc
      rw [List.getElem?_eq_none (by simp; omega)] at hv
      cases hv
    refine ⟨hi, ?_⟩
    simp only [List.getElem?_map, List.getElem?_range hi, Option.map_some, Option.some.injEq] at hv
    rw [← hv]
    show rnd f (start.val + rnd f (rnd f (rnd f (stop.val - start.val) * (Fl.round f (i : ℚ)).val) / (Fl.round f ((n : Int) : ℚ)).val)) = _
    rw [hden, round_nat he (by omega)]
    rfl

theorem linVal_zero {s : ℚ} (hs : Repr f s) (t : ℚ) (n : Nat) : linVal f s t 0 n = s := by
  unfold linVal
  rw [Nat.cast_zero, mul_zero, rnd_zero, zero_div, rnd_zero, add_zero, rnd_of_repr hs]

theorem linVal_mono {s t : ℚ} (h : s ≤ t) {i j n : Nat} (hij : i ≤ j) : linVal f s t i n ≤ linVal f s t j n := by
  have hd : 0 ≤ rnd f (t - s) := rnd_nonneg (by linarith)
  have hi : (i : ℚ) ≤ j := by exact_mod_cast hij
  refine rnd_mono (add_le_add le_rfl (rnd_mono (div_le_div_of_nonneg_right (rnd_mono (mul_le_mul_of_nonneg_left hi hd)) (Nat.cast_nonneg n))))

theorem linVal_anti {s t : ℚ} (h : t ≤ s) {i j n : Nat} (hij : i ≤ j) : linVal f s t j n ≤ linVal f s t i n := by
  have hd : rnd f (t - s) ≤ 0 := by
    have : 0 ≤ rnd f (-(t - s)) := rnd_nonneg (by linarith)
    rw [rnd_neg] at this
    linarith
  have hi : (i : ℚ) ≤ j := by exact_mod_cast hij
  refine rnd_mono (add_le_add le_rfl (rnd_mono (div_le_div_of_nonneg_right (rnd_mono (mul_le_mul_of_nonpos_left hi hd)) (Nat.cast_nonneg n))))

theorem rnd_sub_err {x y : ℚ} (hx : Repr f x) (hy : Repr f y) : |rnd f (x - y) - (x - y)| ≤ unitRoundoff f * |x - y| := by
  have := rnd_add_err hx (repr_neg hy)
  rwa [← sub_eq_add_neg] at this

theorem linVal_err {s t : ℚ} (hs : Repr f s) (ht : Repr f t) (i n : Nat) (hn : 0 < n) :
    |linVal f s t i n - (s + (t - s) * i / n)| ≤ unitRoundoff f * |s + (t - s) * i / n| +
      ((1 + unitRoundoff f) ^ 4 - (1 + unitRoundoff f)) * (|t - s| * i / n) + (1 + unitRoundoff f) * halfTiny f := by
  have hu := unit_pos f
  have hn' : (0 : ℚ) < n := by exact_mod_cast hn
  have hi' : (0 : ℚ) ≤ i := Nat.cast_nonneg i
  have a1 := rnd_sub_err ht hs
  -- times i
  have a2 : |rnd f (t - s) * i - (t - s) * i| ≤ unitRoundoff f * (|t - s| * i) + 0 := by
    rw [← sub_mul, abs_mul, abs_of_nonneg hi', add_zero, ← mul_assoc]
    exact mul_le_mul_of_nonneg_right a1 hi'
  have a3 := err_step hu.le (h := 0) (by
    rw [add_zero]
    exact_mod_cast rnd_mul_int_err (repr_rnd f (t - s)) (i : Int)) a2 (by rw [abs_mul, abs_of_nonneg hi'])
  -- divided by n
  have a4 : |rnd f (rnd f (t - s) * i) / n - (t - s) * i / n| ≤
      ((1 + unitRoundoff f) * (1 + unitRoundoff f) - 1) * (|t - s| * i / n) + 0 := by
    rw [← sub_div, abs_div, abs_of_pos hn', add_zero, ← mul_div_assoc]
    refine div_le_div_of_nonneg_right (le_trans a3 (le_of_eq ?_)) hn'.le
    ring
  have a5 := err_step hu.le (rnd_err f (rnd f (rnd f (t - s) * i) / n)) a4 (by
    rw [abs_div, abs_mul, abs_of_nonneg hi', abs_of_pos hn'])
  -- plus start
  have a6 := rnd_add_err hs (repr_rnd f (rnd f (rnd f (t - s) * i) / n))
  change |linVal f s t i n - _| ≤ _ at a6
  generalize rnd f (rnd f (rnd f (t - s) * i) / n) = q at *
  have b1 := abs_add_le (linVal f s t i n - (s + q)) (s + q - (s + (t - s) * i / n))
  rw [sub_add_sub_cancel, add_sub_add_left_eq_sub] at b1
  have b2 := abs_add_le (s + (t - s) * i / n) (q - (t - s) * i / n)
  rw [show s + (t - s) * i / n + (q - (t - s) * i / n) = s + q by ring] at b2
  have b3 : unitRoundoff f * |s + q| ≤ unitRoundoff f * (|s + (t - s) * i / n| + |q - (t - s) * i / n|) :=
    mul_le_mul_of_nonneg_left b2 hu.le
  have b4 : (1 + unitRoundoff f) * |q - (t - s) * i / n| ≤ (1 + unitRoundoff f) * _ := mul_le_mul_of_nonneg_left a5 (by linarith)
  have e : (1 + unitRoundoff f) * (((1 + unitRoundoff f) * (1 + ((1 + unitRoundoff f) * (1 + unitRoundoff f) - 1)) - 1) * (|t - s| * i / n) +
      ((1 + unitRoundoff f) * 0 + halfTiny f)) =
      ((1 + unitRoundoff f) ^ 4 - (1 + unitRoundoff f)) * (|t - s| * i / n) + (1 + unitRoundoff f) * halfTiny f := by ring
  rw [e] at b4
  linarith

/-- **C108**, `linspace`, for up to `2 ^ p` samples: the first element is `start`, the elements ascend (or descend) and each is within a few
roundings of `start + (stop - start) * i / n`. -/
theorem C108_linspace_partial (he : f.emin ≤ 0) (asserts : Bool) (junk : Nat → Option (Fl f)) (start stop : Fl f) (num n : Nat)
    (includeEnd : Bool) (hn : num = n + if includeEnd then 1 else 0) (h0 : 0 < n) (hl : num < 2 ^ 32) (hp : num ≤ 2 ^ f.p) :
    ∃ vals : List (Fl f), linspaceFl asserts junk start stop num includeEnd = .ok ([num], vals.map some) ∧ vals.length = num ∧
      vals[0]? = some start ∧
      (∀ (i j : Nat) (v w : Fl f), vals[i]? = some v → vals[j]? = some w → i ≤ j →
        (start.val ≤ stop.val → v.val ≤ w.val) ∧ (stop.val ≤ start.val → w.val ≤ v.val)) ∧
      ∀ (i : Nat) (v : Fl f), vals[i]? = some v → |v.val - (start.val + (stop.val - start.val) * i / n)| ≤
        unitRoundoff f * |start.val + (stop.val - start.val) * i / n| +
        ((1 + unitRoundoff f) ^ 4 - (1 + unitRoundoff f)) * (|stop.val - start.val| * i / n) + (1 + unitRoundoff f) * halfTiny f := by
  obtain ⟨vals, h1, h2, h3⟩ := linspace_eq he asserts junk start stop num n includeEnd hn h0 hl hp
  refine ⟨vals, h1, h2, ?_, ?_, ?_⟩
  · have hlen : 0 < vals.length := by omega
    obtain ⟨-, h4⟩ := h3 0 vals[0] (List.getElem?_eq_getElem hlen)
    rw [List.getElem?_eq_getElem hlen]
    congr 1
    rw [linVal_zero start.repr] at h4
    cases hv : vals[0]
    cases start
    rw [hv] at h4
    simp only at h4
    subst h4
    rfl
  · intro i j v w hv hw hij
    rw [(h3 i v hv).2, (h3 j w hw).2]
    exact ⟨fun h => linVal_mono h hij, fun h => linVal_anti h hij⟩
  · intro i v hv
    rw [(h3 i v hv).2]
    exact linVal_err start.repr stop.repr i n h0

/-- **C108**, the end: between integers (with `|stop - start| * (num - 1)` at most `2 ^ p`) the last element is exactly `stop`. -/
theorem C108_end_partial (he : f.emin ≤ 0) (asserts : Bool) (junk : Nat → Option (Fl f)) (start stop : Fl f) (n : Nat)
    (h0 : 0 < n) (hl : n + 1 < 2 ^ 32) (hp : n + 1 ≤ 2 ^ f.p) (d : Int) (hd : stop.val - start.val = d) (hb : |d| * n ≤ 2 ^ f.p) :
    ∃ vals : List (Fl f), linspaceFl asserts junk start stop (n + 1 : Nat) true = .ok ([n + 1], vals.map some) ∧ vals[n]? = some stop := by
  obtain ⟨vals, h1, h2, h3⟩ := linspace_eq he asserts junk start stop (n + 1) n true (by simp) h0 hl hp
  refine ⟨vals, h1, ?_⟩
  have hlen : n < vals.length := by omega
  obtain ⟨-, h4⟩ := h3 n vals[n] (List.getElem?_eq_getElem hlen)
  rw [List.getElem?_eq_getElem hlen]
  congr 1
  have hn' : (n : ℚ) ≠ 0 := by exact_mod_cast h0.ne'
  have hd1 : |d| ≤ 2 ^ f.p := le_trans (le_mul_of_one_le_right (abs_nonneg d) (by exact_mod_cast h0)) hb
  have hd2 : |d * n| ≤ 2 ^ f.p := by
    rw [abs_mul, Nat.abs_cast]
    exact hb
  have e : linVal f start.val stop.val n n = stop.val := by
    unfold linVal
    rw [hd, rnd_of_repr (repr_int he hd1)]
    have := rnd_of_repr (repr_int (f := f) he hd2)
    push_cast at this
    rw [this, mul_div_assoc, div_self hn', mul_one, rnd_of_repr (repr_int he hd1), ← hd, add_sub_cancel, rnd_of_repr stop.repr]
  rw [e] at h4
  cases hv : vals[n]
  cases stop
  rw [hv] at h4
  simp only at h4
  subst h4
  rfl

/-- What the documentation promises of the last element. -/
def C108EndClaim : Prop := ∀ (start stop : Fl binary64) (num : Nat), 1 < num → num < 2 ^ 32 → ∀ (data : List (Option (Fl binary64))) shape,
  linspaceFl true (fun _ => none) start stop num true = .ok (shape, data) → data[num - 1]? = some (some stop)

/-- `linspace(0.0, 0.1, 4)` ends with 0.1 + 2^-56, beyond the end. -/
theorem C108_end_false : ¬ C108EndClaim ∧ ∃ vals : List (Fl binary64),
    linspaceFl true (fun _ => none) 0 (.round binary64 (1 / 10)) 4 true = .ok ([4], vals.map some) ∧
      ∃ v, vals[3]? = some v ∧ v.val = rnd binary64 (1 / 10) + 1 / 2 ^ 56 := by
  obtain ⟨vals, h1, h2, h3⟩ := linspace_eq (f := binary64) (by decide) true (fun _ => none) 0 (.round binary64 (1 / 10)) 4 3 true rfl
    (by norm_num) (by norm_num) (by norm_num [binary64])
  have hlen : 3 < vals.length := by omega
  obtain ⟨-, h4⟩ := h3 3 vals[3] (List.getElem?_eq_getElem hlen)
  have e : linVal binary64 0 (rnd binary64 (1 / 10)) 3 3 = rnd binary64 (1 / 10) + 1 / 2 ^ 56 := by decide +kernel
  have h5 : vals[3].val = rnd binary64 (1 / 10) + 1 / 2 ^ 56 := by
    rw [h4, ← e]
    rfl
  refine ⟨fun h => ?_, vals, h1, vals[3], List.getElem?_eq_getElem hlen, h5⟩
  have h6 := h 0 (.round binary64 (1 / 10)) 4 (by norm_num) (by norm_num) _ _ h1
  simp only [Nat.reduceSub, List.getElem?_map, List.getElem?_eq_getElem hlen, Option.map_some, Option.some.injEq] at h6
  rw [h6] at h5
  exact absurd h5 (by show rnd binary64 (1 / 10) ≠ _; norm_num)

/-! ### arange -/

/-- The number of elements and their values, for a machine quotient below 2^32. -/
theorem arangeFl_eq (he : f.emin ≤ 0) (asserts : Bool) (junk : Nat → Fl f) (start stop step : Fl f) (hs : step ≠ 0)
    (h : 0 < ((stop - start) / step).val) (hl : ((stop - start) / step).val < 2 ^ 32) (hp : ((stop - start) / step).val ≤ 2 ^ f.p) :
    ∃ vals : List (Fl f), arangeFl asserts junk start stop step = .ok ([vals.length], vals) ∧
      vals.length = ⌊((stop - start) / step).val⌋.toNat ∧
      ∀ (i : Nat) (v : Fl f), vals[i]? = some v → i < vals.length ∧ v.val = rnd f (start.val + rnd f (i * step.val)) := by
  generalize hq : ((stop - start) / step) = q at *
  have hf0 : 0 ≤ ⌊q.val⌋ := Int.floor_nonneg.2 h.le
  have hf1 : ⌊q.val⌋ < 2 ^ 32 := Int.floor_lt.2 (by exact_mod_cast hl)
  have hfp : (⌊q.val⌋.toNat : ℚ) ≤ 2 ^ f.p := by
    have h1 : (⌊q.val⌋ : ℚ) ≤ q.val := Int.floor_le _
    have h2 : ((⌊q.val⌋.toNat : Int) : ℚ) = ⌊q.val⌋ := by rw [Int.toNat_of_nonneg hf0]
    have h3 : ((⌊q.val⌋.toNat : Int) : ℚ) = (⌊q.val⌋.toNat : ℚ) := by simp only [Int.cast_natCast]
    rw [← h3, h2]
    linarith
  refine ⟨(List.range ⌊q.val⌋.toNat).map fun i : Nat => start + .round f i * step, ?_, by simp, fun i v hv => ?_⟩
  · unfold arangeFl
    rw [decide_eq_false hs, Bool.and_false, if_neg (by decide), if_neg hs, hq, decide_eq_true h, Bool.not_true, Bool.and_false,
      if_neg (by decide)]
    unfold arangeBodyFl toInt64
    rw [abs_of_pos h, if_pos (by omega), Out.ok_bind, u32_of_lt hf0 hf1, fillLoop_ok, Out.ok_bind]
    simp
  · have hi : i < ⌊q.val⌋.toNat := by
      by_contra hc
      rw [List.getElem?_eq_none (by simp; omega)] at hv
      cases hv
    refine ⟨by simpa using hi, ?_⟩
    simp only [List.getElem?_map, List.getElem?_range hi, Option.map_some, Option.some.injEq] at hv
    rw [← hv]
    show rnd f (start.val + rnd f ((Fl.round f (i : ℚ)).val * step.val)) = _
    rw [round_nat he]
    have : (i : ℚ) ≤ 2 ^ f.p := le_trans (by exact_mod_cast hi.le) hfp
    exact_mod_cast this

/-- The rounded quotient is near the exact one. -/
theorem quotient_err {s t d : ℚ} (hs : Repr f s) (ht : Repr f t) :
    |rnd f (rnd f (t - s) / d) - (t - s) / d| ≤ ((1 + unitRoundoff f) ^ 2 - 1) * |(t - s) / d| + halfTiny f := by
  have hu := unit_pos f
  have a1 := rnd_sub_err ht hs
  have a2 : |rnd f (t - s) / d - (t - s) / d| ≤ unitRoundoff f * |(t - s) / d| + 0 := by
    rw [← sub_div, abs_div, abs_div, add_zero, ← mul_div_assoc]
    exact div_le_div_of_nonneg_right a1 (abs_nonneg d)
  have a3 := err_step hu.le (rnd_err f (rnd f (t - s) / d)) a2 le_rfl
  refine le_trans a3 (le_of_eq ?_)
  ring

/-- **C108**, `arange`: the number of elements is the integer part of a number within two roundings of `(stop - start) / step`; the first
element is `start` and element `i` is within two roundings of `start + i * step`. -/
theorem C108_arange_partial (he : f.emin ≤ 0) (asserts : Bool) (junk : Nat → Fl f) (start stop step : Fl f) (hs : step ≠ 0)
    (h : 0 < ((stop - start) / step).val) (hl : ((stop - start) / step).val < 2 ^ 32) (hp : ((stop - start) / step).val ≤ 2 ^ f.p) :
    ∃ vals : List (Fl f), arangeFl asserts junk start stop step = .ok ([vals.length], vals) ∧
      (∃ q : ℚ, |q - (stop.val - start.val) / step.val| ≤
          ((1 + unitRoundoff f) ^ 2 - 1) * |(stop.val - start.val) / step.val| + halfTiny f ∧
        (vals.length : ℚ) ≤ q ∧ q < vals.length + 1) ∧
      (∀ v : Fl f, vals[0]? = some v → v.val = start.val) ∧
      ∀ (i : Nat) (v : Fl f), vals[i]? = some v → |v.val - (start.val + i * step.val)| ≤
        unitRoundoff f * |start.val + i * step.val| + ((1 + unitRoundoff f) ^ 2 - (1 + unitRoundoff f)) * (i * |step.val|) := by
  have hu := unit_pos f
  obtain ⟨vals, h1, h2, h3⟩ := arangeFl_eq he asserts junk start stop step hs h hl hp
  refine ⟨vals, h1, ⟨((stop - start) / step).val, quotient_err start.repr stop.repr, ?_, ?_⟩, ?_, ?_⟩
  · have hf0 : 0 ≤ ⌊((stop - start) / step).val⌋ := Int.floor_nonneg.2 h.le
    have h4 : ((vals.length : Int) : ℚ) = ⌊((stop - start) / step).val⌋ := by rw [h2, Int.toNat_of_nonneg hf0]
    have h5 := Int.floor_le ((stop - start) / step).val
    rw [← h4] at h5
    exact_mod_cast h5
  · have hf0 : 0 ≤ ⌊((stop - start) / step).val⌋ := Int.floor_nonneg.2 h.le
    have h4 : ((vals.length : Int) : ℚ) = ⌊((stop - start) / step).val⌋ := by rw [h2, Int.toNat_of_nonneg hf0]
    have h5 := Int.lt_floor_add_one ((stop - start) / step).val
    rw [← h4] at h5
    exact_mod_cast h5
  · intro v hv
    rw [(h3 0 v hv).2, Nat.cast_zero, zero_mul, rnd_zero, add_zero, rnd_of_repr start.repr]
  · intro i v hv
    rw [(h3 i v hv).2]
    have hi' : (0 : ℚ) ≤ i := Nat.cast_nonneg i
    have a1 : |rnd f (i * step.val) - i * step.val| ≤ unitRoundoff f * (i * |step.val|) := by
      have := rnd_mul_int_err step.repr (i : Int)
      rw [mul_comm step.val, abs_mul, Int.cast_natCast, abs_of_nonneg hi'] at this
      exact this
    have a2 := rnd_add_err start.repr (repr_rnd f (i * step.val))
    generalize rnd f (i * step.val) = q at *
    have b1 := abs_add_le (rnd f (start.val + q) - (start.val + q)) (start.val + q - (start.val + i * step.val))
    rw [sub_add_sub_cancel, add_sub_add_left_eq_sub] at b1
    have b2 := abs_add_le (start.val + i * step.val) (q - i * step.val)
    rw [show start.val + i * step.val + (q - i * step.val) = start.val + q by ring] at b2
    have b3 : unitRoundoff f * |start.val + q| ≤ unitRoundoff f * (|start.val + i * step.val| + |q - i * step.val|) :=
      mul_le_mul_of_nonneg_left b2 hu.le
    have b4 : (1 + unitRoundoff f) * |q - i * step.val| ≤ (1 + unitRoundoff f) * (unitRoundoff f * (i * |step.val|)) :=
      mul_le_mul_of_nonneg_left a1 (by linarith)
    have e : (1 + unitRoundoff f) * (unitRoundoff f * (i * |step.val|)) =
      ((1 + unitRoundoff f) ^ 2 - (1 + unitRoundoff f)) * (i * |step.val|) := by ring
    rw [e] at b4
    linarith

/-- What the documentation promises: the number of elements, and values before `stop`. -/
def C108ArangeClaim : Prop := ∀ (start stop step : Fl binary64), 0 < step.val → start.val < stop.val →
  (stop.val - start.val) / step.val < 2 ^ 31 → ∀ shape data, arangeFl true (fun _ => 0) start stop step = .ok (shape, data) →
  (data.length : Int) = ⌊(stop.val - start.val) / step.val⌋ ∧ ∀ v ∈ data, v.val < stop.val

/-- `arange(0.0, 1.0, 0.1)` has ten elements, although the documented number is nine (the double 0.1 is a little more than a tenth);
`arange(2^53, 2^53 + 2, 0.5)` contains its end. -/
theorem C108_arange_false : ¬ C108ArangeClaim ∧
    (∃ vals : List (Fl binary64), arangeFl true (fun _ => 0) 0 (.round _ 1) (.round _ (1 / 10)) = .ok ([10], vals)) ∧
    ⌊((Fl.round binary64 1).val - (0 : Fl binary64).val) / (Fl.round binary64 (1 / 10)).val⌋ = 9 ∧
    ∃ vals : List (Fl binary64), arangeFl true (fun _ => 0) (.round _ (2 ^ 53)) (.round _ (2 ^ 53 + 2)) (.round _ (1 / 2)) = .ok ([4], vals) ∧
      ∃ v ∈ vals, v.val = 2 ^ 53 + 2 := by
  have hq1 : ((Fl.round binary64 1 - 0) / Fl.round binary64 (1 / 10)).val = 10 := by decide +kernel
  have hq2 : ((Fl.round binary64 (2 ^ 53 + 2) - Fl.round binary64 (2 ^ 53)) / Fl.round binary64 (1 / 2)).val = 4 := by decide +kernel
  have hfl : ⌊((Fl.round binary64 1).val - (0 : Fl binary64).val) / (Fl.round binary64 (1 / 10)).val⌋ = 9 := by decide +kernel
  have hs1 : Fl.round binary64 (1 / 10) ≠ 0 := by
    rw [Ne, eq_zero_iff]
    decide +kernel
  have hs2 : Fl.round binary64 (1 / 2) ≠ 0 := by
    rw [Ne, eq_zero_iff]
    decide +kernel
  obtain ⟨v1, a1, a2, -⟩ := arangeFl_eq (f := binary64) (by decide) true (fun _ => 0) 0 (.round _ 1) (.round _ (1 / 10)) hs1
    (by rw [hq1]; norm_num) (by rw [hq1]; norm_num) (by rw [hq1]; norm_num [binary64])
  obtain ⟨v2, b1, b2, b3⟩ := arangeFl_eq (f := binary64) (by decide) true (fun _ => 0) (.round _ (2 ^ 53)) (.round _ (2 ^ 53 + 2))
    (.round _ (1 / 2)) hs2 (by rw [hq2]; norm_num) (by rw [hq2]; norm_num) (by rw [hq2]; norm_num [binary64])
  have l1 : v1.length = 10 := by
    rw [a2, hq1]
    decide +kernel
  have l2 : v2.length = 4 := by
    rw [b2, hq2]
    decide +kernel
  have h3 : 3 < v2.length := by omega
  have e3 : v2[3].val = 2 ^ 53 + 2 := by
    rw [(b3 3 v2[3] (List.getElem?_eq_getElem h3)).2]
    decide +kernel
  refine ⟨fun h => ?_, ⟨v1, by rw [a1, l1]⟩, hfl, v2, by rw [b1, l2], v2[3], List.getElem_mem h3, e3⟩
  have := (h 0 (.round _ 1) (.round _ (1 / 10)) (by decide +kernel) (by decide +kernel) (by decide +kernel) _ _ a1).1
  rw [hfl, l1] at this
  exact absurd this (by norm_num)

/-! ### logspace -/

/-- **C109**: for positive ends `logspace` is the geometric progression from `start` to `stop` (or one ratio before it). -/
theorem C109_logspace (asserts : Bool) (junk : Nat → Option ℝ) (start stop : ℝ) (num n : Nat) (includeEnd : Bool) (hs : 0 < start)
    (ht : 0 < stop) (hn : num = n + if includeEnd then 1 else 0) (h0 : 0 < n) (hl : num < 2 ^ 32) :
    ∃ (vals : List ℝ) (ratio : ℝ), logspace asserts junk start stop num includeEnd = .ok ([num], vals.map some) ∧ vals.length = num ∧
      0 < ratio ∧ ratio ^ n = stop / start ∧ (∀ (i : Nat) (v : ℝ), vals[i]? = some v → v = start * ratio ^ i) ∧
      (includeEnd = true → vals[num - 1]? = some stop) := by
  have hc : (num : Int) - (if includeEnd then 1 else 0) = (n : Int) := by
    rw [hn]
    cases includeEnd <;> simp
  have hn0 : (n : ℝ) ≠ 0 := by exact_mod_cast h0.ne'
  have hval : ∀ i : Nat, Real.exp (Real.log start + (Real.log stop - Real.log start) * i / n) =
      start * Real.exp ((Real.log stop - Real.log start) / n) ^ i := by
    intro i
    rw [Real.exp_add, Real.exp_log hs, ← Real.exp_nat_mul]
    congr 2
    ring
  have hr : Real.exp ((Real.log stop - Real.log start) / n) ^ n = stop / start := by
    rw [← Real.exp_nat_mul, mul_div_cancel₀ _ hn0, Real.exp_sub, Real.exp_log ht, Real.exp_log hs]
  refine ⟨(List.range num).map fun i : Nat => Real.exp (Real.log start + (Real.log stop - Real.log start) * i / n),
    Real.exp ((Real.log stop - Real.log start) / n), ?_, by simp, Real.exp_pos _, hr, fun i v hv => ?_, fun hi => ?_⟩
  · unfold logspace
    rw [decide_eq_true (show (0 : Int) < (num : Int) by omega), Bool.not_true, Bool.and_false, if_neg (by decide), hc,
      u32_of_lt (show (0 : Int) ≤ (num : Int) by omega) (show (num : Int) < 2 ^ 32 by omega), fillLoop_ok, Out.ok_bind, Int.toNat_natCast]
    simp only [Out.pure_eq, List.map_map]
    congr 3
    funext i
    simp [logValue, realLog, hs, ht, hn0]
  · have hi : i < num := by
      by_contra hc
      rw [List.getElem?_eq_none (by simp; omega)] at hv
      cases hv
    simp only [List.getElem?_map, List.getElem?_range hi, Option.map_some, Option.some.injEq] at hv
    rw [← hv, hval]
  · subst hi
    have e : num - 1 = n := by
      rw [hn]
      simp
    have hi : n < num := by
      rw [hn]
      simp
    rw [e]
    simp only [List.getElem?_map, List.getElem?_range hi, Option.map_some, Option.some.injEq]
    rw [hval, hr]
    field_simp

/-- Without two positive ends, or with one sample that is the end, all elements are NaN, unless only the end is zero. -/
theorem C109_nan (asserts : Bool) (junk : Nat → Option ℝ) (start stop : ℝ) (num : Nat) (includeEnd : Bool) (h0 : 0 < num)
    (hl : num < 2 ^ 32) (h : start ≤ 0 ∨ stop < 0 ∨ (num = 1 ∧ includeEnd = true)) :
    logspace asserts junk start stop num includeEnd = .ok ([num], List.replicate num none) := by
  unfold logspace
  rw [decide_eq_true (show (0 : Int) < (num : Int) by omega), Bool.not_true, Bool.and_false, if_neg (by decide),
    u32_of_lt (show (0 : Int) ≤ (num : Int) by omega) (show (num : Int) < 2 ^ 32 by omega), fillLoop_ok, Out.ok_bind, Int.toNat_natCast]
  have : ∀ i, logValue (realLog start) (realLog stop) ((num : Int) - (if includeEnd then 1 else 0) : Int) i = none := by
    intro i
    unfold logValue realLog
    rcases h with h | h | ⟨h, h'⟩
    · rw [if_neg (not_lt.2 h)]
      split_ifs <;> simp
    · rw [if_neg (not_lt.2 h.le), if_neg h.ne]
      split_ifs <;> simp
    · subst h h'
      split <;> simp
  have e : logValue (realLog start) (realLog stop) ((num : Int) - (if includeEnd then 1 else 0) : Int) = fun _ => none := funext this
  rw [e]
  simp only [Out.pure_eq, List.map_const', List.length_range]

/-- Towards zero the first element is NaN and the others are zero. -/
theorem C109_zero (asserts : Bool) (junk : Nat → Option ℝ) (start : ℝ) (num n : Nat) (includeEnd : Bool) (hs : 0 < start)
    (hn : num = n + if includeEnd then 1 else 0) (h0 : 0 < n) (hl : num < 2 ^ 32) :
    logspace asserts junk start 0 num includeEnd = .ok ([num], none :: List.replicate (num - 1) (some 0)) := by
  have hc : (num : Int) - (if includeEnd then 1 else 0) = (n : Int) := by
    rw [hn]
    cases includeEnd <;> simp
  have hn0 : (n : ℝ) ≠ 0 := by exact_mod_cast h0.ne'
  obtain ⟨k, rfl⟩ : ∃ k, num = k + 1 := ⟨num - 1, by omega⟩
  unfold logspace
  rw [decide_eq_true (show (0 : Int) < ((k + 1 : Nat) : Int) by omega), Bool.not_true, Bool.and_false, if_neg (by decide), hc,
    u32_of_lt (show (0 : Int) ≤ ((k + 1 : Nat) : Int) by omega) (show ((k + 1 : Nat) : Int) < 2 ^ 32 by omega), fillLoop_ok, Out.ok_bind,
    Int.toNat_natCast, List.range_succ_eq_map, List.map_cons, List.map_map]
  simp only [Out.pure_eq, Nat.add_sub_cancel]
  congr 3
  · simp [logValue, realLog, hs]
  · rw [List.eq_replicate_iff]
    constructor
    · simp
    · intro b hb
      obtain ⟨i, -, hi⟩ := List.mem_map.1 hb
      rw [← hi]
      simp [logValue, realLog, hs, h0.ne']

/-- The hypotheses are met: from 1 to 1000 in four steps. -/
example : ∃ vals : List ℝ, logspace true (fun _ => none) 1 1000 4 true = .ok ([4], vals.map some) ∧ vals[1]? = some 10 := by
  obtain ⟨vals, ratio, h1, h2, h3, h4, h5, -⟩ := C109_logspace true (fun _ => none) 1 1000 4 3 true (by norm_num) (by norm_num) rfl
    (by norm_num) (by norm_num)
  have hr : ratio = 10 := by
    rw [div_one, show (1000 : ℝ) = 10 ^ 3 by norm_num] at h4
    exact (pow_left_inj₀ h3.le (by norm_num) (by norm_num)).1 h4
  have hlen : 1 < vals.length := by omega
  refine ⟨vals, h1, ?_⟩
  rw [List.getElem?_eq_getElem hlen, h5 1 vals[1] (List.getElem?_eq_getElem hlen), hr]
  norm_num

end Verif.PseudoM
