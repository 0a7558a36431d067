import Verif.Lemmas.Pseudo
import Mathlib.Data.Rat.Floor
import Mathlib.Tactic.NormNum

/-!
# ordered, arange and linspace (C31)

`K` is any ordered field with a floor (rounding is not modelled).
-/

namespace Verif.PseudoM

open ShapeM Grid

/-- **C31**, `ordered`: the element at the `k`-th coordinates in row-major order is `k`, for every shape. -/
theorem C31_ordered {α : Type} (asserts : Bool) (junk : Nat → α) (cast : Nat → α) (s : AnyShape) :
    ∃ data, ordered asserts junk cast s = .ok (s, data) ∧ data.length = count (ext s) ∧
      ∀ k : Nat, k < count (ext s) → data[k]? = some (cast k) := by
  refine ⟨(List.range (count (ext s))).map cast, ?_, by simp, fun k hk => by simp [hk]⟩
  simp [ordered, fillLoop_ok]

/-- `zeros`, `ones`, `fill`: every element is the value. -/
theorem C31_filled {α : Type} (asserts : Bool) (junk : Nat → α) (s : AnyShape) (v : α) :
    filled asserts junk s v = .ok (s, List.replicate (count (ext s)) v) := by
  simp [filled, fillLoop_ok]

section Float

variable {K : Type} [Field K] [LinearOrder K] [IsStrictOrderedRing K] [FloorRing K]

/-- `arange(start, stop, step)` as C31 states it: exactly the values strictly before `stop`, in order. -/
def C31ArangeClaim (K : Type) [Field K] [LinearOrder K] [IsStrictOrderedRing K] [FloorRing K] : Prop :=
  ∀ (asserts : Bool) (junk : Nat → K) (start stop step : K), 0 < (stop - start) / step → (stop - start) / step < 2 ^ 31 →
    ∃ data, arange asserts junk start stop step = .ok ([data.length], data) ∧
      ∀ k : Nat, (data[k]? = some (start + k * step) ↔ (k : K) * (step / (stop - start)) < 1) ∧
        (data[k]? = none ∨ data[k]? = some (start + k * step))

theorem arange_eq (asserts : Bool) (junk : Nat → K) (start stop step : K) (h : 0 < (stop - start) / step)
    (hl : (stop - start) / step < 2 ^ 32) :
    arange asserts junk start stop step = .ok ([⌊(stop - start) / step⌋.toNat],
      (List.range ⌊(stop - start) / step⌋.toNat).map fun i : Nat => start + i * step) := by
  have hs : step ≠ 0 := by
    intro h0
    rw [h0, div_zero] at h
    exact lt_irrefl _ h
  have hf0 : 0 ≤ ⌊(stop - start) / step⌋ := Int.floor_nonneg.2 h.le
  have hf : ⌊(stop - start) / step⌋ < 2 ^ 32 := by
    rw [Int.floor_lt]
    exact_mod_cast hl
  have hf2 : ⌊(stop - start) / step⌋ < 2 ^ 63 := lt_trans hf (by norm_num)
  unfold arange arangeBody toInt64
  simp only [hs, decide_false, Bool.and_false, Bool.false_eq_true, if_false, h, decide_true, Bool.not_true, abs_of_pos, hf2, if_pos,
    Out.ok_bind, u32_of_lt hf0 hf, fillLoop_ok, Out.pure_eq]

/-- **C31**, `arange` over floating values: floor((stop - start) / step) elements, the `k`-th being `start + k * step`, as the
header documents. What is missing from the stated property: the last value before `stop` when the step does not divide the range
(see `C31_arange_false`). -/
theorem C31_arange_partial (asserts : Bool) (junk : Nat → K) (start stop step : K) (h : 0 < (stop - start) / step)
    (hl : (stop - start) / step < 2 ^ 32) :
    ∃ data, arange asserts junk start stop step = .ok ([data.length], data) ∧
      (data.length : Int) = ⌊(stop - start) / step⌋ ∧ ∀ k : Nat, k < data.length → data[k]? = some (start + k * step) := by
  refine ⟨(List.range ⌊(stop - start) / step⌋.toNat).map fun i : Nat => start + i * step,
    by rw [arange_eq asserts junk start stop step h hl]; simp, ?_, ?_⟩
  · simpa using Int.floor_nonneg.2 h.le
  · intro k hk
    simp only [List.length_map, List.length_range] at hk
    simp [hk]

/-- When the step divides the range exactly, the elements are exactly the values strictly before `stop`. -/
theorem C31_arange_divides (asserts : Bool) (junk : Nat → K) (start step : K) (n : Nat) (hs : step ≠ 0) (hn : 0 < n) (hl : n < 2 ^ 32) :
    ∃ data, arange asserts junk start (start + n * step) step = .ok ([n], data) ∧ data.length = n ∧
      (∀ k : Nat, k < n → data[k]? = some (start + k * step)) ∧
      ∀ k : Nat, k < n ↔ (0 < step ∧ start + k * step < start + n * step) ∨ (step < 0 ∧ start + n * step < start + k * step) := by
  have e : (start + n * step - start) / step = n := by field_simp; ring
  have h1 := arange_eq asserts junk start (start + n * step) step (by rw [e]; exact_mod_cast hn) (by rw [e]; exact_mod_cast hl)
  rw [e, Int.floor_natCast] at h1
  refine ⟨_, h1, by simp, fun k hk => by simp [hk], fun k => ?_⟩
  rcases lt_or_gt_of_ne hs with h | h
  · simp [h, h.not_gt]
  · simp [h, h.not_gt]

/-- With assertions compiled in, a step of zero or of the wrong sign is rejected. -/
theorem C31_arange_reject (junk : Nat → K) (start stop step : K) (h : step = 0 ∨ (stop - start) / step ≤ 0) :
    arange true junk start stop step = .throw .invalidArgument := by
  unfold arange
  rcases h with rfl | h
  · simp
  · by_cases hs : step = 0
    · simp [hs]
    · simp [hs, h.not_gt]

/-- `arange(start, stop)` is `arange(start, stop, 1)`. -/
theorem C31_arange2 (asserts : Bool) (junk : Nat → K) (start stop : K) :
    arange2 asserts junk start stop = arange asserts junk start stop 1 := by
  simp [arange2, arange]

/-- `arange(stop)` counts 0, 1, ... below `stop`. -/
theorem C31_arange1 (asserts : Bool) (junk : Nat → K) (stop : K) (h : 0 < stop) (hl : stop < 2 ^ 32) :
    ∃ data, arange1 asserts junk stop = .ok ([data.length], data) ∧ (data.length : Int) = ⌊stop⌋ ∧
      ∀ k : Nat, k < data.length → data[k]? = some (k : K) := by
  have h1 : arange1 asserts junk stop = arange asserts junk 0 stop 1 := by
    simp [arange1, arange, h]
  obtain ⟨data, e, e2, e3⟩ := C31_arange_partial asserts junk 0 stop 1 (by simpa using h) (by simpa using hl)
  refine ⟨data, h1.trans e, by simpa using e2, fun k hk => ?_⟩
  rw [e3 k hk]
  simp

/-- **C31**, `linspace` with more than one sample or without the end: `num` values, the first is `start`, equally spaced by
(stop - start) / (num - 1) or / num, and the last is `stop` or one spacing before it. -/
theorem C31_linspace_partial (asserts : Bool) (junk : Nat → Option K) (start stop : K) (num : Nat) (includeEnd : Bool)
    (h0 : 0 < num) (hl : num < 2 ^ 32) (h1 : includeEnd = true → 1 < num) :
    ∃ vals : List K, linspace asserts junk start stop num includeEnd = .ok ([num], vals.map some) ∧ vals.length = num ∧
      vals[0]? = some start ∧
      ∃ gap : K, (∀ (k : Nat) a b, vals[k]? = some a → vals[k + 1]? = some b → b = a + gap) ∧
        (includeEnd = true → vals[num - 1]? = some stop) ∧
        (includeEnd = false → ∃ last, vals[num - 1]? = some last ∧ last + gap = stop) := by
  generalize hd : (((num : Int) - (if includeEnd then 1 else 0) : Int) : K) = den
  have hden : den ≠ 0 := by
    rw [← hd]
    cases includeEnd with
    | true =>
      have := h1 rfl
      have h2 : (num : Int) - 1 ≠ 0 := by omega
      simpa using (Int.cast_ne_zero (α := K)).2 h2
    | false => simpa using h0.ne'
  have hval : ∀ i : Nat, linValue start stop den i = some (start + (stop - start) * i / den) := by
    intro i
    simp [linValue, hden]
  refine ⟨(List.range num).map (fun i : Nat => start + (stop - start) * i / den), ?_, by simp, by simp [h0], (stop - start) / den, ?_, ?_, ?_⟩
  · unfold linspace
    simp only [show (0 : Int) < (num : Int) by omega, decide_true, Bool.not_true, Bool.and_false, Bool.false_eq_true, if_false,
      u32_of_lt (show (0 : Int) ≤ (num : Int) by omega) (show (num : Int) < 2 ^ 32 by omega), fillLoop_ok, Out.ok_bind, Int.toNat_natCast,
      hd, Out.pure_eq, List.map_map]
    congr 3
    funext i
    exact hval i
  · intro k a b ha hb
    have hk : k + 1 < num := by
      by_cases hh : k + 1 < num
      · exact hh
      · rw [List.getElem?_eq_none (by simp; omega)] at hb
        cases hb
    simp [hk, show k < num by omega] at ha hb
    rw [← ha, ← hb]
    field_simp
    ring
  · rintro rfl
    have h2 := h1 rfl
    have h3 : ((num - 1 : Nat) : K) = den := by
      rw [← hd]
      push_cast [Nat.cast_sub (show 1 ≤ num by omega)]
      simp
    simp only [List.getElem?_map, List.getElem?_range (show num - 1 < num by omega), Option.map_some, h3]
    congr 1
    field_simp
    ring
  · rintro rfl
    have h3 : ((num - 1 : Nat) : K) = den - 1 := by
      rw [← hd]
      push_cast [Nat.cast_sub (show 1 ≤ num by omega)]
      simp
    simp only [List.getElem?_map, List.getElem?_range (show num - 1 < num by omega), Option.map_some, h3]
    refine ⟨_, rfl, ?_⟩
    field_simp
    ring

/-- A non-positive count is rejected when assertions are compiled in. -/
theorem C31_linspace_reject (junk : Nat → Option K) (start stop : K) (num : Int) (includeEnd : Bool) (h : num ≤ 0) :
    linspace true junk start stop num includeEnd = .throw .invalidArgument := by
  unfold linspace
  simp [h]

end Float

/-- `arange(0, 10, 3)` lacks 9. -/
theorem C31_arange_false : ¬ C31ArangeClaim ℚ := by
  intro h
  obtain ⟨data, e, h2⟩ := h true (fun _ => 0) 0 10 3 (by norm_num) (by norm_num)
  have e1 := arange_eq (K := ℚ) true (fun _ => 0) 0 10 3 (by norm_num) (by norm_num)
  have hfl : ⌊((10 : ℚ) - 0) / 3⌋ = 3 := by
    rw [Int.floor_eq_iff]
    constructor <;> norm_num
  rw [e1, hfl] at e
  have e2 := (Prod.mk.inj (Out.ok.inj e)).2
  have h3 := (h2 3).1.2 (by norm_num)
  rw [← e2] at h3
  simp at h3

/-- With one sample and the end included, the only element is 0/0. -/
theorem C31_linspace_one_false (asserts : Bool) (start stop : ℚ) :
    linspace asserts (fun _ => none) start stop 1 true = .ok ([1], [none]) := by
  unfold linspace
  simp only [show (0 : Int) < 1 by omega, decide_true, Bool.not_true, Bool.and_false, Bool.false_eq_true, if_false, fillLoop_ok]
  have : u32 1 = 1 := rfl
  simp [this, linValue]

/-- With integer arguments the values are computed in unsigned arithmetic: `arange(-3, 3)` and `arange(0, -5, -1)` with the
default scalar type `double` contain 2^64 - 3 and 2^64 - 1 where -3 and -1 are expected. -/
theorem C31_arange_int_false :
    (∃ data, arangeInt2 true (fun _ => 0) castReal (-3) 3 = .ok ([6], data) ∧ data[0]? = some (2 ^ 64 - 3)) ∧
    (∃ data, arangeInt true (fun _ => 0) castReal 0 (-5) (-1) = .ok ([5], data) ∧ data[1]? = some (2 ^ 64 - 1)) := by
  constructor
  · refine ⟨(List.range 6).map fun i => castReal (unsignedValue (-3) 1 i), ?_, by decide +kernel⟩
    unfold arangeInt2
    simp only [fillLoop_ok]
    decide +kernel
  · refine ⟨(List.range 5).map fun i => castReal (unsignedValue 0 (-1) i), ?_, by decide +kernel⟩
    unfold arangeInt
    simp only [fillLoop_ok]
    decide +kernel

/-- For integer arguments and a scalar type `int64_t`, or when no value is negative, the elements are `start + k * step`, and there
are trunc((stop - start) / step) of them. -/
theorem C31_arange_int_partial (asserts : Bool) (cast : Nat → Int) (junk : Nat → Int) (start stop step : Int)
    (h : 0 < (stop - start).tdiv step) (hl : (stop - start).tdiv step < 2 ^ 32)
    (hfit : ∀ k : Nat, (k : Int) < (stop - start).tdiv step → -2 ^ 63 ≤ start + k * step ∧ start + k * step < 2 ^ 63)
    (hc : cast = castInt64 ∨ (cast = castReal ∧ ∀ k : Nat, (k : Int) < (stop - start).tdiv step → 0 ≤ start + k * step)) :
    ∃ data, arangeInt asserts junk cast start stop step = .ok ([data.length], data) ∧
      (data.length : Int) = (stop - start).tdiv step ∧ ∀ k : Nat, k < data.length → data[k]? = some (start + k * step) := by
  have hs : step ≠ 0 := by
    rintro rfl
    simp at h
  have hn : u32 (((stop - start).tdiv step).natAbs : Int) = ((stop - start).tdiv step).toNat := by
    rw [Int.natAbs_of_nonneg h.le, u32_of_lt h.le hl]
  refine ⟨(List.range ((stop - start).tdiv step).toNat).map (fun k => cast (unsignedValue start step k)), ?_, ?_, ?_⟩
  · unfold arangeInt
    simp only [hs, decide_false, Bool.and_false, Bool.false_eq_true, if_false, h, decide_true, Bool.not_true, hn, fillLoop_ok,
      Out.ok_bind, List.length_map, List.length_range, Out.pure_eq]
  · simp only [List.length_map, List.length_range]
    omega
  · intro k hk
    simp only [List.length_map, List.length_range] at hk
    have hk' : (k : Int) < (stop - start).tdiv step := by omega
    have := hfit k hk'
    simp only [List.getElem?_map, List.getElem?_range hk, Option.map_some]
    congr 1
    unfold unsignedValue
    have h0 : cast = castInt64 ∨ (cast = castReal ∧ 0 ≤ start + (k : Int) * step) := hc.imp id fun h => ⟨h.1, h.2 k hk'⟩
    clear hc hfit hk hk' hn hs h hl
    generalize start + (k : Int) * step = v at *
    rcases h0 with rfl | ⟨rfl, h1⟩
    · unfold castInt64
      split <;> omega
    · unfold castReal
      omega

/-! Concrete cases. -/

example : ∃ data, arange (K := ℚ) true (fun _ => 0) 0 10 3 = .ok ([data.length], data) ∧ (data.length : Int) = ⌊((10 : ℚ) - 0) / 3⌋ ∧
    ∀ k : Nat, k < data.length → data[k]? = some ((0 : ℚ) + k * 3) :=
  C31_arange_partial true _ 0 10 3 (by norm_num) (by norm_num)

example : ∃ data, arange (K := ℚ) true (fun _ => 0) 5 (5 + (4 : Nat) * (-1 / 2)) (-1 / 2) = .ok ([4], data) ∧ data.length = 4 :=
  let ⟨d, h1, h2, _⟩ := C31_arange_divides (K := ℚ) true (fun _ => 0) 5 (-1 / 2) 4 (by norm_num) (by norm_num) (by norm_num)
  ⟨d, h1, h2⟩

example : ∃ vals : List ℚ, linspace true (fun _ => none) 1 3 (5 : Nat) true = .ok ([5], vals.map some) ∧ vals.length = 5 :=
  let ⟨d, h1, h2, _⟩ := C31_linspace_partial (K := ℚ) true (fun _ => none) 1 3 5 true (by norm_num) (by norm_num) (by norm_num)
  ⟨d, h1, h2⟩

example : ∃ data, arangeInt true (fun _ => 0) castInt64 10 0 (-3) = .ok ([data.length], data) ∧ (data.length : Int) = 3 :=
  let ⟨d, h1, h2, _⟩ := C31_arange_int_partial true castInt64 (fun _ => 0) 10 0 (-3) (by decide) (by decide) (fun k hk => by
    have : (k : Int) < 3 := hk
    omega) (.inl rfl)
  ⟨d, h1, h2⟩

end Verif.PseudoM
