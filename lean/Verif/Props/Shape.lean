import Verif.Model.Shape
import Verif.Lemmas.Grid

/-! Property theorems for shapes (C14, C15). -/

namespace Verif.ShapeM

open Grid

/-! ### C14 -/

theorem foldl_mod (e : List Nat) (r : Nat) :
    e.foldl (fun res d => res * d % two64) (r % two64) = r * count e % two64 := by
  induction e generalizing r with
  | nil => simp [count]
  | cons d ds ih =>
    simp only [List.foldl_cons, count]
    have h : r % two64 * d % two64 = r * d % two64 := by rw [Nat.mod_mul_mod]
    rw [h, ih, ← Nat.mul_assoc]

/-- The full property C14, with assertions on: sizes are the products of the extents, and sub-shapes are exactly the
requested extents inside `0 ≤ a ≤ b ≤ ndim` (`-1` standing for the end) and rejected outside. -/
def C14Claim : Prop :=
  ∀ s : AnyShape, Valid s →
    size s = count (ext s) ∧
    ∀ a b : Int, let b' := if b = -1 then ((ext s).length : Int) else b
      (0 ≤ a ∧ a ≤ b' ∧ b' ≤ (ext s).length →
        subshape true s a b = .ok (((ext s).drop a.toNat).take (b'.toNat - a.toNat))) ∧
      (¬ (0 ≤ a ∧ a ≤ b' ∧ b' ≤ (ext s).length) → (subshape true s a b).isOk = false)

/-- A 65536 by 65536 `MatrixShape` reports 0 elements. -/
theorem C14_matrix_size_false : Valid (.matrix 65536 65536) ∧ size (.matrix 65536 65536) = 0 ∧
    count (ext (.matrix 65536 65536)) = 4294967296 := by decide

/-- A `Shape` of 2^64 elements reports 0 elements. -/
theorem C14_shape_size_false : Valid (.shape [2147483648, 2147483648, 4]) ∧
    size (.shape [2147483648, 2147483648, 4]) = 0 := by decide

/-- The sub-shape (0, 1) of a `VectorShape` of 5 elements has extent 0, not 5. -/
theorem C14_vector_subshape_false : subshape true (.vector 5) 0 1 = .ok [0] ∧ subshape true (.vector 5) 1 1 = .ok [0] := by
  decide

/-- A negative start other than a valid one is accepted by `Shape::subshape`. -/
theorem C14_negative_start_false : subshape true (.shape [2, 3]) (-7) 1 = .ok [2] := by decide

/-- `MatrixShape::subshape` rejects `-1` as the end. -/
theorem C14_matrix_end_false : subshape true (.matrix 2 3) 0 (-1) = .throw .invalidArgument := by decide

/-- **C14** is false of the code. -/
theorem C14_false : ¬ C14Claim := by
  intro h
  have h1 := (h (.matrix 65536 65536) C14_matrix_size_false.1).1
  rw [C14_matrix_size_false.2.1, C14_matrix_size_false.2.2] at h1
  cases h1

/-- **C14**, sizes: the exact value each class returns, for every shape. -/
theorem C14_size_partial (s : AnyShape) (hv : Valid s) :
    match s with
    | .shape _ => size s = count (ext s) % 2 ^ 64
    | .matrix _ _ => size s = count (ext s) % 2 ^ 32
    | .vector _ => size s = count (ext s) := by
  cases s with
  | shape e =>
    have h := foldl_mod e 1
    have h1 : (1 : Nat) % two64 = 1 := by decide
    rw [h1, Nat.one_mul] at h
    exact h
  | matrix r c => simp [size, ext, count, two32]
  | vector n => simp [size, ext, count]

/-- **C14**, sizes: below 2^32 elements every class returns the product of the extents. -/
theorem C14_small_size_partial (s : AnyShape) (hv : Valid s) (hc : count (ext s) < 2 ^ 32) : size s = count (ext s) := by
  have h := C14_size_partial s hv
  cases s with
  | shape e => rw [h, Nat.mod_eq_of_lt (by omega)]
  | matrix r c => rw [h, Nat.mod_eq_of_lt hc]
  | vector n => exact h

example : Valid (.shape [2, 3, 4]) ∧ count (ext (.shape [2, 3, 4])) < 2 ^ 32 ∧ size (.shape [2, 3, 4]) = 24 := by decide

/-- **C14**, sub-shapes of `Shape` and `MatrixShape` with any build: a range inside the dimensions gives exactly those
extents. -/
theorem C14_subshape_partial (asserts : Bool) (s : AnyShape) (hs : ∀ n, s ≠ .vector n) (a b : Nat)
    (hab : a ≤ b) (hb : b ≤ (ext s).length) :
    subshape asserts s a b = .ok (((ext s).drop a).take (b - a)) := by
  have core : ∀ e : List Nat, b ≤ e.length → shapeSubshape asserts e a b = .ok ((e.drop a).take (b - a)) := by
    intro e hb
    have h1 : ((a : Int) ≤ (b : Int)) := by omega
    have h2 : ((b : Int) ≤ (e.length : Int)) := by omega
    have h3 : ¬ ((a : Int) < 0) := by omega
    have h4 : ¬ ((b : Int) < 0) := by omega
    simp only [shapeSubshape, if_neg h3, if_neg h4, decide_eq_true h1, decide_eq_true h2, Bool.not_true, Bool.and_false,
      copyRange, Bool.false_eq_true, if_false]
    rw [if_pos ⟨by omega, h1, h2⟩]
    simp
  cases s with
  | shape e => exact core e hb
  | matrix r c =>
    have h1 : ((a : Int) ≤ (b : Int)) := by omega
    have h2 : ((b : Int) ≤ 2) := by simp [ext] at hb; omega
    have h3 : ((0 : Int) ≤ (a : Int)) := by omega
    simp only [subshape, decide_eq_true h1, decide_eq_true h2, decide_eq_true h3, Bool.not_true, Bool.and_false,
      Bool.false_eq_true, if_false]
    exact core [r, c] hb
  | vector n => exact absurd rfl (hs n)

example : subshape true (.shape [4, 5, 6, 7]) 1 3 = .ok [5, 6] :=
  C14_subshape_partial true (.shape [4, 5, 6, 7]) (by simp) 1 3 (by decide) (by decide)

/-- **C14**: for a `Shape`, every negative end means the end. -/
theorem C14_subshape_end_partial (asserts : Bool) (e : List Nat) (a : Nat) (b : Int) (hb : b < 0) (ha : a ≤ e.length) :
    subshape asserts (.shape e) a b = .ok (e.drop a) := by
  have h := C14_subshape_partial asserts (.shape e) (by simp) a e.length ha (Nat.le_refl _)
  have h4 : ¬ ((e.length : Int) < 0) := by omega
  simp only [subshape, shapeSubshape, if_pos hb, if_neg h4] at h ⊢
  rw [h]
  simp only [ext]
  rw [List.take_of_length_le (by simp)]

example : subshape true (.shape [4, 5, 6]) 1 (-1) = .ok [5, 6] :=
  C14_subshape_end_partial true [4, 5, 6] 1 (-1) (by decide) (by decide)

/-- **C14**: with assertions on, every class rejects a range that is reversed or leaves the dimensions. -/
theorem C14_subshape_reject_partial (s : AnyShape) (a b : Nat) (h : ¬ (a ≤ b ∧ b ≤ (ext s).length)) :
    (subshape true s a b).isOk = false := by
  have core : ∀ e : List Nat, ¬ (a ≤ b ∧ b ≤ e.length) → (shapeSubshape true e a b).isOk = false := by
    intro e h
    have h3 : ¬ ((a : Int) < 0) := by omega
    have h4 : ¬ ((b : Int) < 0) := by omega
    simp only [shapeSubshape, if_neg h3, if_neg h4]
    by_cases c : (a : Int) ≤ (b : Int)
    · have h2 : ¬ ((b : Int) ≤ (e.length : Int)) := by omega
      simp only [decide_eq_true c, decide_eq_false h2]
      rfl
    · simp only [decide_eq_false c]
      rfl
  cases s with
  | shape e => exact core e h
  | matrix r c =>
    simp only [subshape]
    by_cases c1 : (a : Int) ≤ (b : Int)
    · have h2 : ¬ ((b : Int) ≤ 2) := by simp [ext] at h; omega
      simp only [decide_eq_true c1, decide_eq_false h2]
      rfl
    · simp only [decide_eq_false c1]
      rfl
  | vector n =>
    simp only [subshape]
    by_cases c1 : (a : Int) ≤ (b : Int)
    · have h2 : ¬ ((b : Int) ≤ 1) := by simp [ext] at h; omega
      simp only [decide_eq_true c1, decide_eq_false h2]
      rfl
    · simp only [decide_eq_false c1]
      rfl

example : (subshape true (.shape [4, 5]) 1 3).isOk = false :=
  C14_subshape_reject_partial (.shape [4, 5]) 1 3 (by decide)

/-- **C14**: a `Shape` built from at most 16 values in the range of an extent has exactly these extents; from more than 16
values the construction is undefined. -/
theorem C14_construct (vals : List Nat) (hr : ∀ v ∈ vals, v < 2 ^ 32) :
    (vals.length ≤ 16 → ofList (vals.map (↑)) = .ok (.shape vals)) ∧
    (16 < vals.length → ofList (vals.map (↑)) = .ub) := by
  constructor
  · intro h
    have e : (vals.map ((↑) : Nat → Int)).map u32 = vals := by
      rw [List.map_map]
      conv => rhs; rw [← List.map_id vals]
      apply List.map_congr_left
      intro v hv
      have := hr v hv
      simp only [Function.comp, u32, two32, id]
      omega
    unfold ofList
    rw [if_pos (by simpa [maxDims] using h), e]
  · intro h
    unfold ofList
    rw [if_neg (by simp only [maxDims, List.length_map]; omega)]

example : ofList [3, 4] = .ok (.shape [3, 4]) := (C14_construct [3, 4] (by decide)).1 (by decide)

theorem u32_nat {v : Nat} (h : v < 2 ^ 32) : u32 (v : Int) = v := by simp only [u32, two32]; omega

/-- **C14**: the two special classes hold exactly the values they are built from, in order; one value makes a matrix of one
column; a wrong number of values is rejected when assertions are on. -/
theorem C14_construct_classes (b : Bool) {r c : Nat} (hr : r < 2 ^ 32) (hc : c < 2 ^ 32) :
    (∃ s, matrixOfList b [r, c] = .ok s ∧ ext s = [r, c]) ∧ (∃ s, matrixOfList b [r] = .ok s ∧ ext s = [r, 1]) ∧
    (∃ s, vectorOfList b [r] = .ok s ∧ ext s = [r]) ∧
    (∀ l, 2 < l.length → (matrixOfList true l).isOk = false) ∧ ∀ l, l.length ≠ 1 → (vectorOfList true l).isOk = false := by
  refine ⟨⟨.matrix r c, ?_, rfl⟩, ⟨.matrix r 1, ?_, rfl⟩, ⟨.vector r, ?_, rfl⟩, fun l hl => ?_, fun l hl => ?_⟩
  · simp [matrixOfList, u32_nat hr, u32_nat hc]
  · simp [matrixOfList, u32_nat hr]
  · simp [vectorOfList, u32_nat hr]
  · have : ¬ l.length ≤ 2 := by omega
    simp [matrixOfList, this, Out.isOk]
  · simp [vectorOfList, hl, Out.isOk]

/-- **C14**: conversions between the classes keep the extents: any class converts to `Shape`, and back to the class it came
from; a `Shape` of one dimension converts to a matrix of one column. -/
theorem C14_convert (b : Bool) (s : AnyShape) :
    ext (toShape s) = ext s ∧ ndim (toShape s) = (ext s).length ∧
    (∀ r c, s = .matrix r c → matrixOfShape b (ext (toShape s)) = .ok s) ∧
    (∀ n, s = .vector n → vectorOfShape b (ext (toShape s)) = .ok s ∧
      ∃ t, matrixOfShape b (ext (toShape s)) = .ok t ∧ ext t = [n, 1]) := by
  cases s <;> simp [toShape, ext, ndim, matrixOfShape, vectorOfShape]

example : matrixOfShape true (ext (toShape (.matrix 3 4))) = .ok (.matrix 3 4) :=
  (C14_convert true (.matrix 3 4)).2.2.1 3 4 rfl

/-! ### C15 -/

theorem shapeEqLoop_iff {a b : List Nat} (h : a.length = b.length) : shapeEqLoop a b = true ↔ a = b := by
  induction a generalizing b with
  | nil => cases b <;> simp_all [shapeEqLoop]
  | cons x xs ih =>
    cases b with
    | nil => simp at h
    | cons y ys =>
      unfold shapeEqLoop
      by_cases c : x = y
      · rw [if_neg (by simpa using c), ih (by simpa using h)]; simp [c]
      · rw [if_pos c]; simp [c]

theorem shapeEq_iff {a b : List Nat} : shapeEq a b = true ↔ a = b := by
  unfold shapeEq
  by_cases c : a.length = b.length
  · rw [if_neg (by simpa using c), shapeEqLoop_iff c]
  · rw [if_pos c]
    constructor
    · simp
    · intro h; exact absurd (congrArg List.length h) c

/-- **C15**, comparison: whenever a comparison of two shape objects (of whatever classes) is available, it is true exactly
when the two extent lists are equal, and `!=` is its negation. -/
theorem C15_compare (a b : AnyShape) (r : Bool) (h : eq a b = some r) :
    (r = true ↔ ext a = ext b) ∧ ne a b = some (!r) := by
  refine ⟨?_, by simp [ne, h]⟩
  cases a with
  | shape x =>
    cases b with
    | shape y => simp only [eq, Option.some.injEq] at h; subst h; exact shapeEq_iff
    | matrix p q =>
      simp only [eq, Option.some.injEq] at h; subst h
      match x with
      | [] => simp [ext]
      | [_] => simp [ext]
      | [u, v] => simp [ext]
      | _ :: _ :: _ :: _ => simp [ext]
    | vector n =>
      simp only [eq, Option.some.injEq] at h; subst h
      match x with
      | [] => simp [ext]
      | [u] => simp [ext]
      | _ :: _ :: _ => simp [ext]
  | matrix p q =>
    cases b with
    | shape x =>
      simp only [eq, Option.some.injEq] at h; subst h
      match x with
      | [] => simp [ext]
      | [_] => simp [ext]
      | [u, v] => simp [ext, @eq_comm _ u, @eq_comm _ v]
      | _ :: _ :: _ :: _ => simp [ext]
    | matrix _ _ => cases h
    | vector _ => simp only [eq, Option.some.injEq] at h; subst h; simp [ext]
  | vector n =>
    cases b with
    | shape x =>
      simp only [eq, Option.some.injEq] at h; subst h
      match x with
      | [] => simp [ext]
      | [u] => simp [ext, @eq_comm _ u]
      | _ :: _ :: _ => simp [ext]
    | matrix _ _ => simp only [eq, Option.some.injEq] at h; subst h; simp [ext]
    | vector _ => cases h

example : eq (.shape [2, 3]) (.matrix 2 3) = some true ∧ eq (.shape [2, 3]) (.shape [2, 3, 1]) = some false := by decide

/-- The full n-ary part of C15: the match succeeds exactly when all shapes are equal. -/
def C15MatchClaim : Prop := ∀ l : List (List Nat), shapesMatch l = true ↔ AllSame l

/-- **C15** is false of the code for three shapes: the third one is never compared. -/
theorem C15_match_false : ¬ C15MatchClaim := by
  intro h
  have h1 := (h [[2], [2], [3]]).1 (by decide)
  have h2 := h1 [2] (by simp) [3] (by simp)
  cases h2

/-- **C15**, n-ary match: the code accepts exactly when the shapes at positions `2i` and `2i + 1` agree for every `i`. -/
theorem C15_match_partial (l : List (List Nat)) :
    shapesMatch l = true ↔ ∀ i a b, l[2 * i]? = some a → l[2 * i + 1]? = some b → a = b := by
  induction l using shapesMatch.induct with
  | case1 a b =>
    simp only [shapesMatch, shapeEq_iff]
    constructor
    · intro h i x y hx hy
      cases i with
      | zero => simp_all
      | succ i => simp [Nat.mul_add] at hx
    · intro h; exact h 0 a b rfl rfl
  | case2 a b rest hr ih =>
    unfold shapesMatch
    · simp only [Bool.and_eq_true, shapeEq_iff, ih]
      constructor
      · rintro ⟨h1, h2⟩ i x y hx hy
        cases i with
        | zero => simp_all
        | succ i => exact h2 i x y (by simpa [Nat.mul_add] using hx) (by simpa [Nat.mul_add] using hy)
      · intro h
        refine ⟨h 0 a b rfl rfl, fun i x y hx hy => h (i + 1) x y ?_ ?_⟩
        · simpa [Nat.mul_add] using hx
        · simpa [Nat.mul_add] using hy
  | case3 l h1 h2 =>
    match l, h1, h2 with
    | [], _, _ => simp [shapesMatch]
    | [a], _, _ => simp [shapesMatch]
    | [a, b], h1, _ => exact absurd rfl (h1 a b)
    | a :: b :: c :: r, _, h2 => exact absurd rfl (h2 a b (c :: r))

/-- **C15**, n-ary match: equal shapes are never rejected, and for two shapes the answer is exact. -/
theorem C15_match_same_partial (l : List (List Nat)) (h : AllSame l) : shapesMatch l = true :=
  (C15_match_partial l).2 fun _ a b ha hb => h a (List.mem_of_getElem? ha) b (List.mem_of_getElem? hb)

theorem C15_match_two_partial (a b : List Nat) : shapesMatch [a, b] = true ↔ AllSame [a, b] := by
  simp only [shapesMatch, shapeEq_iff, AllSame]
  constructor
  · rintro rfl; simp
  · intro h; exact h a (by simp) b (by simp)

example : AllSame [[2, 3], [2, 3], [2, 3]] ∧ shapesMatch [[2, 3], [2, 3], [2, 3]] = true := by
  refine ⟨by simp [AllSame], by decide⟩

end Verif.ShapeM
