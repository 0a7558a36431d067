import Verif.Model.CudaTranspose
import Verif.Props.Vendor

/-!
# Transposing matrices on CUDA (C138)

`transposeCuda asserts self e t outShape inp out`: what `out` holds after `out = t`, where `t` is the `Transpose` of an array with elements
`inp` of type `e`.
-/

namespace Verif.VendorM

open ShapeM MulM TransM

variable {α : Type}

/-- `b = transpose(a) * s` is evaluated: `transpose(a)` with the default axes (`MatrixShape()`, two zeros), then scaled, is an object whose assignment leaves
`f j i * s` in row i and column j of the destination. -/
def TransposeCorrect [Semiring α] [DecidableEq α] (asserts : Bool) (e : TElt) (r n : Nat) (s : α) (f : Nat → Nat → α) (inp out : List α) : Prop :=
  ∃ t u res, transposeFn asserts [r, n] [0, 0] (1 : α) = .ok t ∧ scaleT asserts (· * ·) t s = .ok u ∧
    transposeCuda asserts false e u [n, r] inp out = .ok res ∧ Holds res n r fun i j => s * f j i

/-- C138, for the scalars `α`. -/
def C138Claim (α : Type) [Semiring α] [DecidableEq α] : Prop :=
  ∀ (asserts : Bool) (e : TElt) (r n : Nat) (s : α) (f g : Nat → Nat → α) (inp out : List α), 0 < r → 0 < n → r < 2 ^ 31 → n < 2 ^ 31 →
    Holds inp r n f → Holds out n r g → TransposeCorrect asserts e r n s f inp out

/-- `transpose(a) * s` for a matrix. -/
theorem scaled_obj [Semiring α] (asserts : Bool) (r n : Nat) (s : α) :
    transposeFn asserts [r, n] [0, 0] (1 : α) = .ok ⟨[r, n], [n, r], [1, 0], 1⟩ ∧
      scaleT asserts (· * ·) (⟨[r, n], [n, r], [1, 0], 1⟩ : TObj α) s = .ok ⟨[r, n], [n, r], [1, 0], s⟩ := by
  have mk : ∀ al : α, mkT asserts [r, n] [1, 0] al = .ok ⟨[r, n], [n, r], [1, 0], al⟩ := by
    intro al
    cases asserts <;> rfl
  refine ⟨?_, ?_⟩
  · cases asserts <;> rfl
  · simp [scaleT, mk]

/-- The call of cuBLAS for a matrix with at least as many columns as rows. -/
theorem transposeGeam_wide [Semiring α] [DecidableEq α] {r n : Nat} {s : α} {inp out : List α} (hr : 0 < r) (hn : 0 < n) (hr' : r < 2 ^ 31)
    (hn' : n < 2 ^ 31) (hle : r ≤ n) (hi : inp.length = r * n) (ho : out.length = n * r) :
    transposeGeam false r n s inp out = .ok (Layout.store ⟨r, n, r, .col⟩ (fun i j _ =>
      s * Layout.read ⟨n, r, n, .col⟩ true inp i j + 0 * Layout.read ⟨r, n, n, .col⟩ false inp i j) out) := by
  have h1 : (r - 1) * n + n = r * n := by
    obtain ⟨k, rfl⟩ : ∃ k, r = k + 1 := ⟨r - 1, by omega⟩
    simp [Nat.succ_mul]
  have h2 : (n - 1) * r + r = n * r := by
    obtain ⟨k, rfl⟩ : ∃ k, n = k + 1 := ⟨n - 1, by omega⟩
    simp [Nat.succ_mul]
  have h3 : ¬ ((r : Int) < 0 ∨ (n : Int) < 0 ∨ (n : Int) < 0 ∨ (n : Int) < 0 ∨ (r : Int) < 0) := by omega
  have h4 : ¬ ((r : Int) = 0 ∨ (n : Int) = 0) := by omega
  unfold transposeGeam geamRoutine
  rw [toInt_small hr', toInt_small hn']
  simp only [Int.toNat_natCast, Layout.valid, Layout.span, if_true, Bool.false_eq_true, if_false, h3, h4, le_refl, hle, decide_true, Bool.and_self,
    Bool.not_true, h1, h2, hi, ho, or_true, true_or, and_self, not_true_eq_false, safeCall]

/-- The call of cuBLAS for a matrix with fewer columns than rows: the leading dimension of the matrix that is multiplied by 0 is refused. -/
theorem transposeGeam_tall [Semiring α] [DecidableEq α] {self : Bool} {r n : Nat} {s : α} {inp out : List α} (hr' : r < 2 ^ 31)
    (hn' : n < 2 ^ 31) (hlt : n < r) : transposeGeam self r n s inp out = .throw .runtimeError := by
  have h3 : ¬ ((r : Int) < 0 ∨ (n : Int) < 0 ∨ (n : Int) < 0 ∨ (n : Int) < 0 ∨ (r : Int) < 0) := by omega
  have hle : ¬ r ≤ n := by omega
  unfold transposeGeam geamRoutine
  rw [toInt_small hr', toInt_small hn']
  simp only [Int.toNat_natCast, Layout.valid, if_true, Bool.false_eq_true, if_false, h3, hle, decide_false, Bool.and_false, Bool.false_and,
    Bool.not_false]
  cases self <;> rfl

/-- **C138** for the four types that cuBLAS has and matrices with no more rows than columns, all extents from 1 to 2^31 - 1, contents and
scales. Missing: more rows than columns, and the other element types, for which the property is false. -/
theorem C138_partial [Semiring α] [DecidableEq α] (asserts : Bool) (e : TElt) (r n : Nat) (s : α) (f g : Nat → Nat → α) (inp out : List α)
    (hr : 0 < r) (hn : 0 < n) (hr' : r < 2 ^ 31) (hn' : n < 2 ^ 31) (hi : Holds inp r n f) (ho : Holds out n r g) (he : e ≠ .other)
    (hle : r ≤ n) : TransposeCorrect asserts e r n s f inp out := by
  obtain ⟨h1, h2⟩ := scaled_obj asserts r n s
  rw [holds_iff] at hi ho
  refine ⟨_, _, Layout.store ⟨r, n, r, .col⟩ (fun i j _ =>
      s * Layout.read ⟨n, r, n, .col⟩ true inp i j + 0 * Layout.read ⟨r, n, n, .col⟩ false inp i j) out, h1, h2, ?_,
    holds_iff.2 ⟨?_, fun i j hi' hj => ?_⟩⟩
  · have := transposeGeam_wide (s := s) hr hn hr' hn' hle hi.1 ho.1
    unfold transposeCuda
    simp only [Bool.not_false, decide_true, Out.assert_true, Out.ok_bind, applyShape]
    cases e <;> first | exact absurd rfl he | exact this
  · rw [store_length, ho.1]
  · have hv := ho.2 i j hi' hj
    have := store_at (l := ⟨r, n, r, .col⟩) (by simp [Layout.valid]) (fun i j (_ : α) =>
      s * Layout.read ⟨n, r, n, .col⟩ true inp i j + 0 * Layout.read ⟨r, n, n, .col⟩ false inp i j) (i := j) (j := i) hj hi' hv
    refine this.trans ?_
    have hx := hi.2 j i hj hi'
    simp [Layout.read, Layout.pos, List.getD, hx]

/-- The hypotheses are met: a 2x3 matrix of `float`, times 10. -/
example : transposeCuda true false .float (⟨[2, 3], [3, 2], [1, 0], 10⟩ : TObj Int) [3, 2] [1, 2, 3, 4, 5, 6] [0, 0, 0, 0, 0, 0] =
    .ok [10, 40, 20, 50, 30, 60] := by decide

/-- A matrix with more rows than columns cannot be transposed on CUDA, whatever the elements, their type, the scale, the build and the
destination (right shape): cuBLAS is given the number of columns as the leading dimension of a matrix that it takes to have `r` rows,
only to multiply it by 0. -/
theorem C138_tall [Semiring α] [DecidableEq α] (asserts : Bool) (e : TElt) (r n : Nat) (s : α) (inp out : List α)
    (hr' : r < 2 ^ 31) (hn' : n < 2 ^ 31) (hlt : n < r) (axes : List Nat) :
    ∃ x, transposeCuda asserts false e (⟨[r, n], [n, r], axes, s⟩ : TObj α) [n, r] inp out = .throw x := by
  have := transposeGeam_tall (self := false) (s := s) (inp := inp) (out := out) hr' hn' hlt
  unfold transposeCuda
  simp only [Bool.not_false, decide_true, Out.assert_true, Out.ok_bind, applyShape]
  cases e <;> first | exact ⟨_, this⟩ | exact ⟨_, rfl⟩

/-- Nor can any matrix of halves or integers. -/
theorem C138_other [Semiring α] [DecidableEq α] (asserts : Bool) (t : TObj α) (inp out : List α) :
    transposeCuda asserts false .other t t.output inp out = .throw (if asserts then .assertion else .runtimeError) := by
  unfold transposeCuda
  simp only [Bool.not_false, decide_true, Out.assert_true, Out.ok_bind]
  rcases t with ⟨i, o, a, s⟩
  rcases i with _ | ⟨r, _ | ⟨n, _ | ⟨k, i⟩⟩⟩ <;> cases asserts <;> rfl

/-- Exactly which matrices are transposed. -/
theorem C138_iff [Semiring α] [DecidableEq α] (asserts : Bool) (e : TElt) (r n : Nat) (s : α) (f g : Nat → Nat → α) (inp out : List α)
    (hr : 0 < r) (hn : 0 < n) (hr' : r < 2 ^ 31) (hn' : n < 2 ^ 31) (hi : Holds inp r n f) (ho : Holds out n r g) :
    TransposeCorrect asserts e r n s f inp out ↔ e ≠ .other ∧ r ≤ n := by
  constructor
  · rintro ⟨t, u, res, h1, h2, h3, -⟩
    obtain ⟨k1, k2⟩ := scaled_obj asserts r n s
    rw [k1] at h1
    injection h1 with h1
    rw [← h1, k2] at h2
    injection h2 with h2
    rw [← h2] at h3
    refine ⟨?_, ?_⟩
    · rintro rfl
      have := C138_other asserts (⟨[r, n], [n, r], [1, 0], s⟩ : TObj α) inp out
      rw [this] at h3
      cases h3
    · by_contra hc
      obtain ⟨x, hx⟩ := C138_tall asserts e r n s inp out hr' hn' (by omega) [1, 0]
      rw [hx] at h3
      cases h3
  · exact fun h => C138_partial asserts e r n s f g inp out hr hn hr' hn' hi ho h.1 h.2

/-- Transposing a matrix of `float` into itself: an exception with assertions, undefined without. -/
theorem C138_self [Semiring α] [DecidableEq α] (r n : Nat) (s : α) (inp out : List α) (axes : List Nat) (hr : 0 < r) (hr' : r < 2 ^ 31)
    (hn' : n < 2 ^ 31) (hle : r ≤ n) :
    transposeCuda true true .float (⟨[r, n], [n, r], axes, s⟩ : TObj α) [n, r] inp out = .throw .assertion ∧
      transposeCuda false true .float (⟨[r, n], [n, r], axes, s⟩ : TObj α) [n, r] inp out = .ub := by
  refine ⟨rfl, ?_⟩
  have h3 : ¬ ((r : Int) < 0 ∨ (n : Int) < 0 ∨ (n : Int) < 0 ∨ (n : Int) < 0 ∨ (r : Int) < 0) := by omega
  have h4 : ¬ ((r : Int) = 0 ∨ (n : Int) = 0) := by omega
  unfold transposeCuda
  simp only [Out.assert_off, Out.ok_bind, applyShape, transposeImplCuda, transposeGeam, if_true]
  unfold geamRoutine
  rw [toInt_small hr', toInt_small hn']
  simp only [Int.toNat_natCast, Layout.valid, if_true, Bool.false_eq_true, if_false, h3, h4, le_refl, hle, decide_true, Bool.and_self, Bool.not_true]
  split <;> rfl

/-- **C138** is false: a column of two elements cannot be transposed. -/
theorem C138_false : ¬ C138Claim Int := by
  intro h
  have hi : Holds [1, 2] 2 1 (fun i _ => if i = 0 then (1 : Int) else 2) := holds_iff.2 ⟨rfl, fun i j hi hj => by
    obtain rfl : j = 0 := by omega
    rcases i with _ | _ | i <;> first | rfl | omega⟩
  have ho : Holds [0, 0] 1 2 (fun _ _ => (0 : Int)) := holds_iff.2 ⟨rfl, fun i j hi hj => by
    obtain rfl : i = 0 := by omega
    rcases j with _ | _ | j <;> first | rfl | omega⟩
  have := h true .float 2 1 1 _ _ _ _ (by decide) (by decide) (by decide) (by decide) hi ho
  have := ((C138_iff _ _ _ _ _ _ _ _ _ (by decide) (by decide) (by decide) (by decide) hi ho).1 this).2
  omega

end Verif.VendorM
