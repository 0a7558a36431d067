import Verif.Lemmas.Transpose
import Mathlib.Algebra.Group.Defs
import Mathlib.Data.List.Perm.Basic

/-!
# Transposition (C33, C35)

`Apply ... t src dst outShape m o`: evaluating the `Transpose` object `t` over storage `src` into storage `dst` can have outcome `o`,
over all thread counts, distributions of the blocks and interleavings.
-/

namespace Verif.TransM

open ShapeM Conc Grid

variable {α : Type}

theorem apply_matrix {mul : α → α → α} {asserts small : Bool} {threshold bs : Nat} {t : TObj α} {src dst rows cols : Nat} {m : Mem α}
    {outShape : List Nat} (hin : t.input = [rows, cols]) (hout : asserts = true → outShape = t.output) (hne : src ≠ dst)
    (hsrc : (m src).length = rows * cols) (hdst : (m dst).length = rows * cols) (hb : 0 < bs) :
    ∃ res, (∀ o, Apply mul asserts small threshold bs t src dst outShape m o ↔ o = .ok res) ∧
      (res dst).length = rows * cols ∧
      (∀ row col v, row < rows → col < cols → (m src)[row * cols + col]? = some v →
        (res dst)[col * rows + row]? = some (mul v t.alpha)) ∧
      ∀ id, id ≠ dst → res id = m id := by
  obtain ⟨res, h1, h2, h3, h4⟩ := transpose_loop (mul := mul) (alpha := t.alpha) hne hsrc hdst hb
  refine ⟨res, fun o => ?_, h2, h3, h4⟩
  have hiff : TransposeImpl mul small threshold src dst rows cols t.alpha bs m o ↔ o = .ok res := outcome_iff h1
  rw [← hiff]
  constructor
  · intro h
    cases h with
    | inPlace _ h => exact absurd h hne
    | mismatch h _ h' => exact absurd (hout h) h'
    | notImplemented _ h => rw [hin] at h; exact absurd rfl h
    | matrix _ h h' =>
      rw [hin] at h
      obtain ⟨rfl, rfl⟩ : rows = _ ∧ cols = _ := by simpa using h
      exact h'
  · intro h
    exact .matrix (fun ha => ⟨hne, hout ha⟩) hin h

/-- **C33**: `s * transpose(a)` (or `transpose(a) * s`) for a `rows` by `cols` array `a`, evaluated into another array of `cols` by
`rows`, has exactly one outcome, whatever the block size, the threshold, the number of threads, the distribution of the work and
the interleaving: element (j, i) is a(i, j) scaled, and no other array changes. -/
theorem C33 [MulOneClass α] (asserts small : Bool) (threshold blockSize rows cols src dst : Nat) (m : Mem α) (s : α) (hb : 0 < blockSize)
    (hne : src ≠ dst) (hsrc : (m src).length = rows * cols) (hdst : (m dst).length = rows * cols) :
    ∃ t t' res, transposeFn asserts [rows, cols] [0, 0] (1 : α) = .ok t ∧ scaleT asserts (· * ·) t s = .ok t' ∧
      t.output = [cols, rows] ∧ t'.output = [cols, rows] ∧
      (∀ o, Apply (· * ·) asserts small threshold blockSize t' src dst [cols, rows] m o ↔ o = .ok res) ∧
      (∀ (k k' i j : Nat), (coords [rows, cols])[k]? = some [i, j] → (coords [cols, rows])[k']? = some [j, i] →
        (res dst)[k']? = (m src)[k]?.map (· * s)) ∧
      (res dst).length = rows * cols ∧ ∀ id, id ≠ dst → res id = m id := by
  obtain ⟨res, h1, h2, h3, h4⟩ := apply_matrix (mul := (· * ·)) (asserts := asserts) (small := small) (threshold := threshold) (bs := blockSize)
    (t := ⟨[rows, cols], [cols, rows], [1, 0], 1 * s⟩) (src := src) (dst := dst) (rows := rows) (cols := cols) (m := m)
    (outShape := [cols, rows]) rfl (fun _ => rfl) hne hsrc hdst hb
  refine ⟨⟨[rows, cols], [cols, rows], [1, 0], 1⟩, _, res, ?_, ?_, rfl, rfl, h1, ?_, h2, h4⟩
  · cases asserts <;> rfl
  · cases asserts <;> rfl
  · intro k k' i j hk hk'
    obtain ⟨hin, rfl⟩ := coords_eq_iff.1 hk
    obtain ⟨-, rfl⟩ := coords_eq_iff.1 hk'
    cases hin with
    | cons hi hin2 => cases hin2 with
      | cons hj _ =>
        have e1 : ravel [rows, cols] [i, j] = i * cols + j := by simp [ravel, count]
        have e2 : ravel [cols, rows] [j, i] = j * rows + i := by simp [ravel, count]
        have hlt : i * cols + j < (m src).length := by
          rw [hsrc, Nat.mul_comm rows cols]
          exact pos_lt hj hi
        rw [e1, e2, h3 i j _ hi hj (List.getElem?_eq_getElem hlt), List.getElem?_eq_getElem hlt, one_mul]
        rfl

/-- Transposing the result again gives back the array. -/
theorem C33_twice [MulOneClass α] (asserts small : Bool) (threshold blockSize rows cols src dst dst2 : Nat) (m res res2 : Mem α)
    (hb : 0 < blockSize) (hne : src ≠ dst) (hne2 : dst ≠ dst2) (hsrc : (m src).length = rows * cols)
    (hdst : (m dst).length = rows * cols) (hdst2 : (m dst2).length = rows * cols) (t t2 : TObj α)
    (ht : transposeFn asserts [rows, cols] [0, 0] (1 : α) = .ok t) (ht2 : transposeFn asserts [cols, rows] [0, 0] (1 : α) = .ok t2)
    (h1 : Apply (· * ·) asserts small threshold blockSize t src dst [cols, rows] m (.ok res))
    (h2 : Apply (· * ·) asserts small threshold blockSize t2 dst dst2 [rows, cols] res (.ok res2)) : res2 dst2 = m src := by
  have et : t = ⟨[rows, cols], [cols, rows], [1, 0], 1⟩ := by
    have : transposeFn asserts [rows, cols] [0, 0] (1 : α) = .ok ⟨[rows, cols], [cols, rows], [1, 0], 1⟩ := by cases asserts <;> rfl
    rw [this] at ht
    exact (Out.ok.inj ht).symm
  have et2 : t2 = ⟨[cols, rows], [rows, cols], [1, 0], 1⟩ := by
    have : transposeFn asserts [cols, rows] [0, 0] (1 : α) = .ok ⟨[cols, rows], [rows, cols], [1, 0], 1⟩ := by cases asserts <;> rfl
    rw [this] at ht2
    exact (Out.ok.inj ht2).symm
  subst et et2
  obtain ⟨r1, a1, a2, a3, a4⟩ := apply_matrix (mul := (· * ·)) (asserts := asserts) (small := small) (threshold := threshold) (bs := blockSize)
    (t := ⟨[rows, cols], [cols, rows], [1, 0], (1 : α)⟩) (outShape := [cols, rows]) rfl (fun _ => rfl) hne hsrc hdst hb
  obtain rfl := Out.ok.inj ((a1 _).1 h1)
  have hl2 : (res dst2).length = cols * rows := by
    rw [a4 dst2 (Ne.symm hne2), hdst2, Nat.mul_comm]
  obtain ⟨r2, b1, b2, b3, b4⟩ := apply_matrix (mul := (· * ·)) (asserts := asserts) (small := small) (threshold := threshold) (bs := blockSize)
    (t := ⟨[cols, rows], [rows, cols], [1, 0], (1 : α)⟩) (outShape := [rows, cols]) rfl (fun _ => rfl) hne2
    (by rw [a2, Nat.mul_comm]) hl2 hb
  obtain rfl := Out.ok.inj ((b1 _).1 h2)
  apply List.ext_getElem?
  intro k
  by_cases hk : k < rows * cols
  · have hc : 0 < cols := by
      rcases Nat.eq_zero_or_pos cols with h | h
      · rw [h, Nat.mul_zero] at hk; omega
      · exact h
    have hi : k / cols < rows := by
      rw [Nat.div_lt_iff_lt_mul hc]
      exact hk
    have hj : k % cols < cols := Nat.mod_lt _ hc
    have hk2 : k / cols * cols + k % cols = k := by
      rw [Nat.mul_comm]
      exact Nat.div_add_mod k cols
    have hlt : k / cols * cols + k % cols < (m src).length := by rw [hk2, hsrc]; exact hk
    have e1 := a3 (k / cols) (k % cols) _ hi hj (List.getElem?_eq_getElem hlt)
    have e2 := b3 (k % cols) (k / cols) _ hj hi e1
    simp only [mul_one, hk2] at e2
    rw [e2, List.getElem?_eq_getElem (by omega)]
  · have b2' := b2.trans (Nat.mul_comm cols rows)
    rw [List.getElem?_eq_none (by omega), List.getElem?_eq_none (by omega)]

/-- Transposing an array into itself is rejected when assertions are compiled in. -/
theorem C33_in_place {mul : α → α → α} (small : Bool) (threshold blockSize id : Nat) (t : TObj α) (outShape : List Nat) (m : Mem α)
    (o : Out (Mem α)) : Apply mul true small threshold blockSize t id id outShape m o ↔ o = .throw .assertion := by
  constructor
  · intro h
    cases h with
    | inPlace _ _ => rfl
    | mismatch _ h _ => exact absurd rfl h
    | notImplemented h _ => exact absurd rfl (h rfl).1
    | matrix h _ _ => exact absurd rfl (h rfl).1
  · rintro rfl
    exact .inPlace rfl rfl

/-- A concrete evaluation of **C33**: 2 by 3 integers, blocks of 2, more than the threshold so run in parallel. -/
example : ∃ t t' res, transposeFn true [2, 3] [0, 0] (1 : Nat) = .ok t ∧ scaleT true (· * ·) t 10 = .ok t' ∧
    (∀ o, Apply (· * ·) true false 5 2 t' 0 1 [3, 2] (fun id => if id = 0 then [1, 2, 3, 4, 5, 6] else List.replicate 6 0) o ↔
      o = .ok res) ∧ (res 1)[1]? = some 40 := by
  obtain ⟨t, t', res, h1, h2, -, -, h3, h4, -, -⟩ := C33 (α := Nat) true false 5 2 2 3 0 1
    (fun id => if id = 0 then [1, 2, 3, 4, 5, 6] else List.replicate 6 0) 10 (by decide) (by decide) rfl rfl
  exact ⟨t, t', res, h1, h2, h3, by rw [h4 3 1 1 0 (by decide) (by decide)]; rfl⟩

/-! ### C35 -/

/-- **C35** as stated: for every permutation of the axes, extent `i` of the result is extent `axes[i]` of the array, and evaluating
it moves the element at coordinates `c` to the permuted coordinates. -/
def C35Claim : Prop :=
  ∀ (asserts small : Bool) (threshold blockSize : Nat) (shape axes : List Nat) (src dst : Nat) (m : Mem Nat), 0 < blockSize → src ≠ dst →
    axes.Perm (List.range shape.length) → (m src).length = count shape → (m dst).length = count shape →
    ∃ t, transposeFn asserts shape axes 1 = .ok t ∧ (∀ i : Nat, t.output[i]? = axes[i]?.bind fun a => shape[a]?) ∧
      ∃ res, (∀ o, Apply (· * ·) asserts small threshold blockSize t src dst t.output m o ↔ o = .ok res) ∧
        ∀ (k k' : Nat) c c', (coords shape)[k]? = some c → (coords t.output)[k']? = some c' →
          (∀ i : Nat, c'[i]? = axes[i]?.bind fun a => c[a]?) → (res dst)[k']? = (m src)[k]?

theorem prod_zero {l : List Nat} (h : 0 ∈ l) : prod l = 0 := by
  induction l with
  | nil => cases h
  | cons d ds ih =>
    rcases List.mem_cons.1 h with h' | h'
    · subst h'
      simp [prod]
    · simp [prod, ih h']

/-- The axes given to `transpose` are never used: every permutation contains axis 0, so their product, which the code takes for the
number of axes, is 0, and the reversed order is used instead. -/
theorem C35_ignored (asserts : Bool) (shape axes : List Nat) (one : α) (hs : shape ≠ []) (h : axes.Perm (List.range shape.length)) :
    transposeFn asserts shape axes one = transposeFn asserts shape [0, 0] one := by
  have h0 : prod axes = 0 := by
    apply prod_zero
    rw [h.mem_iff, List.mem_range]
    exact List.length_pos_iff.2 hs
  simp [transposeFn, chooseAxes, h0, prod]

/-- **C35** is false: `transpose(a, {0, 1})` of a 2 by 3 array is 3 by 2. -/
theorem C35_false : ¬ C35Claim := by
  intro h
  obtain ⟨t, e, h1, _⟩ := h true false 5000 8 [2, 3] [0, 1] 0 1 (fun _ => List.replicate 6 0) (by decide) (by decide) (by decide)
    rfl rfl
  have e' : transposeFn true [2, 3] [0, 1] 1 = .ok ⟨[2, 3], [3, 2], [1, 0], 1⟩ := rfl
  rw [e'] at e
  have := h1 0
  rw [← Out.ok.inj e] at this
  simp at this

/-- The class behaves no better: a `Transpose` object built with the axes (0, 1) reports the shape 2 by 3, but evaluating it still
moves the elements as a transposition would. -/
theorem C35_class_false (small : Bool) (threshold : Nat) (m : Mem Nat) (h0 : m 0 = [1, 2, 3, 4, 5, 6]) (h1 : (m 1).length = 6) :
    ∃ t res, mkT true [2, 3] [0, 1] 1 = .ok t ∧ t.output = [2, 3] ∧
      (∀ o, Apply (· * ·) true small threshold 8 t 0 1 [2, 3] m o ↔ o = .ok res) ∧ res 1 = [1, 4, 2, 5, 3, 6] := by
  obtain ⟨res, a1, a2, a3, a4⟩ := apply_matrix (mul := ((· * ·) : Nat → Nat → Nat)) (asserts := true) (small := small) (threshold := threshold)
    (bs := 8) (t := ⟨[2, 3], [2, 3], [0, 1], 1⟩) (src := 0) (dst := 1) (rows := 2) (cols := 3) (m := m) (outShape := [2, 3]) rfl
    (fun _ => rfl) (by decide) (by rw [h0]; rfl) h1 (by decide)
  refine ⟨_, res, rfl, rfl, a1, ?_⟩
  have e : ∀ row col v, row < 2 → col < 3 → ([1, 2, 3, 4, 5, 6] : List Nat)[row * 3 + col]? = some v →
      (res 1)[col * 2 + row]? = some v := by
    intro row col v hr hc hv
    have := a3 row col v hr hc (by rw [h0]; exact hv)
    simpa using this
  apply List.ext_getElem?
  intro k
  match k with
  | 0 => exact e 0 0 1 (by decide) (by decide) rfl
  | 1 => exact e 1 0 4 (by decide) (by decide) rfl
  | 2 => exact e 0 1 2 (by decide) (by decide) rfl
  | 3 => exact e 1 1 5 (by decide) (by decide) rfl
  | 4 => exact e 0 2 3 (by decide) (by decide) rfl
  | 5 => exact e 1 2 6 (by decide) (by decide) rfl
  | k + 6 => rw [List.getElem?_eq_none (by omega), List.getElem?_eq_none (by simp)]

/-- Evaluating a transpose of any other number of dimensions always throws. -/
theorem C35_not_implemented {mul : α → α → α} (asserts small : Bool) (threshold blockSize src dst : Nat) (t : TObj α) (outShape : List Nat)
    (m : Mem α) (o : Out (Mem α)) (ht : t.input.length ≠ 2) (h : Apply mul asserts small threshold blockSize t src dst outShape m o) :
    ∃ e, o = .throw e := by
  cases h with
  | inPlace _ _ => exact ⟨_, rfl⟩
  | mismatch _ _ _ => exact ⟨_, rfl⟩
  | notImplemented _ _ => exact ⟨_, rfl⟩
  | matrix _ h _ => rw [h] at ht; exact absurd rfl ht

/-- **C35** for two dimensions and the axes (1, 0). -/
theorem C35_partial (asserts small : Bool) (threshold blockSize rows cols src dst : Nat) (m : Mem Nat) (hb : 0 < blockSize) (hne : src ≠ dst)
    (hsrc : (m src).length = count [rows, cols]) (hdst : (m dst).length = count [rows, cols]) :
    ∃ t, transposeFn asserts [rows, cols] [1, 0] 1 = .ok t ∧ (∀ i : Nat, t.output[i]? = [1, 0][i]?.bind fun a => [rows, cols][a]?) ∧
      ∃ res, (∀ o, Apply (· * ·) asserts small threshold blockSize t src dst t.output m o ↔ o = .ok res) ∧
        ∀ (k k' : Nat) c c', (coords [rows, cols])[k]? = some c → (coords t.output)[k']? = some c' →
          (∀ i : Nat, c'[i]? = [1, 0][i]?.bind fun a => c[a]?) → (res dst)[k']? = (m src)[k]? := by
  have hl : count [rows, cols] = rows * cols := by simp [count]
  rw [hl] at hsrc hdst
  obtain ⟨t, t', res, e1, e2, e3, e4, e5, e6, _, _⟩ := C33 asserts small threshold blockSize rows cols src dst m 1 hb hne hsrc hdst
  have et : t = ⟨[rows, cols], [cols, rows], [1, 0], 1⟩ := by
    have : transposeFn asserts [rows, cols] [0, 0] 1 = .ok ⟨[rows, cols], [cols, rows], [1, 0], 1⟩ := by cases asserts <;> rfl
    rw [this] at e1
    exact (Out.ok.inj e1).symm
  subst et
  have et' : t' = ⟨[rows, cols], [cols, rows], [1, 0], 1⟩ := by
    have : scaleT asserts (· * ·) (⟨[rows, cols], [cols, rows], [1, 0], 1⟩ : TObj Nat) 1 = .ok ⟨[rows, cols], [cols, rows], [1, 0], 1⟩ := by
      cases asserts <;> rfl
    rw [this] at e2
    exact (Out.ok.inj e2).symm
  subst et'
  refine ⟨_, by cases asserts <;> rfl, ?_, res, e5, ?_⟩
  · intro i
    match i with
    | 0 => rfl
    | 1 => rfl
    | i + 2 => simp
  · intro k k' c c' hk hk' hc
    have hin := (coords_eq_iff.1 hk).1
    have hin' := (coords_eq_iff.1 hk').1
    cases hin with
    | cons hi hin2 => cases hin2 with
      | cons hj hnil =>
        cases hnil
        cases hin' with
        | cons hi' hin2' => cases hin2' with
          | cons hj' hnil' =>
            cases hnil'
            have c0 := hc 0
            have c1 := hc 1
            simp at c0 c1
            subst c0 c1
            rw [e6 k k' _ _ hk hk']
            simp

end Verif.TransM
