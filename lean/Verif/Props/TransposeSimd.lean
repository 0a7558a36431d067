import Verif.Lemmas.TransposeSimd

/-!
# The vectorised transposes (C34)

`SimdImpl s ... m o`: the version `s` of `transposeImpl` can have outcome `o`, over all thread counts, distributions and
interleavings. The scalars in the refutations are natural numbers below 2^24, exactly representable as float and double.
-/

namespace Verif.TransM

open ShapeM Conc Grid

variable {α : Type}

/-- **C34** as stated, for one of the vectorised versions. -/
def C34Claim (s : Simd Nat) : Prop :=
  ∀ (small : Bool) (threshold rows cols src dst alpha : Nat) (m : Mem Nat), src ≠ dst →
    (m src).length = rows * cols → (m dst).length = rows * cols →
    ∃ res, (∀ o, SimdImpl s (· * ·) small threshold src dst rows cols alpha m o ↔ o = .ok res) ∧
      ∀ (k k' i j : Nat), (coords [rows, cols])[k]? = some [i, j] → (coords [cols, rows])[k']? = some [j, i] →
        (res dst)[k']? = (m src)[k]?.map (· * alpha)

/-- Array 0 holds 0, 1, 2, ..., the others zeros. -/
def counting (n : Nat) : Mem Nat := fun id => if id = 0 then List.range n else List.replicate n 0

/-- Running the loop sequentially on `counting`. -/
def seqRun (s : Simd Nat) (rows cols alpha : Nat) : Out (List Nat) :=
  match run (seqAll (simdRow s (· * ·) 0 1 rows cols alpha) (indices 0 rows s.w)) (counting (rows * cols)) with
  | .ok (_, m) => .ok (m 1)
  | .throw e => .throw e
  | .ub => .ub

theorem seqRun_ok {s : Simd Nat} {rows cols alpha : Nat} {l : List Nat} (h : seqRun s rows cols alpha = .ok l) :
    ∃ m, m 1 = l ∧ SimdImpl s (· * ·) true 0 0 1 rows cols alpha (counting (rows * cols)) (.ok m) := by
  unfold seqRun at h
  split at h
  · rename_i u m hr
    exact ⟨m, Out.ok.inj h, .seq rfl hr⟩
  · cases h
  · cases h

theorem seqRun_ub {s : Simd Nat} {rows cols alpha : Nat} (h : seqRun s rows cols alpha = .ub) :
    SimdImpl s (· * ·) true 0 0 1 rows cols alpha (counting (rows * cols)) .ub := by
  unfold seqRun at h
  split at h
  · cases h
  · cases h
  · rename_i hr
    exact .seqUb rfl hr

/-- The element at a position of the result of `seqRun`. -/
def seqAt (s : Simd Nat) (rows cols alpha k : Nat) : Option Nat :=
  match seqRun s rows cols alpha with
  | .ok l => l[k]?
  | _ => none

theorem seqAt_ok {s : Simd Nat} {rows cols alpha k v : Nat} (h : seqAt s rows cols alpha k = some v) :
    ∃ m, (m 1)[k]? = some v ∧ SimdImpl s (· * ·) true 0 0 1 rows cols alpha (counting (rows * cols)) (.ok m) := by
  unfold seqAt at h
  split at h
  · rename_i l hl
    obtain ⟨m, hm, hs⟩ := seqRun_ok hl
    exact ⟨m, by rw [hm]; exact h, hs⟩
  · cases h

theorem not_claim {s : Simd Nat} {rows cols alpha i j v : Nat} (h : seqAt s rows cols alpha (j * rows + i) = some v) (hi : i < rows)
    (hj : j < cols) (hv : v ≠ (i * cols + j) * alpha) : ¬ C34Claim s := by
  intro hc
  obtain ⟨m, hm, hs⟩ := seqAt_ok h
  obtain ⟨res, h1, h2⟩ := hc true 0 rows cols 0 1 alpha (counting (rows * cols)) (by decide) (by simp [counting])
    (by simp [counting])
  obtain rfl := Out.ok.inj ((h1 _).1 hs)
  have := h2 (ravel [rows, cols] [i, j]) (ravel [cols, rows] [j, i]) i j (coords_eq_iff.2 ⟨.cons hi (.cons hj .nil), rfl⟩)
    (coords_eq_iff.2 ⟨.cons hj (.cons hi .nil), rfl⟩)
  have e1 : ravel [rows, cols] [i, j] = i * cols + j := by simp [ravel, count]
  have e2 : ravel [cols, rows] [j, i] = j * rows + i := by simp [ravel, count]
  have hlt : i * cols + j < rows * cols := by
    rw [Nat.mul_comm rows cols]
    exact pos_lt hj hi
  rw [e1, e2, hm] at this
  simp only [counting, if_true] at this
  rw [List.getElem?_range hlt] at this
  exact hv (Option.some.inj this)

/-- **C34** is false of every vectorised version: with twice as many columns as rows the kernel reads the wrong rows, because it
uses the row count as the stride of both arrays. -/
theorem C34_false : ∀ s ∈ [avx2F, avx2D, sseF, sseD, neonF, neonD], ¬ C34Claim s := by
  intro s hs
  simp only [List.mem_cons, List.not_mem_nil, or_false] at hs
  rcases hs with rfl | rfl | rfl | rfl | rfl | rfl
  · exact not_claim (rows := 8) (cols := 16) (alpha := 1) (i := 1) (j := 0) (v := 8) (by decide +kernel) (by decide) (by decide)
      (by decide)
  · exact not_claim (rows := 4) (cols := 8) (alpha := 1) (i := 1) (j := 0) (v := 4) (by decide +kernel) (by decide) (by decide)
      (by decide)
  · exact not_claim (rows := 4) (cols := 8) (alpha := 1) (i := 1) (j := 0) (v := 4) (by decide +kernel) (by decide) (by decide)
      (by decide)
  · exact not_claim (rows := 2) (cols := 4) (alpha := 1) (i := 1) (j := 0) (v := 2) (by decide +kernel) (by decide) (by decide)
      (by decide)
  · exact not_claim (rows := 4) (cols := 8) (alpha := 1) (i := 1) (j := 0) (v := 4) (by decide +kernel) (by decide) (by decide)
      (by decide)
  · exact not_claim (rows := 2) (cols := 4) (alpha := 1) (i := 1) (j := 0) (v := 2) (by decide +kernel) (by decide) (by decide)
      (by decide)

/-- Whether `seqRun` is undefined. -/
def seqUb (s : Simd Nat) (rows cols alpha : Nat) : Bool :=
  match seqRun s rows cols alpha with
  | .ub => true
  | _ => false

theorem seqUb_ub {s : Simd Nat} {rows cols alpha : Nat} (h : seqUb s rows cols alpha = true) :
    SimdImpl s (· * ·) true 0 0 1 rows cols alpha (counting (rows * cols)) .ub := by
  unfold seqUb at h
  split at h
  · rename_i hr
    exact seqRun_ub hr
  · cases h

/-- With twice as many rows as columns every vectorised version reads outside the array. -/
theorem C34_bounds_false : ∀ s ∈ [avx2F, avx2D, sseF, sseD, neonF, neonD],
    SimdImpl s (· * ·) true 0 0 1 (2 * s.w) s.w 1 (counting (2 * s.w * s.w)) .ub := by
  intro s hs
  simp only [List.mem_cons, List.not_mem_nil, or_false] at hs
  rcases hs with rfl | rfl | rfl | rfl | rfl | rfl <;> exact seqUb_ub (by decide +kernel)

/-- The float versions do not scale the elements of incomplete blocks: `2 * transpose(a)` of a 5 by 5 array with SSE has the
element (4, 0) unscaled. -/
theorem C34_scale_false : ∃ m, SimdImpl sseF (· * ·) true 0 0 1 5 5 2 (counting 25) (.ok m) ∧
    (m 1)[0 * 5 + 4]? = some (4 * 5 + 0) ∧ (m 1)[0 * 5 + 3]? = some ((3 * 5 + 0) * 2) := by
  have h : (match seqRun sseF 5 5 2 with
    | .ok l => decide (l[4]? = some 20 ∧ l[3]? = some 30)
    | _ => false) = true := by decide +kernel
  split at h
  · rename_i l hl
    obtain ⟨m, hm, hs⟩ := seqRun_ok hl
    have := of_decide_eq_true h
    exact ⟨m, hs, by rw [hm]; exact this.1, by rw [hm]; exact this.2⟩
  · cases h

/-- The AVX2 kernel for double is wrong even for a 4 by 4 matrix: this is what it makes of 0 .. 15. -/
theorem C34_avx2_double_false : ∃ m, SimdImpl avx2D (· * ·) true 0 0 1 4 4 1 (counting 16) (.ok m) ∧
    m 1 = [0, 4, 8, 10, 0, 2, 10, 14, 1, 5, 9, 11, 1, 3, 11, 15] := by
  have h : (match seqRun avx2D 4 4 1 with
    | .ok l => decide (l = [0, 4, 8, 10, 0, 2, 10, 14, 1, 5, 9, 11, 1, 3, 11, 15])
    | _ => false) = true := by decide +kernel
  split at h
  · rename_i l hl
    obtain ⟨m, hm, hs⟩ := seqRun_ok hl
    exact ⟨m, hs, by rw [hm]; exact of_decide_eq_true h⟩
  · cases h

/-- ... and its aligned stores are undefined for a 5 by 5 matrix. -/
theorem C34_avx2_double_align_false : SimdImpl avx2D (· * ·) true 0 0 1 5 5 1 (counting 25) .ub :=
  seqUb_ub (by decide +kernel)

theorem simd_good {s : Simd α} (hs : s ∈ [avx2F, sseF, sseD, neonF, neonD]) :
    0 < s.w ∧ s.align = 1 ∧ ∀ x k i, s.F x k i = x i k := by
  simp only [List.mem_cons, List.not_mem_nil, or_false] at hs
  rcases hs with rfl | rfl | rfl | rfl | rfl
  · exact ⟨Nat.succ_pos _, rfl, avx2Float_eq⟩
  · exact ⟨Nat.succ_pos _, rfl, sseFloat_eq⟩
  · exact ⟨Nat.succ_pos _, rfl, twoByTwo_eq⟩
  · exact ⟨Nat.succ_pos _, rfl, neonFloat_eq⟩
  · exact ⟨Nat.succ_pos _, rfl, twoByTwo_eq⟩

/-- Exactly what the vectorised versions (other than AVX2 for double) compute for square matrices of every size and for matrices
smaller than the kernel in one direction, whatever the schedule: the transpose, scaled except, for float, outside the complete
blocks. -/
theorem C34_exact {s : Simd α} (hs : s ∈ [avx2F, sseF, sseD, neonF, neonD]) (mul : α → α → α) (small : Bool)
    (threshold rows cols src dst : Nat) (alpha : α) (m : Mem α) (hne : src ≠ dst) (hsrc : (m src).length = rows * cols)
    (hdst : (m dst).length = rows * cols) (hok : rows = cols ∨ rows < s.w ∨ cols < s.w) :
    ∃ res, (∀ o, SimdImpl s mul small threshold src dst rows cols alpha m o ↔ o = .ok res) ∧ (∀ id, id ≠ dst → res id = m id) ∧
      ∀ (k k' i j : Nat), (coords [rows, cols])[k]? = some [i, j] → (coords [cols, rows])[k']? = some [j, i] →
        (res dst)[k']? = (m src)[k]?.map fun v =>
          if s.scaledEdges = true ∨ (i / s.w * s.w + s.w ≤ rows ∧ j / s.w * s.w + s.w ≤ cols) then mul v alpha else v := by
  obtain ⟨g1, g2, g3⟩ := simd_good hs
  obtain ⟨res, h1, h2, h3, h4⟩ := simd_loop (mul := mul) (alpha := alpha) hne g1 g2 g3 hsrc hdst hok
  refine ⟨res, fun o => outcome_iff h1, h4, ?_⟩
  intro k k' i j hk hk'
  obtain ⟨hin, rfl⟩ := coords_eq_iff.1 hk
  obtain ⟨-, rfl⟩ := coords_eq_iff.1 hk'
  cases hin with
  | cons hi hin2 => cases hin2 with
    | cons hj _ =>
      have e1 : ravel [rows, cols] [i, j] = i * cols + j := by simp [ravel, count]
      have e2 : ravel [cols, rows] [j, i] = j * rows + i := by simp [ravel, count]
      have hlt : i * cols + j < (m src).length := by
        rw [hsrc, Nat.mul_comm rows cols]
        exact pos_lt hj hi
      rw [e1, e2, h3 i j _ hi hj (List.getElem?_eq_getElem hlt), List.getElem?_eq_getElem hlt, Option.map_some]
      congr 1
      unfold simdVal edgeMul Full
      by_cases hsc : s.scaledEdges = true
      · simp [hsc]
      · simp [hsc]

/-- **C34** for square matrices and matrices smaller than the kernel in one direction, for every version but AVX2 for double; for
float also with both extents multiples of the kernel size, or with scale one. -/
theorem C34_partial {s : Simd α} (hs : s ∈ [avx2F, sseF, sseD, neonF, neonD]) (mul : α → α → α) (small : Bool)
    (threshold rows cols src dst : Nat) (alpha : α) (m : Mem α) (hne : src ≠ dst) (hsrc : (m src).length = rows * cols)
    (hdst : (m dst).length = rows * cols) (hok : rows = cols ∨ rows < s.w ∨ cols < s.w)
    (hedge : s.scaledEdges = true ∨ (s.w ∣ rows ∧ s.w ∣ cols) ∨ ∀ v, mul v alpha = v) :
    ∃ res, (∀ o, SimdImpl s mul small threshold src dst rows cols alpha m o ↔ o = .ok res) ∧ (∀ id, id ≠ dst → res id = m id) ∧
      ∀ (k k' i j : Nat), (coords [rows, cols])[k]? = some [i, j] → (coords [cols, rows])[k']? = some [j, i] →
        (res dst)[k']? = (m src)[k]?.map fun v => mul v alpha := by
  obtain ⟨res, h1, h2, h3⟩ := C34_exact hs mul small threshold rows cols src dst alpha m hne hsrc hdst hok
  refine ⟨res, h1, h2, fun k k' i j hk hk' => ?_⟩
  rw [h3 k k' i j hk hk']
  congr 1
  funext v
  rcases hedge with h | ⟨⟨p, hp⟩, ⟨q, hq⟩⟩ | h
  · rw [if_pos (.inl h)]
  · rw [if_pos]
    right
    have hin := (coords_eq_iff.1 hk).1
    have key : ∀ {x n r : Nat}, n = s.w * r → x < n → x / s.w * s.w + s.w ≤ n := by
      intro x n r hn hx
      have hlt : x / s.w < r := by
        rw [Nat.div_lt_iff_lt_mul (simd_good hs).1, Nat.mul_comm r]
        omega
      have := Nat.mul_le_mul_right s.w (show x / s.w + 1 ≤ r by omega)
      rw [Nat.add_mul, Nat.one_mul] at this
      rw [hn, Nat.mul_comm s.w r]
      exact this
    cases hin with
    | cons hi hin2 => cases hin2 with
      | cons hj _ => exact ⟨key hp hi, key hq hj⟩
  · rw [h, ite_self]

/-- A concrete case of **C34_partial**: 9 by 9 doubles with SSE (kernel of 2, so an incomplete last block), scaled by 3, run in
parallel. -/
example : ∃ res, (∀ o, SimdImpl sseD (· * ·) false 50 0 1 9 9 3 (counting 81) o ↔ o = .ok res) ∧ (res 1)[8 * 9 + 1]? = some (17 * 3) := by
  obtain ⟨res, h1, _, h3⟩ := C34_partial (s := sseD) (by simp) (· * ·) false 50 9 9 0 1 3 (counting 81) (by decide) rfl rfl
    (.inl rfl) (.inl rfl)
  exact ⟨res, h1, by rw [h3 17 73 1 8 (by decide) (by decide)]; rfl⟩

end Verif.TransM
