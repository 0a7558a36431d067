import Verif.Lemmas.ClMat
import Verif.Props.ClTypes

/-!
# C134: element types of OpenCL matrices

What a user relies on: whatever their integer element types, the product of an OpenCL matrix and an OpenCL vector has the elements
`alpha * Σ_j A(i, j) * x(j) + beta * y(i)`, computed after the usual arithmetic conversions; and the transpose of an OpenCL matrix of any
arithmetic type has the elements `alpha * A(j, i)`.
-/

namespace Verif.ClTypes

/-- The values fit the type. -/
def InRange (t : Ty) (vs : List Nat) : Prop := ∀ v ∈ vs, v < 256 ^ t.bytes

/-- Element `i` of the product: operands converted to the type `k` of the product, added up from the left. -/
def prodVal (A : Arith) (k ta tb dt : Ty) (al be n : Nat) (a x y : List Nat) (i : Nat) : Nat :=
  A.bin .add k
    (A.bin .mul k al ((List.range n).foldl (fun acc j => A.bin .add k acc
      (A.bin .mul k (A.cast ta k (a.getD (i * n + j) 0)) (A.cast tb k (x.getD j 0)))) 0))
    (A.bin .mul k be (A.cast dt k (y.getD i 0)))

/-- The first half of C134. -/
def C134GemvClaim (A : Arith) : Prop :=
  ∀ (ta tb dt : Ty) (al be m n : Nat) (a x y : List Nat), ta.isInt = true → tb.isInt = true → dt.isInt = true →
    a.length = m * n → x.length = n → y.length = m → InRange ta a → InRange tb x → InRange dt y →
    gemvCl A ta tb al be m n (encAll ta.bytes a) (encAll tb.bytes x) (encAll dt.bytes y)
      = .ok (encAll dt.bytes ((List.range m).map fun i =>
          A.cast (usual ta tb) dt (prodVal A (usual ta tb) ta tb dt al be n a x y i)))

/-- The transpose has the right elements. -/
def TransposeRight (A : Arith) (t : Ty) (rows cols al : Nat) (a : List Nat) (o : Out (List Nat)) : Prop :=
  ∃ res, o = .ok (encAll t.bytes res) ∧ res.length = rows * cols ∧
    ∀ x y, x < rows → y < cols → res[y * rows + x]? = some (A.bin .mul t (a.getD (x * cols + y) 0) al)

/-- The second half of C134. -/
def C134TransposeClaim (A : Arith) (asserts : Bool) : Prop :=
  ∀ (t : Ty) (rows cols al : Nat) (a out : List Nat), a.length = rows * cols → out.length = rows * cols → InRange t a →
    TransposeRight A t rows cols al a (transposeCl A asserts t rows cols al (encAll t.bytes a) (encAll t.bytes out))

theorem dotVal_foldl (A : Arith) (k : Ty) (f g : Nat → Nat) (n : Nat) :
    dotVal A k f g n = (List.range n).foldl (fun acc j => A.bin .add k acc (A.bin .mul k (f j) (g j))) 0 := by
  induction n with
  | zero => rfl
  | succ n ih => rw [List.range_succ, List.foldl_append, ← ih]; rfl

/-- Loading an element of an array through a type with the same representation is converting it. -/
theorem load_rep {A : Arith} (hA : A.Lawful) {t k : Ty} (h : SameRep t k) {vs : List Nat} (hr : InRange t vs) {i : Nat} (hi : i < vs.length)
    (rest : List Nat) : load k.bytes (encAll t.bytes vs ++ rest) i = .ok (A.cast t k (vs.getD i 0)) := by
  have hlt : vs[i] < 256 ^ t.bytes := hr _ (List.getElem_mem _)
  rw [List.getD_eq_getElem _ _ hi, hA.cast_rep t k _ h hlt, ← h.bytes]
  exact load_encAll _ _ _ _ hi hlt

/-- **Matrix times vector, the part that holds**: matrix, vector and destination have the representation of the product's type (for instance,
all are `int32_t`, or `int32_t` and `uint32_t` mixed). -/
theorem C134_gemv_partial (A : Arith) (hA : A.Lawful) (ta tb dt : Ty) (al be m n : Nat) (a x y : List Nat)
    (ha : a.length = m * n) (hx : x.length = n) (hy : y.length = m) (ra : InRange ta a) (rx : InRange tb x) (ry : InRange dt y)
    (sa : SameRep ta (usual ta tb)) (sb : SameRep tb (usual ta tb)) (sd : SameRep dt (usual ta tb)) :
    gemvCl A ta tb al be m n (encAll ta.bytes a) (encAll tb.bytes x) (encAll dt.bytes y)
      = .ok (encAll dt.bytes ((List.range m).map fun i =>
          A.cast (usual ta tb) dt (prodVal A (usual ta tb) ta tb dt al be n a x y i))) := by
  unfold gemvCl
  rw [prodTy_eq]
  generalize hk : usual ta tb = k at *
  rw [scatter_spec k _ _ (fun i => prodVal A k ta tb dt al be n a x y i) m (by rw [encAll_length, hy, sd.bytes])]
  · rw [List.drop_of_length_le (by rw [encAll_length, hy, sd.bytes]), List.append_nil, sd.bytes]
    congr 2
    apply List.map_congr_left
    intro i _
    exact (hA.cast_rep k dt _ sd.symm (hA.bin_lt _ _ _ _)).symm
  · intro row hrow
    have e1 : ∀ j, j < n → load k.bytes (encAll ta.bytes a) (row * n + j) = .ok (A.cast ta k (a.getD (row * n + j) 0)) := by
      intro j hj
      have hlt : row * n + j < a.length := by
        rw [ha]
        have : (row + 1) * n ≤ m * n := Nat.mul_le_mul_right _ hrow
        have e : (row + 1) * n = row * n + n := by ring
        omega
      have := load_rep hA sa ra hlt []
      rwa [List.append_nil] at this
    have e2 : ∀ j, j < n → load k.bytes (encAll tb.bytes x) j = .ok (A.cast tb k (x.getD j 0)) := by
      intro j hj
      have := load_rep hA sb rx (i := j) (by omega) []
      rwa [List.append_nil] at this
    have e3 : load k.bytes (encAll k.bytes ((List.range row).map fun i => prodVal A k ta tb dt al be n a x y i)
        ++ (encAll dt.bytes y).drop (row * k.bytes)) row = .ok (A.cast dt k (y.getD row 0)) := by
      have hl : (row + 1) * k.bytes ≤ (encAll dt.bytes y).length := by
        rw [encAll_length, hy, sd.bytes]; exact Nat.mul_le_mul_right _ hrow
      have h1 := load_rep hA sd ry (i := row) (by omega) []
      rw [List.append_nil, load_eq _ _ _ hl] at h1
      rw [load_eq, written_slice, h1]
      rw [written_length]
      · exact hl
      · exact le_trans (Nat.mul_le_mul_right _ (Nat.le_succ row)) hl
    have e4 := dotLoop_spec A k (encAll ta.bytes a) (encAll tb.bytes x) row n (fun j => A.cast ta k (a.getD (row * n + j) 0))
      (fun j => A.cast tb k (x.getD j 0)) e1 e2 n 0 (by omega)
    simp only [dotVal] at e4
    simp only [gemvItem, e4, e3, Out.bind]
    rw [dotVal_foldl]
    rfl

/-- **When the product is undefined**: exactly if the type of the product is wider than the elements of the matrix, of the vector or of the
destination; for matrices with at least one row and one column, and whatever the arithmetic. -/
theorem C134_gemv_undefined_iff (A : Arith) (ta tb dt : Ty) (al be m n : Nat) (a x y : List Nat) (hm : 0 < m) (hn : 0 < n)
    (ha : a.length = m * n) (hx : x.length = n) (hy : y.length = m) :
    gemvCl A ta tb al be m n (encAll ta.bytes a) (encAll tb.bytes x) (encAll dt.bytes y) = .ub ↔
      ¬ ((usual ta tb).bytes ≤ ta.bytes ∧ (usual ta tb).bytes ≤ tb.bytes ∧ (usual ta tb).bytes ≤ dt.bytes) := by
  unfold gemvCl
  rw [prodTy_eq]
  generalize hk : usual ta tb = k at *
  constructor
  · rintro h ⟨h1, h2, h3⟩
    have l1 : ∀ i, i < m * n → load k.bytes (encAll ta.bytes a) i = .ok (dec (slice k.bytes (encAll ta.bytes a) i)) := by
      intro i hi
      apply load_eq
      rw [encAll_length, ha]
      exact Nat.mul_le_mul hi h1
    have l2 : ∀ j, j < n → load k.bytes (encAll tb.bytes x) j = .ok (dec (slice k.bytes (encAll tb.bytes x) j)) := by
      intro i hi
      apply load_eq
      rw [encAll_length, hx]
      exact Nat.mul_le_mul hi h2
    have hyl : m * k.bytes ≤ (encAll dt.bytes y).length := by rw [encAll_length, hy]; exact Nat.mul_le_mul_left _ h3
    rw [scatter_spec k _ _ (fun i => A.bin .add k
      (A.bin .mul k al (dotVal A k (fun j => dec (slice k.bytes (encAll ta.bytes a) (i * n + j))) (fun j => dec (slice k.bytes (encAll tb.bytes x) j)) n))
      (A.bin .mul k be (dec (slice k.bytes (encAll dt.bytes y) i)))) m hyl] at h
    · cases h
    · intro row hrow
      have e1 : ∀ j, j < n → load k.bytes (encAll ta.bytes a) (row * n + j) = .ok (dec (slice k.bytes (encAll ta.bytes a) (row * n + j))) := by
        intro j hj
        apply l1
        have : (row + 1) * n ≤ m * n := Nat.mul_le_mul_right _ hrow
        have e : (row + 1) * n = row * n + n := by ring
        omega
      have e4 := dotLoop_spec A k (encAll ta.bytes a) (encAll tb.bytes x) row n _ _ e1 l2 n 0 (by omega)
      simp only [dotVal] at e4
      have hl : (row + 1) * k.bytes ≤ (encAll dt.bytes y).length := le_trans (Nat.mul_le_mul_right _ hrow) hyl
      simp only [gemvItem, e4, Out.bind]
      rw [load_eq, written_slice]
      rw [written_length]
      · exact hl
      · exact le_trans (Nat.mul_le_mul_right _ (Nat.le_succ row)) hl
  · intro h
    obtain ⟨m, rfl⟩ : ∃ j, m = j + 1 := ⟨m - 1, by omega⟩
    obtain ⟨n, rfl⟩ : ∃ j, n = j + 1 := ⟨n - 1, by omega⟩
    apply scatter_ub k _ _ (fun p o => gemvItem_cases A k al be _ _ _ p o)
    simp only [not_and_or, Nat.not_le] at h
    have dot : load k.bytes (encAll ta.bytes a) (m * (n + 1) + (0 + n)) = .ub ∨ load k.bytes (encAll tb.bytes x) (0 + n) = .ub →
        ∀ o : List Nat, gemvItem A k al be (encAll ta.bytes a) (encAll tb.bytes x) (n + 1) m o = .ub := by
      intro hd o
      unfold gemvItem
      rw [dotLoop_ub A k _ _ m (n + 1) n 0 0 hd]
      rfl
    rcases h with h | h | h
    · left
      intro o _
      apply dot
      left
      apply load_ub
      rw [encAll_length, ha]
      have e : m * (n + 1) + (0 + n) + 1 = (m + 1) * (n + 1) := by ring
      rw [e]
      exact Nat.mul_lt_mul_of_pos_left h (by positivity)
    · left
      intro o _
      apply dot
      right
      apply load_ub
      rw [encAll_length, hx, Nat.zero_add]
      exact Nat.mul_lt_mul_of_pos_left h (by positivity)
    · right
      rw [encAll_length, hy]
      exact Nat.mul_lt_mul_of_pos_left h (by positivity)

/-- **Narrow integers**: the product of a matrix or a vector of 8- or 16-bit integers with anything is undefined. -/
theorem C134_narrow (A : Arith) (ta tb dt : Ty) (al be m n : Nat) (a x y : List Nat) (hm : 0 < m) (hn : 0 < n)
    (ha : a.length = m * n) (hx : x.length = n) (hy : y.length = m) (h : ta.bytes ≤ 2 ∨ tb.bytes ≤ 2) :
    gemvCl A ta tb al be m n (encAll ta.bytes a) (encAll tb.bytes x) (encAll dt.bytes y) = .ub := by
  rw [C134_gemv_undefined_iff A ta tb dt al be m n a x y hm hn ha hx hy]
  have := usual_wide ta tb
  rintro ⟨h1, h2, -⟩
  omega

/-- **C134 is false of products**, whatever the arithmetic: the product of a 1 by 1 matrix of `int8_t` and a vector of `int8_t`, stored in an
`int32_t`, reads outside the matrix. -/
theorem C134_false (A : Arith) : ¬ C134GemvClaim A := by
  intro h
  have r : ∀ t : Ty, InRange t [1] := by
    intro t v hv
    simp only [List.mem_singleton] at hv
    subst hv
    cases t <;> decide
  have h1 := h .i8 .i8 .i32 1 0 1 1 [1] [1] [1] rfl rfl rfl rfl rfl rfl (r _) (r _) (r _)
  rw [C134_narrow A .i8 .i8 .i32 1 0 1 1 [1] [1] [1] (by decide) (by decide) rfl rfl rfl (.inl (by decide))] at h1
  cases h1

/-- **Transpose, the part that holds**: the signed integers, `float` and `double`. -/
theorem C134_transpose_partial (A : Arith) (hA : A.Lawful) (asserts : Bool) (t : Ty) (ht : hasTranspose t = true) (rows cols al : Nat)
    (a out : List Nat) (ha : a.length = rows * cols) (ho : out.length = rows * cols) (hr : InRange t a) :
    TransposeRight A t rows cols al a (transposeCl A asserts t rows cols al (encAll t.bytes a) (encAll t.bytes out)) := by
  refine ⟨(List.range (rows * cols)).map fun p => A.bin .mul t (a.getD (p % rows * cols + p / rows) 0) al, ?_, by simp, ?_⟩
  · unfold transposeCl
    rw [if_pos ht, scatter_spec t _ _ (fun p => A.bin .mul t (a.getD (p % rows * cols + p / rows) 0) al) (rows * cols)
      (by rw [encAll_length, ho])]
    · rw [List.drop_of_length_le (by rw [encAll_length, ho]), List.append_nil]
    · intro p hp
      have hrows : 0 < rows := by
        rcases Nat.eq_zero_or_pos rows with h | h
        · subst h; simp at hp
        · exact h
      have hlt : p % rows * cols + p / rows < a.length := by
        rw [ha]
        have h1 := Nat.mod_lt p hrows
        have h2 : p / rows < cols := by rw [Nat.div_lt_iff_lt_mul hrows, Nat.mul_comm]; exact hp
        have h3 : (p % rows + 1) * cols ≤ rows * cols := Nat.mul_le_mul_right _ h1
        have e : (p % rows + 1) * cols = p % rows * cols + cols := by ring
        omega
      have h4 := load_rep hA (.inl rfl : SameRep t t) hr hlt []
      rw [List.append_nil, hA.cast_rep t t _ (.inl rfl)] at h4
      · simp only [transposeItem, h4, Out.bind]
      · rw [List.getD_eq_getElem _ _ hlt]
        exact hr _ (List.getElem_mem _)
  · intro x y hx hy
    have hlt : y * rows + x < rows * cols := by
      have h1 : (y + 1) * rows ≤ cols * rows := Nat.mul_le_mul_right _ hy
      have e : (y + 1) * rows = y * rows + rows := by ring
      rw [Nat.mul_comm rows cols]
      omega
    have e1 : (y * rows + x) % rows = x := by rw [Nat.add_comm, Nat.add_mul_mod_self_right, Nat.mod_eq_of_lt hx]
    have e2 : (y * rows + x) / rows = y := by
      rw [Nat.add_comm, Nat.add_mul_div_right _ _ (by omega), Nat.div_eq_of_lt hx, Nat.zero_add]
    rw [List.getElem?_map, List.getElem?_range hlt, Option.map_some, e1, e2]

/-- **Unsigned matrices**: there is no kernel for them. With assertions the transpose throws; without, the result is whatever the destination held
before, which for `transpose(a).eval()` is uninitialised memory. -/
theorem C134_transpose_unsigned (A : Arith) (t : Ty) (ht : t = .u8 ∨ t = .u16 ∨ t = .u32 ∨ t = .u64) (rows cols al : Nat) (inp out : List Nat) :
    transposeCl A true t rows cols al inp out = .throw .assertion ∧ transposeCl A false t rows cols al inp out = .ok out := by
  rcases ht with rfl | rfl | rfl | rfl <;> exact ⟨rfl, rfl⟩

/-- The types without a kernel are exactly the unsigned ones. -/
theorem C134_transpose_kernels (t : Ty) : hasTranspose t = false ↔ t = .u8 ∨ t = .u16 ∨ t = .u32 ∨ t = .u64 := by
  cases t <;> decide

/-- **C134 is false of transposes**, with and without assertions, for every arithmetic: `[[1, 2]]` of `uint32_t`. -/
theorem C134_transpose_false (A : Arith) (asserts : Bool) : ¬ C134TransposeClaim A asserts := by
  intro h
  cases asserts with
  | true =>
    obtain ⟨res, h1, -⟩ := h .u32 1 2 1 [1, 2] [0, 0] rfl rfl (by intro v hv; simp at hv; rcases hv with rfl | rfl <;> decide)
    cases h1
  | false =>
    have r : InRange .u32 [1, 2] := by intro v hv; simp at hv; rcases hv with rfl | rfl <;> decide
    obtain ⟨res, h1, h2, h3⟩ := h .u32 1 2 1 [1, 2] [0, 0] rfl rfl r
    obtain ⟨res', h1', h2', h3'⟩ := h .u32 1 2 1 [1, 2] [1, 1] rfl rfl r
    have e1 := h3 0 0 (by decide) (by decide)
    have e1' := h3' 0 0 (by decide) (by decide)
    match res, res', h2, h2' with
    | [p, q], [p', q'], _, _ =>
      simp at e1 e1'
      have hp : p = p' := by rw [e1, e1']
      have d1 : encAll 4 [0, 0] = encAll 4 [p, q] := by injection h1
      have d2 : encAll 4 [1, 1] = encAll 4 [p', q'] := by injection h1'
      simp only [encAll, enc, List.cons_append, List.nil_append, List.cons.injEq] at d1 d2
      omega

/-! ### Cases that meet the hypotheses -/

/-- `[[1, 2], [3, -1]]` of `int32_t` times `[5, 7]` of `uint32_t`, into an `int32_t` vector: `[19, 8]`. -/
example : gemvCl ints .i32 .u32 1 0 2 2 (encAll 4 [1, 2, 3, 2 ^ 32 - 1]) (encAll 4 [5, 7]) (encAll 4 [9, 9]) = .ok (encAll 4 [19, 8]) := by rfl
example : SameRep .i32 (usual .i32 .u32) ∧ SameRep .u32 (usual .i32 .u32) := by decide
/-- A matrix of `int32_t` times a vector of `int64_t`. -/
example : gemvCl ints .i32 .i64 1 0 1 2 (encAll 4 [1, 2]) (encAll 8 [5, 7]) (encAll 8 [9]) = .ub := by rfl
/-- The transpose of a 2 by 3 matrix of `int16_t`. -/
example : transposeCl ints true .i16 2 3 1 (encAll 2 [1, 2, 3, 4, 5, 6]) (encAll 2 [0, 0, 0, 0, 0, 0]) = .ok (encAll 2 [1, 4, 2, 5, 3, 6]) := by rfl

end Verif.ClTypes
