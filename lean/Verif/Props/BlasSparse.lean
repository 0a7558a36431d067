import Verif.Lemmas.BlasSparse
import Verif.Props.Blas3

/-! Property theorems for the sparse routines of cxxblas (C96, C97). A matrix in compressed row storage is that of
`Spec/BlasSparse.lean`: rows may be empty, entries of the same position add up. -/

namespace Verif.Blas

open Finset

variable {K : Type}

/-! ### C96: general matrices -/

section
variable [CommRing K] [StarRing K] [DecidableEq K] {I : Mem Int} {m : Mem K} {A ia ja b x y : Int} {r c : Nat} {S : Crs K}
  {t : Trans} {alpha beta : K} {xv yv : Nat → K}

omit [StarRing K] [DecidableEq K] in
theorem map_crsM (φ : K →+ K) (S : Crs K) (i j : Nat) :
    φ (crsM S i j) = ∑ k ∈ Ico (S.ptr i) (S.ptr (i + 1)), if S.col k = j then φ (S.v k) else 0 := by
  unfold crsM
  rw [map_sum]
  refine sum_congr rfl fun k _ => ?_
  split
  · rfl
  · exact map_zero φ

/-- Conjugation as a homomorphism. -/
def cjHom (K : Type) [CommRing K] [StarRing K] (c : Bool) : K →+ K := if c then (starAddEquiv : K ≃+ K).toAddMonoidHom else AddMonoidHom.id K

omit [DecidableEq K] in
theorem cjHom_apply (c : Bool) (v : K) : cjHom K c v = cj c v := by
  cases c <;> rfl

omit [DecidableEq K] in
theorem cj_crsM (c : Bool) (S : Crs K) (i j : Nat) :
    cj c (crsM S i j) = ∑ k ∈ Ico (S.ptr i) (S.ptr (i + 1)), if S.col k = j then cj c (S.v k) else 0 := by
  rw [← cjHom_apply, map_crsM]
  simp only [cjHom_apply]

omit [StarRing K] [DecidableEq K] in
/-- The sum over the entries of a row, as a sum over the columns. -/
theorem row_sum {n i : Nat} (hc : ∀ k, S.ptr i ≤ k → k < S.ptr (i + 1) → S.col k < n) (φ : Nat → K →+ K) :
    ∑ k ∈ Ico (S.ptr i) (S.ptr (i + 1)), alpha * φ (S.col k) (S.v k) * xv (S.col k) =
      alpha * ∑ j ∈ range n, φ j (crsM S i j) * xv j := by
  simp only [map_crsM, sum_mul, mul_sum]
  rw [sum_comm]
  refine sum_congr rfl fun k hk => ?_
  rw [mem_Ico] at hk
  rw [sum_eq_single_of_mem (S.col k) (mem_range.2 (hc k hk.1 hk.2))]
  · rw [if_pos rfl, mul_assoc]
  · intro j _ hj
    rw [if_neg (Ne.symm hj), zero_mul, mul_zero]

omit [DecidableEq K] in
theorem conj_fun (t : Trans) (v : K) : (if t.conj then star else id : K → K) v = cj t.conj v := by
  cases h : t.conj <;> simp [cj]

/-- **C96** `gecrsmv`: `y := beta y + alpha op(A) x` for a sparse `A` with any index base. With `beta = 0` the old `y` may be
uninitialised. -/
theorem C96_gecrsmv (hS : CrsAt I m A ia ja b r c S) (hx : VecAt m x 1 (opCols t r c) xv) (hy : VecMem m y 1 (opRows t r c))
    (hb : beta ≠ 0 → VecAt m y 1 (opRows t r c) yv) (hdA : VecDisj A 1 (S.ptr r) y 1 (opRows t r c))
    (hdx : VecDisj x 1 (opCols t r c) y 1 (opRows t r c)) :
    Yields (gecrsmv t r c alpha I A ia ja x beta y) m y 1 (opRows t r c) fun i =>
      beta * yv i + alpha * ∑ j ∈ range (opCols t r c), opM t (crsM S) i j * xv j := by
  have hrow : ∀ i k, i < r → k < S.ptr (i + 1) → k < S.ptr r := fun i k hi hk => hS.lt hi hk
  unfold gecrsmv
  suffices h : ∀ cm : M K Unit, (cm = match t.trans with
      | false => loop r fun i => do
        initCell beta (y + i)
        rowEntries I ia ja b i fun k j => addTerm alpha (if t.conj then star else id) (y + i) (A + k) (x + j)
      | true => do
        loop c fun i => initCell beta (y + i)
        loop r fun i => rowEntries I ia ja b i fun k j => addTerm alpha (if t.conj then star else id) (y + j) (A + k) (x + i)) →
      Yields cm m y 1 (opRows t r c) fun i => beta * yv i + alpha * ∑ j ∈ range (opCols t r c), opM t (crsM S) i j * xv j by
    obtain ⟨m', h1, h2, h3⟩ := h _ rfl
    refine ⟨m', (bind_ok (loadIdx_ok hS.base)).trans ?_, h2, h3⟩
    exact h1
  rintro _ rfl
  cases ht : t.trans
  · simp only [opRows, opCols, ht, Bool.false_eq_true, if_false] at hx hy hb hdA hdx ⊢
    obtain ⟨m', h1, h2, h3⟩ := passes_run (c := r) (f := fun i : Nat => do
        initCell beta (y + i)
        rowEntries I ia ja b i fun k j => addTerm alpha (if t.conj then star else id) (y + i) (A + k) (x + j)) (m := m)
      (fun i : Nat => y + i) (fun i => beta * yv i + alpha * ∑ j ∈ range c, opM t (crsM S) i j * xv j) (fun l i => i = l)
      (by rintro l l' _ _ _ _ rfl rfl e; omega) (by
        intro l hl m' hm'
        have e : m' (y + l) = m (y + l) := hm' _ (by rintro l' _ hl' rfl e; omega)
        have hsub : ∀ a, a ∉ cells y 1 r → m' a = m a := fun a ha => hm' a (by
          rintro l' i hl' rfl rfl
          exact ha ⟨i, by omega, by rw [elem_one]⟩)
        have hin : ∀ a, a ∉ cells y 1 r → a ∉ cells (y + l) 1 1 := by
          rintro a ha ⟨j, hj, e⟩
          have : j = 0 := by omega
          subst this
          refine ha ⟨l, hl, ?_⟩
          rw [← e, elem_one, elem_one]
          push_cast; ring
        obtain ⟨m1, g1, g2, g3⟩ := initCell_run (beta := beta) (a := y + l) (m := m') (w := yv l)
          (by rw [e, ← elem_one y r l]; exact hy l hl) (fun hb' => by rw [e, ← elem_one y r l]; exact hb hb' l hl)
        have hrun : Adds m' (y + l) 1 1 (rowEntries I ia ja b l fun k j =>
            addTerm alpha (if t.conj then star else id) (y + l) (A + k) (x + j)) fun p => ∑ k ∈ Ico (S.ptr l) (S.ptr (l + 1)),
              if p = 0 then alpha * cj t.conj (S.v k) * xv (S.col k) else 0 := by
          refine rowEntries_adds hS hl fun k hk1 hk2 => ?_
          have hk := hrow l k hl hk2
          have hck := hS.colLt k hk
          have ex := hx _ hck
          rw [elem_one] at ex
          have := adds_term (m := m') (y := y + l) (n := 1) (alpha := alpha) (f := if t.conj then star else id) (p := 0)
            (a := A + k) (x := x + S.col k) (v := S.v k) (u := xv (S.col k)) (by omega)
            ((hsub _ (not_cell hdA hk)).trans (hS.vals k hk)) (hin _ (not_cell hdA hk))
            ((hsub _ (not_cell hdx hck)).trans ex) (hin _ (not_cell hdx hck))
          rw [conj_fun] at this
          simpa using this
        have hv : VecAt m1 (y + l) 1 1 fun _ => yv l * beta := by
          intro i hi
          have : i = 0 := by omega
          subst this
          rw [elem_one]
          simpa using g2
        obtain ⟨m2, k1, k2, k3⟩ := hrun m1 _ (fun a ha => g3 a fun e => ha ⟨0, by omega, by rw [elem_one, e]; push_cast; ring⟩) hv
        refine ⟨m2, (bind_ok g1).trans k1, ?_, fun a ha => ?_⟩
        · rintro i rfl
          have := k3 0 (by omega)
          rw [elem_one] at this
          simp only [Nat.cast_zero, add_zero, if_true] at this
          rw [this]
          congr 1
          rw [mul_comm beta]
          congr 1
          have := row_sum (S := S) (alpha := alpha) (xv := xv) (n := c) (i := i)
            (fun k _ hk2 => hS.colLt k (hrow i k hl hk2)) (fun _ => cjHom K t.conj)
          simp only [cjHom_apply] at this
          rw [this]
          simp only [opM, ht, Bool.false_eq_true, if_false]
        · have hne : a ≠ y + l := ha l rfl
          refine (k2 a ?_).trans (g3 a hne)
          rintro ⟨j, hj, e⟩
          have : j = 0 := by omega
          subst this
          rw [elem_one] at e
          exact hne (by rw [← e]; push_cast; ring))
    refine ⟨m', h1, fun i hi => ?_, fun a ha => h3 a ?_⟩
    · rw [elem_one]; exact h2 i i hi rfl
    · rintro l i hl rfl
      have := ha i hl
      rwa [elem_one] at this
  · simp only [opRows, opCols, ht, if_true] at hx hy hb hdA hdx ⊢
    have hadd : Adds m y 1 c (loop r fun i => rowEntries I ia ja b i fun k j =>
        addTerm alpha (if t.conj then star else id) (y + j) (A + k) (x + i)) fun p => ∑ i ∈ range r,
          ∑ k ∈ Ico (S.ptr i) (S.ptr (i + 1)), if p = S.col k then alpha * cj t.conj (S.v k) * xv i else 0 := by
      refine adds_loop fun i hi => rowEntries_adds hS hi fun k hk1 hk2 => ?_
      have hk := hrow i k hi hk2
      have ex := hx i hi
      rw [elem_one] at ex
      have := adds_term (alpha := alpha) (f := if t.conj then star else id) (hS.colLt k hk) (hS.vals k hk) (not_cell hdA hk) ex
        (not_cell hdx hi)
      rwa [conj_fun] at this
    obtain ⟨m', h1, h2, h3⟩ := scaled_run ⟨hy, hb⟩ hadd
    refine ⟨m', h1, fun p hp => (h2 p hp).trans (congrArg Cell.val ?_), h3⟩
    simp only []
    rw [mul_comm beta, mul_sum]
    congr 1
    refine sum_congr rfl fun i _ => ?_
    simp only [opM, ht, if_true]
    rw [cj_crsM, sum_mul, mul_sum]
    refine sum_congr rfl fun k _ => ?_
    by_cases e : S.col k = p
    · rw [if_pos e, if_pos e.symm, mul_assoc]
    · rw [if_neg e, if_neg (Ne.symm e), zero_mul, mul_zero]

omit [CommRing K] [StarRing K] [DecidableEq K] in
theorem CrsAt.agree {m' : Mem K} (h : CrsAt I m A ia ja b r c S) (e : ∀ k, k < S.ptr r → m' (A + k) = m (A + k)) :
    CrsAt I m' A ia ja b r c S :=
  ⟨h.zero, h.mono, h.rows, h.cols, h.colLt, fun k hk => (e k hk).trans (h.vals k hk)⟩

/-- The entries of a sparse matrix have no cell in common with a dense one in column-major order. -/
def CrsMatDisj (A : Int) (S : Crs K) (r : Nat) (C ld : Int) (k n : Nat) : Prop :=
  ∀ e i j, e < S.ptr r → i < k → j < n → A + e ≠ matAd C .colMajor ld i j

omit [StarRing K] [DecidableEq K] in
/-- A product column by column. -/
theorem sparseMm_run {n k l : Nat} {B ldB C ldC : Int} {QB QC V : Nat → Nat → K} {f : Int → Int → M K Unit}
    (hf : ∀ (m' : Mem K) x y xv yv, CrsAt I m' A ia ja b r c S → VecAt m' x 1 l xv → VecMem m' y 1 k →
      (beta ≠ 0 → VecAt m' y 1 k yv) → VecDisj A 1 (S.ptr r) y 1 k → VecDisj x 1 l y 1 k →
      Yields (f x y) m' y 1 k fun i => beta * yv i + alpha * ∑ j ∈ range l, V i j * xv j)
    (hS : CrsAt I m A ia ja b r c S) (hB : MatAt m B .colMajor ldB (full l n) QB) (hC : MatMem m C .colMajor ldC (full k n))
    (hb : beta ≠ 0 → MatAt m C .colMajor ldC (full k n) QC) (hld : (k : Int) ≤ ldC)
    (hdA : CrsMatDisj A S r C ldC k n)
    (hdB : StDisj (matAd B .colMajor ldB) (full l n) (matAd C .colMajor ldC) (full k n)) :
    YieldsMat (loop n fun i => f (B + i * ldB) (C + i * ldC)) m C .colMajor ldC (full k n) fun i j =>
      beta * QC i j + alpha * ∑ q ∈ range l, V i q * QB q j := by
  refine yieldsMat_col ?_
  rw [sw_full]
  refine lines_run hld _ fun i hi m' ho => ?_
  have eC : ∀ p, C + (i : Int) * ldC + p = matAd C .colMajor ldC p i := fun p => by simp only [matAd, idx]; ring
  have eB : ∀ p, B + (i : Int) * ldB + p = matAd B .colMajor ldB p i := fun p => by simp only [matAd, idx]; ring
  have old : ∀ p, p < k → m' (matAd C .colMajor ldC p i) = m (matAd C .colMajor ldC p i) := by
    intro p hp
    refine ho _ fun i' j' h' e => ?_
    simp only [matAd, idx] at e
    have e' : matAd C .rowMajor ldC i p = matAd C .rowMajor ldC i' j' := by simp only [matAd, idx]; linarith
    have := (matAd_inj (by omega) (by have := h'.2; omega) e').1
    have := h'.1
    omega
  have off : ∀ a, (∀ p q, p < k → q < n → a ≠ matAd C .colMajor ldC p q) → m' a = m a := by
    intro a ha
    refine ho a fun i' j' h' e => ha j' i' h'.2 (by have := h'.1; omega) ?_
    rw [e]; simp only [matAd, idx]; ring
  have := hf m' (B + i * ldB) (C + i * ldC) (fun q => QB q i) (fun p => QC p i)
    (hS.agree fun e he => off _ fun p q hp hq => hdA e p q he hp hq)
    (fun q hq => by
      rw [elem_one, eB, off _ fun p q' hp hq' => hdB q i p q' ⟨hq, hi⟩ ⟨hp, hq'⟩]
      exact hB q i ⟨hq, hi⟩)
    (fun p hp => by rw [elem_one, eC, old p hp]; exact hC p i ⟨hp, hi⟩)
    (fun h0 p hp => by rw [elem_one, eC, old p hp]; exact hb h0 p i ⟨hp, hi⟩)
    (fun e p he hp => by rw [elem_one, elem_one, eC]; exact hdA e p i he hp hi)
    (fun q p hq hp => by rw [elem_one, elem_one, eC, eB]; exact hdB q i p i ⟨hq, hi⟩ ⟨hp, hi⟩)
  exact this

/-- **C96** `gecrsmm`: `C := beta C + alpha op(A) B` for dense `B` and `C` in column-major order. -/
theorem C96_gecrsmm {n : Nat} {B ldB C ldC : Int} {QB QC : Nat → Nat → K} (hS : CrsAt I m A ia ja b r c S)
    (hB : MatAt m B .colMajor ldB (full (opCols t r c) n) QB) (hC : MatMem m C .colMajor ldC (full (opRows t r c) n))
    (hb : beta ≠ 0 → MatAt m C .colMajor ldC (full (opRows t r c) n) QC) (hld : (opRows t r c : Int) ≤ ldC)
    (hdA : CrsMatDisj A S r C ldC (opRows t r c) n)
    (hdB : StDisj (matAd B .colMajor ldB) (full (opCols t r c) n) (matAd C .colMajor ldC) (full (opRows t r c) n)) :
    YieldsMat (gecrsmm t r n c alpha I A ia ja B ldB beta C ldC) m C .colMajor ldC (full (opRows t r c) n) fun i j =>
      beta * QC i j + alpha * ∑ q ∈ range (opCols t r c), opM t (crsM S) i q * QB q j :=
  sparseMm_run (f := fun x y => gecrsmv t r c alpha I A ia ja x beta y)
    (fun _ _ _ _ _ h1 h2 h3 h4 h5 h6 => C96_gecrsmv h1 h2 h3 h4 h5 h6) hS hB hC hb hld hdA hdB

/-! ### C97: symmetric and hermitian matrices -/

omit [StarRing K] [DecidableEq K] in
theorem sym_sum {n p : Nat} (hp : p < n) (hc : ∀ i k, i < n → S.ptr i ≤ k → k < S.ptr (i + 1) → S.col k < n) (f g h : K →+ K) :
    ∑ i ∈ range n, ∑ k ∈ Ico (S.ptr i) (S.ptr (i + 1)), symTerm alpha f g h S xv i k p =
      alpha * ∑ j ∈ range n, (if j = p then h (crsM S p p) else f (crsM S p j) + g (crsM S j p)) * xv j := by
  have e1 : ∀ i, i < n → ∑ k ∈ Ico (S.ptr i) (S.ptr (i + 1)), symTerm alpha f g h S xv i k p =
      (if i = p then alpha * ∑ j ∈ range n, (if j = p then h (crsM S p j) else f (crsM S p j)) * xv j else 0) +
        if i = p then 0 else alpha * (g (crsM S i p) * xv i) := by
    intro i hi
    by_cases e : i = p
    · subst e
      have := row_sum (S := S) (alpha := alpha) (xv := xv) (n := n) (i := i) (fun k h1 h2 => hc i k hi h1 h2)
        (fun j => if j = i then h else f)
      rw [if_pos rfl, if_pos rfl, add_zero]
      refine Eq.trans (sum_congr rfl fun k _ => ?_) (this.trans ?_)
      · unfold symTerm
        by_cases e : S.col k = i
        · simp [e]
        · rw [if_neg e, if_pos rfl, if_neg (Ne.symm e), add_zero, if_neg e]
      · congr 1
        refine sum_congr rfl fun j _ => ?_
        split <;> rfl
    · rw [if_neg e, if_neg e, zero_add, map_crsM, sum_mul, mul_sum]
      refine sum_congr rfl fun k _ => ?_
      unfold symTerm
      by_cases e' : S.col k = i
      · rw [if_pos e', if_neg (Ne.symm e), if_neg (by omega), zero_mul, mul_zero]
      · rw [if_neg e', if_neg (Ne.symm e), zero_add]
        by_cases e'' : S.col k = p
        · rw [if_pos e'', if_pos e''.symm, mul_assoc]
        · rw [if_neg e'', if_neg (Ne.symm e''), zero_mul, mul_zero]
  rw [sum_congr rfl fun i hi => e1 i (mem_range.1 hi), sum_add_distrib, sum_ite_eq' (range n) p, if_pos (mem_range.2 hp), mul_sum, mul_sum,
    ← sum_add_distrib]
  refine sum_congr rfl fun j _ => ?_
  by_cases e : j = p
  · subst e; simp
  · simp only [if_neg e]; ring

omit [StarRing K] [DecidableEq K] in
theorem crsM_off {u : UpLo} {i j : Nat} (h : TriRow u S i) (hij : (u = .upper → j < i) ∧ (u = .lower → i < j)) :
    crsM S i j = 0 := by
  refine sum_eq_zero fun k hk => if_neg fun e => ?_
  rw [mem_Ico] at hk
  have := h.tri k hk.1 hk.2
  cases u
  · have h1 := this.1 rfl; have h2 := hij.1 rfl; omega
  · have h1 := this.2 rfl; have h2 := hij.2 rfl; omega

omit [CommRing K] [StarRing K] [DecidableEq K] in
theorem TriRow.diag {u : UpLo} {i k : Nat} (h : TriRow u S i) (h1 : S.ptr i ≤ k) (h2 : k < S.ptr (i + 1)) (e : S.col k = i) :
    if u.isUpper then k = S.ptr i else k + 1 = S.ptr (i + 1) := by
  cases u
  · simp only [UpLo.isUpper, if_true]
    by_contra hne
    have := h.sorted (S.ptr i) k (Nat.le_refl _) (by omega) h2
    have := (h.tri (S.ptr i) (Nat.le_refl _) (by omega)).1 rfl
    omega
  · simp only [UpLo.isUpper, Bool.false_eq_true, if_false]
    by_contra hne
    have := h.sorted k (k + 1) h1 (by omega) (by omega)
    have := (h.tri (k + 1) (by omega) (by omega)).2 rfl
    omega

omit [StarRing K] in
theorem symSparse_run {n : Nat} {u : UpLo} (f g h : K →+ K) (hS : CrsAt I m A ia ja b n n S) (hT : ∀ i, i < n → TriRow u S i)
    (hx : VecAt m x 1 n xv) (hy : VecMem m y 1 n) (hb : beta ≠ 0 → VecAt m y 1 n yv) (hdA : VecDisj A 1 (S.ptr n) y 1 n)
    (hdx : VecDisj x 1 n y 1 n) :
    Yields (symSparse u.isUpper f g h n alpha I A ia ja x beta y) m y 1 n fun p =>
      beta * yv p + alpha * ∑ j ∈ range n, (if j = p then h (crsM S p p) else f (crsM S p j) + g (crsM S j p)) * xv j := by
  have hadd : Adds m y 1 n (loop n fun i => symRow u.isUpper alpha f g h I A ia ja b x y i) fun p => ∑ i ∈ range n,
      ∑ k ∈ Ico (S.ptr i) (S.ptr (i + 1)), symTerm alpha f g h S xv i k p :=
    adds_loop fun i hi => symRow_adds hS hx hdA hdx hi fun k h1 h2 e => (hT i hi).diag h1 h2 e
  obtain ⟨m', h1, h2, h3⟩ := scaled_run ⟨hy, hb⟩ hadd
  refine ⟨m', (bind_ok (loadIdx_ok hS.base)).trans h1, fun p hp => (h2 p hp).trans (congrArg Cell.val ?_), h3⟩
  simp only []
  rw [sym_sum hp (fun i k hi _ h2 => hS.colLt k (hS.lt hi h2)), mul_comm beta]

section
variable {n : Nat} {u : UpLo}

omit [StarRing K] in
/-- **C97** `sycrsmv`: `y := beta y + alpha S x` for the symmetric matrix given by the entries of one triangle. -/
theorem C97_sycrsmv (hS : CrsAt I m A ia ja b n n S) (hT : ∀ i, i < n → TriRow u S i)
    (hx : VecAt m x 1 n xv) (hy : VecMem m y 1 n) (hb : beta ≠ 0 → VecAt m y 1 n yv) (hdA : VecDisj A 1 (S.ptr n) y 1 n)
    (hdx : VecDisj x 1 n y 1 n) :
    Yields (sycrsmv u n alpha I A ia ja x beta y) m y 1 n fun p =>
      beta * yv p + alpha * ∑ j ∈ range n, symM u (crsM S) p j * xv j := by
  refine (symSparse_run (AddMonoidHom.id K) (AddMonoidHom.id K) (AddMonoidHom.id K) hS hT hx hy hb hdA hdx).congr fun p hp => ?_
  congr 2
  refine sum_congr rfl fun j hj => ?_
  rw [mem_range] at hj
  congr 1
  simp only [AddMonoidHom.id_apply]
  cases u
  · have hz : ∀ i k, i < n → k < i → crsM S i k = 0 := fun i k hi h => crsM_off (hT i hi) ⟨fun _ => h, fun e => by cases e⟩
    rcases Nat.lt_trichotomy p j with q | q | q
    · simp [symM, show ¬j ≤ p by omega, show p ≤ j by omega, show ¬j = p by omega, show ¬p = j by omega, hz j p hj q]
    · subst q; simp [symM]
    · simp [symM, show j ≤ p by omega, show ¬p ≤ j by omega, show ¬j = p by omega, show ¬p = j by omega, hz p j hp q]
  · have hz : ∀ i k, i < n → i < k → crsM S i k = 0 := fun i k hi h => crsM_off (hT i hi) ⟨fun e => (by cases e), fun _ => h⟩
    rcases Nat.lt_trichotomy p j with q | q | q
    · simp [symM, show ¬j ≤ p by omega, show p ≤ j by omega, show ¬j = p by omega, show ¬p = j by omega, hz p j hp q]
    · subst q; simp [symM]
    · simp [symM, show j ≤ p by omega, show ¬p ≤ j by omega, show ¬j = p by omega, show ¬p = j by omega, hz j p hj q]

omit [StarRing K] in
/-- **C97** `syccsmv`: the same for column storage, where the arrays hold the transpose row by row. -/
theorem C97_syccsmv (hS : CrsAt I m A ja ia b n n S) (hT : ∀ j, j < n → TriRow u.flip S j)
    (hx : VecAt m x 1 n xv) (hy : VecMem m y 1 n) (hb : beta ≠ 0 → VecAt m y 1 n yv) (hdA : VecDisj A 1 (S.ptr n) y 1 n)
    (hdx : VecDisj x 1 n y 1 n) :
    Yields (syccsmv u n alpha I A ia ja x beta y) m y 1 n fun p =>
      beta * yv p + alpha * ∑ j ∈ range n, symM u (fun i j => crsM S j i) p j * xv j := by
  refine (C97_sycrsmv (u := u.flip) hS hT hx hy hb hdA hdx).congr fun p hp => ?_
  congr 2
  refine sum_congr rfl fun j hj => ?_
  congr 1
  rcases Nat.lt_trichotomy p j with q | q | q
  · cases u <;> simp [symM, UpLo.flip, show ¬j ≤ p by omega, show p ≤ j by omega]
  · subst q; cases u <;> simp [symM, UpLo.flip]
  · cases u <;> simp [symM, UpLo.flip, show j ≤ p by omega, show ¬p ≤ j by omega]

/-- **C97** `hecrsmv`: `y := beta y + alpha H x` for the hermitian matrix given by the entries of one triangle; of the diagonal
the real part is used. -/
theorem C97_hecrsmv {re : K →+ K} (hS : CrsAt I m A ia ja b n n S) (hT : ∀ i, i < n → TriRow u S i)
    (hx : VecAt m x 1 n xv) (hy : VecMem m y 1 n) (hb : beta ≠ 0 → VecAt m y 1 n yv) (hdA : VecDisj A 1 (S.ptr n) y 1 n)
    (hdx : VecDisj x 1 n y 1 n) :
    Yields (hecrsmv re u n alpha I A ia ja x beta y) m y 1 n fun p =>
      beta * yv p + alpha * ∑ j ∈ range n, herM re u (crsM S) p j * xv j := by
  refine (symSparse_run (AddMonoidHom.id K) (cjHom K true) re hS hT hx hy hb hdA hdx).congr fun p hp => ?_
  congr 2
  refine sum_congr rfl fun j hj => ?_
  rw [mem_range] at hj
  congr 1
  simp only [AddMonoidHom.id_apply, cjHom_apply, cj, if_true]
  cases u
  · have hz : ∀ i k, i < n → k < i → crsM S i k = 0 := fun i k hi h => crsM_off (hT i hi) ⟨fun _ => h, fun e => by cases e⟩
    rcases Nat.lt_trichotomy p j with q | q | q
    · simp [herM, show ¬j < p by omega, q, show ¬j = p by omega, show ¬p = j by omega, hz j p hj q]
    · subst q; simp [herM]
    · simp [herM, q, show ¬p < j by omega, show ¬j = p by omega, show ¬p = j by omega, hz p j hp q]
  · have hz : ∀ i k, i < n → i < k → crsM S i k = 0 := fun i k hi h => crsM_off (hT i hi) ⟨fun e => (by cases e), fun _ => h⟩
    rcases Nat.lt_trichotomy p j with q | q | q
    · simp [herM, show ¬j < p by omega, q, show ¬j = p by omega, show ¬p = j by omega, hz p j hp q]
    · subst q; simp [herM]
    · simp [herM, q, show ¬p < j by omega, show ¬j = p by omega, show ¬p = j by omega, hz j p hj q]

/-- **C97** `heccsmv`: the same for column storage. -/
theorem C97_heccsmv {re : K →+ K} (hS : CrsAt I m A ja ia b n n S) (hT : ∀ j, j < n → TriRow u.flip S j)
    (hx : VecAt m x 1 n xv) (hy : VecMem m y 1 n) (hb : beta ≠ 0 → VecAt m y 1 n yv) (hdA : VecDisj A 1 (S.ptr n) y 1 n)
    (hdx : VecDisj x 1 n y 1 n) :
    Yields (heccsmv re u n alpha I A ia ja x beta y) m y 1 n fun p =>
      beta * yv p + alpha * ∑ j ∈ range n, herM re u (fun i j => crsM S j i) p j * xv j := by
  refine (symSparse_run (cjHom K true) (AddMonoidHom.id K) re hS hT hx hy hb hdA hdx).congr fun p hp => ?_
  congr 2
  refine sum_congr rfl fun j hj => ?_
  rw [mem_range] at hj
  congr 1
  simp only [AddMonoidHom.id_apply, cjHom_apply, cj, if_true]
  cases u
  · have hz : ∀ i k, i < n → i < k → crsM S i k = 0 := fun i k hi h => crsM_off (hT i hi) ⟨fun e => (by cases e), fun _ => h⟩
    rcases Nat.lt_trichotomy p j with q | q | q
    · simp [herM, show ¬j < p by omega, q, show ¬j = p by omega, show ¬p = j by omega, hz p j hp q]
    · subst q; simp [herM]
    · simp [herM, q, show ¬p < j by omega, show ¬j = p by omega, show ¬p = j by omega, hz j p hj q]
  · have hz : ∀ i k, i < n → k < i → crsM S i k = 0 := fun i k hi h => crsM_off (hT i hi) ⟨fun _ => h, fun e => by cases e⟩
    rcases Nat.lt_trichotomy p j with q | q | q
    · simp [herM, show ¬j < p by omega, q, show ¬j = p by omega, show ¬p = j by omega, hz j p hj q]
    · subst q; simp [herM]
    · simp [herM, q, show ¬p < j by omega, show ¬j = p by omega, show ¬p = j by omega, hz p j hp q]

section mm
variable {l : Nat} {B ldB C ldC : Int} {QB QC : Nat → Nat → K}

omit [StarRing K] in
/-- **C97** `sycrsmm`: `C := beta C + alpha S B`. -/
theorem C97_sycrsmm (hS : CrsAt I m A ia ja b n n S) (hT : ∀ i, i < n → TriRow u S i)
    (hB : MatAt m B .colMajor ldB (full n l) QB) (hC : MatMem m C .colMajor ldC (full n l))
    (hb : beta ≠ 0 → MatAt m C .colMajor ldC (full n l) QC) (hld : (n : Int) ≤ ldC) (hdA : CrsMatDisj A S n C ldC n l)
    (hdB : StDisj (matAd B .colMajor ldB) (full n l) (matAd C .colMajor ldC) (full n l)) :
    YieldsMat (sycrsmm u n l alpha I A ia ja B ldB beta C ldC) m C .colMajor ldC (full n l) fun i j =>
      beta * QC i j + alpha * ∑ q ∈ range n, symM u (crsM S) i q * QB q j :=
  sparseMm_run (f := fun x y => sycrsmv u n alpha I A ia ja x beta y)
    (fun _ _ _ _ _ h1 h2 h3 h4 h5 h6 => C97_sycrsmv h1 hT h2 h3 h4 h5 h6) hS hB hC hb hld hdA hdB

omit [StarRing K] in
/-- **C97** `syccsmm`. -/
theorem C97_syccsmm (hS : CrsAt I m A ja ia b n n S) (hT : ∀ i, i < n → TriRow u.flip S i)
    (hB : MatAt m B .colMajor ldB (full n l) QB) (hC : MatMem m C .colMajor ldC (full n l))
    (hb : beta ≠ 0 → MatAt m C .colMajor ldC (full n l) QC) (hld : (n : Int) ≤ ldC) (hdA : CrsMatDisj A S n C ldC n l)
    (hdB : StDisj (matAd B .colMajor ldB) (full n l) (matAd C .colMajor ldC) (full n l)) :
    YieldsMat (syccsmm u n l alpha I A ia ja B ldB beta C ldC) m C .colMajor ldC (full n l) fun i j =>
      beta * QC i j + alpha * ∑ q ∈ range n, symM u (fun i j => crsM S j i) i q * QB q j :=
  sparseMm_run (f := fun x y => syccsmv u n alpha I A ia ja x beta y)
    (fun _ _ _ _ _ h1 h2 h3 h4 h5 h6 => C97_syccsmv h1 hT h2 h3 h4 h5 h6) hS hB hC hb hld hdA hdB

/-- **C97** `hecrsmm`: `C := beta C + alpha H B`. -/
theorem C97_hecrsmm {re : K →+ K} (hS : CrsAt I m A ia ja b n n S) (hT : ∀ i, i < n → TriRow u S i)
    (hB : MatAt m B .colMajor ldB (full n l) QB) (hC : MatMem m C .colMajor ldC (full n l))
    (hb : beta ≠ 0 → MatAt m C .colMajor ldC (full n l) QC) (hld : (n : Int) ≤ ldC) (hdA : CrsMatDisj A S n C ldC n l)
    (hdB : StDisj (matAd B .colMajor ldB) (full n l) (matAd C .colMajor ldC) (full n l)) :
    YieldsMat (hecrsmm re u n l alpha I A ia ja B ldB beta C ldC) m C .colMajor ldC (full n l) fun i j =>
      beta * QC i j + alpha * ∑ q ∈ range n, herM re u (crsM S) i q * QB q j :=
  sparseMm_run (f := fun x y => hecrsmv re u n alpha I A ia ja x beta y)
    (fun _ _ _ _ _ h1 h2 h3 h4 h5 h6 => C97_hecrsmv h1 hT h2 h3 h4 h5 h6) hS hB hC hb hld hdA hdB

/-- **C97** `heccsmm`. -/
theorem C97_heccsmm {re : K →+ K} (hS : CrsAt I m A ja ia b n n S) (hT : ∀ i, i < n → TriRow u.flip S i)
    (hB : MatAt m B .colMajor ldB (full n l) QB) (hC : MatMem m C .colMajor ldC (full n l))
    (hb : beta ≠ 0 → MatAt m C .colMajor ldC (full n l) QC) (hld : (n : Int) ≤ ldC) (hdA : CrsMatDisj A S n C ldC n l)
    (hdB : StDisj (matAd B .colMajor ldB) (full n l) (matAd C .colMajor ldC) (full n l)) :
    YieldsMat (heccsmm re u n l alpha I A ia ja B ldB beta C ldC) m C .colMajor ldC (full n l) fun i j =>
      beta * QC i j + alpha * ∑ q ∈ range n, herM re u (fun i j => crsM S j i) i q * QB q j :=
  sparseMm_run (f := fun x y => heccsmv re u n alpha I A ia ja x beta y)
    (fun _ _ _ _ _ h1 h2 h3 h4 h5 h6 => C97_heccsmv h1 hT h2 h3 h4 h5 h6) hS hB hC hb hld hdA hdB

end mm
end

end

/-! ### Examples -/

/-- Cells from `a` on that hold the values of a list, on top of `m`. -/
def exList (a : Int) (l : List Int) (m : Mem Int) : Mem Int := fun p =>
  if a ≤ p ∧ p < a + l.length then .val (l.getD (p - a).toNat 0) else m p

/-- Row pointers at 0 and column indices at 10, with index base 1. -/
def exIdx (col : List Int) : Mem Int := exList 0 [1, 3, 4] (exList 10 col fun _ => .out)

/-- Values at 0, vectors at 10 and 20, the latter not initialised. -/
def exSp : Mem Int := exList 0 [5, 6, 7] (exList 10 [1, 10, 100] fun p => if 20 ≤ p ∧ p < 23 then .raw else .out)

/-- The entries of a matrix with two rows. -/
def exCrs (col : Nat → Nat) : Crs Int := ⟨fun i => if i = 0 then 0 else i + 1, col, fun k => 5 + k⟩

/-- The hypotheses of C96 hold for a 2x3 matrix with the elements 5 and 6 in the corners of the first row and 7 in the second. -/
example : CrsAt (exIdx [1, 3, 2]) exSp 0 0 10 1 2 3 (exCrs fun k => if k = 0 then 0 else 3 - k) ∧
    VecAt exSp 10 1 3 (fun i => 10 ^ i) ∧ VecMem exSp 20 1 2 ∧ VecDisj 0 1 3 20 1 2 ∧ VecDisj 10 1 3 20 1 2 := by
  refine ⟨⟨rfl, fun i h => ?_, fun i h => ?_, fun k (h : k < 3) => ?_, fun k (h : k < 3) => ?_, fun k (h : k < 3) => ?_⟩,
    fun i h => ?_, fun i h => ?_, fun i j h hk => ?_, fun i j h hk => ?_⟩
  · interval_cases i <;> decide
  · interval_cases i <;> decide
  · interval_cases k <;> decide
  · interval_cases k <;> decide
  · interval_cases k <;> decide
  · interval_cases i <;> decide
  · interval_cases i <;> decide
  · interval_cases i <;> interval_cases j <;> decide
  · interval_cases i <;> interval_cases j <;> decide

example : (peek (gecrsmv (K := Int) noTrans 2 3 1 (exIdx [1, 3, 2]) 0 0 10 10 0 20 exSp) fun _ m => (m 20, m 21, m 22)) =
    .ok (.val 605, .val 70, .raw) := by decide

example : (peek (gecrsmv (K := Int) doTrans 2 3 1 (exIdx [1, 3, 2]) 0 0 10 10 0 20 exSp) fun _ m => (m 20, m 21, m 22)) =
    .ok (.val 5, .val 70, .val 6) := by decide

/-- Rows of the upper triangle in the order of the columns, as C97 asks for. -/
example : ∀ i, i < 2 → TriRow .upper (exCrs fun k => if k = 0 then 0 else 1) i := by
  intro i hi
  interval_cases i
  · refine ⟨fun k _ (h : k < 2) => ?_, fun k l _ hk (h : l < 2) => ?_⟩
    · interval_cases k <;> simp
    · interval_cases l
      · omega
      · interval_cases k; decide
  · refine ⟨fun k (h1 : 2 ≤ k) (h : k < 3) => ?_, fun k l (h1 : 2 ≤ k) hk (h : l < 3) => by omega⟩
    interval_cases k; simp [exCrs]

example : (peek (sycrsmv (K := Int) .upper 2 1 (exIdx [1, 2, 2]) 0 0 10 10 0 20 exSp) fun _ m => (m 20, m 21, m 22)) =
    .ok (.val 65, .val 76, .raw) := by decide

/-- C97 for rows in any order of the columns. -/
def C97Unsorted : Prop :=
  ∀ (I : Mem Int) (m : Mem Int) (A ia ja b x y : Int) (n : Nat) (S : Crs Int) (u : UpLo) (alpha beta : Int) (xv yv : Nat → Int),
    CrsAt I m A ia ja b n n S →
    (∀ i k, i < n → S.ptr i ≤ k → k < S.ptr (i + 1) → (u = .upper → i ≤ S.col k) ∧ (u = .lower → S.col k ≤ i)) →
    VecAt m x 1 n xv → VecMem m y 1 n → (beta ≠ 0 → VecAt m y 1 n yv) → VecDisj A 1 (S.ptr n) y 1 n → VecDisj x 1 n y 1 n →
    Yields (sycrsmv u n alpha I A ia ja x beta y) m y 1 n fun p =>
      beta * yv p + alpha * ∑ j ∈ range n, symM u (crsM S) p j * xv j

/-- **C97** The order is needed: an element of the diagonal behind another one of its row counts twice. -/
theorem C97_order_needed : ¬C97Unsorted := by
  intro h
  obtain ⟨m', h1, h2, _⟩ := h (exIdx [2, 1, 2]) exSp 0 0 10 1 10 20 2 (exCrs fun k => if k = 1 then 0 else 1) .upper 1 0
    (fun i => 10 ^ i) (fun _ => 0)
    ⟨rfl, fun i h => by interval_cases i <;> decide, fun i h => by interval_cases i <;> decide,
      fun k (h : k < 3) => by interval_cases k <;> decide, fun k (h : k < 3) => by interval_cases k <;> decide,
      fun k (h : k < 3) => by interval_cases k <;> decide⟩
    (fun i k hi => by
      interval_cases i
      · intro _ (h : k < 2)
        interval_cases k <;> simp
      · intro (h1 : 2 ≤ k) (h : k < 3)
        interval_cases k; simp [exCrs])
    (fun i h => by interval_cases i <;> decide) (fun i h => by interval_cases i <;> decide) (fun h => absurd rfl h)
    (fun i j (h : i < 3) hk => by interval_cases i <;> interval_cases j <;> decide)
    (fun i j h hk => by interval_cases i <;> interval_cases j <;> decide)
  have e : (peek (sycrsmv (K := Int) .upper 2 1 (exIdx [2, 1, 2]) 0 0 10 10 0 20 exSp) fun _ m => m 20) = .ok (.val 62) := by decide
  have e1 := h2 0 (by omega)
  rw [elem_one] at e1
  have e2 : m' 20 = .val 62 := by
    rw [h1] at e
    simpa [peek, bind, Out.bind] using e
  have e3 : m' 20 = .val 56 := by
    refine e1.trans ?_
    decide
  rw [e2] at e3
  simp at e3

end Verif.Blas
