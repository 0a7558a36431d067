import Verif.Lemmas.BlasSparseFl
import Verif.Props.BlasSparse

/-!
# C166: products with sparse matrices in floating point

The entries of a row are added one by one to the old element, in the order in which they are stored.
-/

namespace Verif.Blas

open Finset Verif.Ieee

variable {f : Fmt}

/-! ### Accounts of the elements of a sparse matrix -/

/-- The matrix of the values of the entries. -/
def valS (S : Crs (Fl f)) : Crs ℚ := ⟨S.ptr, S.col, fun k => (S.v k).val⟩

/-- The matrix of their magnitudes. -/
def absS (S : Crs (Fl f)) : Crs ℚ := ⟨S.ptr, S.col, fun k => |(S.v k).val|⟩

/-- One for each entry: `crsM (oneS S) i j` is the number of entries at row `i` and column `j`. -/
def oneS (S : Crs (Fl f)) : Crs ℕ := ⟨S.ptr, S.col, fun _ => 1⟩

/-- The matrix or its transpose; conjugation does nothing to real numbers. -/
def trM {α : Type} (t : Trans) (Q : Nat → Nat → α) (i j : Nat) : α := if t.trans then Q j i else Q i j

theorem trM_false {α : Type} {t : Trans} (h : t.trans = false) (Q : Nat → Nat → α) : trM t Q = Q := by
  funext i j; simp [trM, h]

theorem trM_true {α : Type} {t : Trans} (h : t.trans = true) (Q : Nat → Nat → α) : trM t Q = fun i j => Q j i := by
  funext i j; simp [trM, h]

/-- The product of an element with `alpha` and `u`. -/
def cellAcc (alpha : Fl f) (S : Crs (Fl f)) (u : Fl f) (i j : Nat) : Acc :=
  ∑ k ∈ Ico (S.ptr i) (S.ptr (i + 1)), if S.col k = j then term alpha (S.v k) u else 0

theorem cellAcc_eq (alpha : Fl f) (S : Crs (Fl f)) (u : Fl f) (i j : Nat) : cellAcc alpha S u i j =
    (crsM (oneS S) i j, alpha.val * crsM (valS S) i j * u.val, |alpha.val| * crsM (absS S) i j * |u.val|,
      ((crsM (oneS S) i j : ℕ) : ℚ) * (|u.val| + 1)) := by
  unfold cellAcc crsM oneS valS absS
  refine Prod.ext ?_ (Prod.ext ?_ (Prod.ext ?_ ?_))
  · rw [Prod.fst_sum]
    refine sum_congr rfl fun k _ => ?_
    split <;> rfl
  · rw [Prod.snd_sum, Prod.fst_sum]
    simp only [mul_sum, sum_mul]
    refine sum_congr rfl fun k _ => ?_
    split
    · rfl
    · simp
  · rw [Prod.snd_sum, Prod.snd_sum, Prod.fst_sum]
    simp only [mul_sum, sum_mul]
    refine sum_congr rfl fun k _ => ?_
    split
    · simp only [term, abs_mul]
    · simp
  · rw [Prod.snd_sum, Prod.snd_sum, Prod.snd_sum]
    push_cast
    rw [sum_mul]
    refine sum_congr rfl fun k _ => ?_
    split
    · simp only [term, one_mul]
    · simp

/-- `w` is `beta y + alpha (q0 x0 + q1 x1 + ...)` up to one rounding for each entry and two more of the sum of the magnitudes of the terms, and
what is lost below the normal range; `qa` are the magnitudes and `N` the numbers of the entries. -/
def RowErr (f : Fmt) (n : Nat) (alpha beta y : ℚ) (q qa : Nat → ℚ) (N : Nat → ℕ) (x : Nat → ℚ) (w : ℚ) : Prop :=
  |w - (beta * y + alpha * ∑ j ∈ range n, q j * x j)| ≤
    ((1 + unitRoundoff f) ^ (2 + ∑ j ∈ range n, N j) - 1) * (|beta * y| + |alpha| * ∑ j ∈ range n, qa j * |x j|) +
    (1 + unitRoundoff f) ^ (2 + ∑ j ∈ range n, N j) * ((1 + ∑ j ∈ range n, (N j : ℚ) * (|x j| + 1)) * halfTiny f)

theorem good_row {n : Nat} {alpha beta y w : Fl f} {q qa : Nat → ℚ} {N : Nat → ℕ} {x : Nat → Fl f}
    (h : Good f w (accInit beta y + ∑ j ∈ range n,
      ((N j, alpha.val * q j * (x j).val, |alpha.val| * qa j * |(x j).val|, (N j : ℚ) * (|(x j).val| + 1)) : Acc))) :
    RowErr f n alpha.val beta.val y.val q qa N (fun j => (x j).val) w.val := by
  obtain ⟨-, -, -, h4⟩ := h
  simp only [Prod.fst_add, Prod.snd_add, Prod.fst_sum, Prod.snd_sum, accInit, mul_assoc, ← mul_sum] at h4
  exact h4

section
variable {I : Mem Int} {m : Mem (Fl f)} {A ia ja b x y : Int} {r c : Nat} {S : Crs (Fl f)} {t : Trans} {alpha beta : Fl f} {xv yv : Nat → Fl f}

theorem conj_fl (t : Trans) (v : Fl f) : (if t.conj then star else id : Fl f → Fl f) v = v := by
  cases t.conj <;> rfl

/-- The terms of row `i` of the matrix or of its transpose, as a sum over the columns. -/
theorem row_acc {n i : Nat} (hc : ∀ k, S.ptr i ≤ k → k < S.ptr (i + 1) → S.col k < n) :
    ∑ k ∈ Ico (S.ptr i) (S.ptr (i + 1)), term alpha (S.v k) (xv (S.col k)) = ∑ j ∈ range n, cellAcc alpha S (xv j) i j := by
  unfold cellAcc
  rw [sum_comm]
  refine sum_congr rfl fun k hk => ?_
  rw [mem_Ico] at hk
  rw [sum_eq_single_of_mem (S.col k) (mem_range.2 (hc k hk.1 hk.2))]
  · rw [if_pos rfl]
  · intro j _ hj
    rw [if_neg (Ne.symm hj)]

/-- **C166** `gecrsmv` in floating point: `y := beta y + alpha op(A) x` for a sparse `A` with any index base. Each element is right up to one
rounding for each entry of its row, and two more, of the sum of the magnitudes of its terms. Nothing else changes. -/
theorem C166_gecrsmv (he : f.emin ≤ 0) (hS : CrsAt I m A ia ja b r c S) (hx : VecAt m x 1 (opCols t r c) xv)
    (hy : VecMem m y 1 (opRows t r c)) (hb : beta ≠ 0 → VecAt m y 1 (opRows t r c) yv) (hdA : VecDisj A 1 (S.ptr r) y 1 (opRows t r c))
    (hdx : VecDisj x 1 (opCols t r c) y 1 (opRows t r c)) :
    ∃ w, Yields (gecrsmv t r c alpha I A ia ja x beta y) m y 1 (opRows t r c) w ∧ ∀ i, i < opRows t r c →
      RowErr f (opCols t r c) alpha.val beta.val (yv i).val (trM t (crsM (valS S)) i) (trM t (crsM (absS S)) i) (trM t (crsM (oneS S)) i)
        (fun j => (xv j).val) (w i).val := by
  have hrow : ∀ i k, i < r → k < S.ptr (i + 1) → k < S.ptr r := fun i k hi hk => hS.lt hi hk
  unfold gecrsmv
  suffices h : ∀ cm : M (Fl f) Unit, (cm = match t.trans with
      | false => loop r fun i => do
        initCell beta (y + i)
        rowEntries I ia ja b i fun k j => addTerm alpha (if t.conj then star else id) (y + i) (A + k) (x + j)
      | true => do
        loop c fun i => initCell beta (y + i)
        loop r fun i => rowEntries I ia ja b i fun k j => addTerm alpha (if t.conj then star else id) (y + j) (A + k) (x + i)) →
      ∃ w, Yields cm m y 1 (opRows t r c) w ∧ ∀ i, i < opRows t r c →
        RowErr f (opCols t r c) alpha.val beta.val (yv i).val (trM t (crsM (valS S)) i) (trM t (crsM (absS S)) i) (trM t (crsM (oneS S)) i)
          (fun j => (xv j).val) (w i).val by
    obtain ⟨w, ⟨m', h1, h2, h3⟩, h4⟩ := h _ rfl
    refine ⟨w, ⟨m', (bind_ok (loadIdx_ok hS.base)).trans ?_, h2, h3⟩, h4⟩
    exact h1
  rintro _ rfl
  cases ht : t.trans
  · simp only [trM_false ht]
    simp only [opRows, opCols, ht, Bool.false_eq_true, if_false] at hx hy hb hdA hdx ⊢
    obtain ⟨V, ⟨m', h1, h2, h3⟩, h4⟩ := lines_ex (r := r) (c := 1) (C := y) (ld := 1) (m := m)
      (fun i v => RowErr f c alpha.val beta.val (yv i).val (crsM (valS S) i) (crsM (absS S) i) (crsM (oneS S) i)
        (fun j => (xv j).val) (v 0).val) (by decide) (fun i : Nat => do
        initCell beta (y + i)
        rowEntries I ia ja b i fun k j => addTerm alpha (if t.conj then star else id) (y + i) (A + k) (x + j)) (by
        intro l hl m' hm'
        have hm1 : ∀ a, (∀ i : Nat, i < l → a ≠ y + i) → m' a = m a := fun a ha => hm' a fun i j hp e => ha i hp.1 (by
          have hj : j = 0 := by have := hp.2; omega
          subst hj
          rw [e]
          simp [matAd, idx])
        have e : m' (y + l) = m (y + l) := hm1 _ (fun i hi e => by omega)
        have hsub : ∀ a, a ∉ cells y 1 r → m' a = m a := fun a ha => hm1 a (by
          rintro i hi rfl
          exact ha ⟨i, by omega, by rw [elem_one]⟩)
        have hin : ∀ a, a ∉ cells y 1 r → a ∉ cells (y + l) 1 1 := by
          rintro a ha ⟨j, hj, e⟩
          have : j = 0 := by omega
          subst this
          refine ha ⟨l, hl, ?_⟩
          rw [← e, elem_one, elem_one]
          push_cast; ring
        obtain ⟨m1, g1, g2, g3⟩ := initCell_runF he (beta := beta) (a := y + l) (m := m') (w := yv l)
          (by rw [e, ← elem_one y r l]; exact hy l hl) (fun hb' => by rw [e, ← elem_one y r l]; exact hb hb' l hl)
        have hrun : AddsF m' (y + l) 1 (rowEntries I ia ja b l fun k j =>
            addTerm alpha (if t.conj then star else id) (y + l) (A + k) (x + j)) fun p => ∑ k ∈ Ico (S.ptr l) (S.ptr (l + 1)),
              if p = 0 then term alpha (S.v k) (xv (S.col k)) else 0 := by
          refine rowEntries_addsF hS hl fun k hk1 hk2 => ?_
          have hk := hrow l k hl hk2
          have hck := hS.colLt k hk
          have ex := hx _ hck
          rw [elem_one] at ex
          have := addsF_term (m := m') (y := y + l) (n := 1) (alpha := alpha) (g := if t.conj then star else id) (conj_fl t) (p := 0)
            (a := A + k) (x := x + S.col k) (v := S.v k) (u := xv (S.col k)) (by omega)
            ((hsub _ (not_cell hdA hk)).trans (hS.vals k hk)) (hin _ (not_cell hdA hk))
            ((hsub _ (not_cell hdx hck)).trans ex) (hin _ (not_cell hdx hck))
          simpa using this
        have hv : VecG m1 (y + l) 1 fun _ => accInit beta (yv l) := by
          refine ⟨fun _ => yv l * beta, ?_, fun _ _ => good_accInit _ _⟩
          intro i hi
          have : i = 0 := by omega
          subst this
          rw [elem_one]
          simpa using g2
        obtain ⟨m2, k1, k2, w, k3, k4⟩ := hrun m1 _ (fun a ha => g3 a fun e => ha ⟨0, by omega, by rw [elem_one, e]; push_cast; ring⟩) hv
        refine ⟨w, ⟨m2, (bind_ok g1).trans k1, by rw [mul_one]; exact k3, fun a ha => ?_⟩, ?_⟩
        · rw [mul_one] at ha
          have hne : a ≠ y + l := by
            have := ha 0 (by omega)
            rwa [elem_one, Nat.cast_zero, add_zero] at this
          exact (k2 a fun ⟨j, hj, e⟩ => ha j hj e.symm).trans (g3 a hne)
        · have := k4 0 (by omega)
          simp only [if_true] at this
          rw [row_acc (n := c) fun k _ hk2 => hS.colLt k (hrow l k hl hk2)] at this
          simp only [cellAcc_eq] at this
          exact good_row this)
    refine ⟨fun i => V i 0, ⟨m', h1, fun i hi => ?_, fun a ha => h3 a ?_⟩, h4⟩
    · have := h2 i 0 ⟨hi, by omega⟩
      rw [elem_one]
      simpa [matAd, idx] using this
    · rintro i j ⟨hi, hj⟩ e
      have hj : j = 0 := by omega
      subst hj
      have := ha i hi
      rw [elem_one] at this
      exact this (by rw [e]; simp [matAd, idx])
  · simp only [trM_true ht]
    simp only [opRows, opCols, ht, if_true] at hx hy hb hdA hdx ⊢
    have hadd : AddsF m y c (loop r fun i => rowEntries I ia ja b i fun k j =>
        addTerm alpha (if t.conj then star else id) (y + j) (A + k) (x + i)) fun p => ∑ i ∈ range r,
          ∑ k ∈ Ico (S.ptr i) (S.ptr (i + 1)), if p = S.col k then term alpha (S.v k) (xv i) else 0 := by
      refine addsF_loop fun i hi => rowEntries_addsF hS hi fun k hk1 hk2 => ?_
      have hk := hrow i k hi hk2
      have ex := hx i hi
      rw [elem_one] at ex
      exact addsF_term (alpha := alpha) (g := if t.conj then star else id) (conj_fl t) (hS.colLt k hk) (hS.vals k hk) (not_cell hdA hk) ex
        (not_cell hdx hi)
    obtain ⟨w, h1, h2⟩ := scaled_runF he ⟨hy, hb⟩ hadd
    refine ⟨w, h1, fun p hp => ?_⟩
    have := h2 p hp
    have e : ∑ i ∈ range r, ∑ k ∈ Ico (S.ptr i) (S.ptr (i + 1)), (if p = S.col k then term alpha (S.v k) (xv i) else 0) =
        ∑ i ∈ range r, cellAcc alpha S (xv i) i p := by
      refine sum_congr rfl fun i _ => sum_congr rfl fun k _ => ?_
      by_cases e : S.col k = p
      · rw [if_pos e, if_pos e.symm]
      · rw [if_neg e, if_neg (Ne.symm e)]
    rw [e] at this
    simp only [cellAcc_eq] at this
    exact good_row this

end

/-! ### Symmetric matrices -/

section
variable {I : Mem Int} {m : Mem (Fl f)} {A ia ja b x y : Int} {n : Nat} {S : Crs (Fl f)} {alpha beta : Fl f} {xv yv : Nat → Fl f} {u : UpLo}

/-- What entry `k` of row `i` adds to element `p`. -/
def symAcc (alpha : Fl f) (S : Crs (Fl f)) (xv : Nat → Fl f) (i k p : Nat) : Acc :=
  if S.col k = i then if p = i then term alpha (S.v k) (xv i) else 0
  else (if p = i then term alpha (S.v k) (xv (S.col k)) else 0) + if p = S.col k then term alpha (S.v k) (xv i) else 0

theorem symPair_addsF (hS : CrsAt I m A ia ja b n n S) (hx : VecAt m x 1 n xv) (hdA : VecDisj A 1 (S.ptr n) y 1 n)
    (hdx : VecDisj x 1 n y 1 n) {i k : Nat} (hi : i < n) (hk : k < S.ptr n) (hne : S.col k ≠ i) :
    AddsF m y n (symPair alpha id id A x y i k (S.col k)) (symAcc alpha S xv i k) := by
  have hc := hS.colLt k hk
  have e1 := hx i hi
  have e2 := hx _ hc
  rw [elem_one] at e1 e2
  refine ((addsF_term (fun _ => rfl) hi (hS.vals k hk) (not_cell hdA hk) e2 (not_cell hdx hc)).bind
    (addsF_term (fun _ => rfl) hc (hS.vals k hk) (not_cell hdA hk) e1 (not_cell hdx hi))).congr fun p _ => ?_
  rw [symAcc, if_neg hne]

theorem symDiag_addsF (hS : CrsAt I m A ia ja b n n S) (hx : VecAt m x 1 n xv) (hdA : VecDisj A 1 (S.ptr n) y 1 n)
    (hdx : VecDisj x 1 n y 1 n) {i k : Nat} (hi : i < n) (hk : k < S.ptr n) :
    AddsF m y n (symDiag alpha id id id A x y i k (S.col k)) (symAcc alpha S xv i k) := by
  unfold symDiag
  by_cases e : S.col k = i
  · rw [if_pos (by exact_mod_cast e)]
    have e1 := hx i hi
    rw [elem_one] at e1
    rw [e]
    refine (addsF_term (fun _ => rfl) hi (hS.vals k hk) (not_cell hdA hk) e1 (not_cell hdx hi)).congr fun p _ => ?_
    rw [symAcc, if_pos e]
  · rw [if_neg (by exact_mod_cast e)]
    exact symPair_addsF hS hx hdA hdx hi hk e

/-- One row: an entry on the diagonal has to be the first or the last one. -/
theorem symRow_addsF {first : Bool} (hS : CrsAt I m A ia ja b n n S) (hx : VecAt m x 1 n xv) (hdA : VecDisj A 1 (S.ptr n) y 1 n)
    (hdx : VecDisj x 1 n y 1 n) {i : Nat} (hi : i < n)
    (hd : ∀ k, S.ptr i ≤ k → k < S.ptr (i + 1) → S.col k = i → if first then k = S.ptr i else k + 1 = S.ptr (i + 1)) :
    AddsF m y n (symRow first alpha id id id I A ia ja b x y i) fun p =>
      ∑ k ∈ Ico (S.ptr i) (S.ptr (i + 1)), symAcc alpha S xv i k p := by
  unfold symRow
  refine addsF_idx (hS.row hi) (addsF_idx (hS.row' hi) ?_)
  have hm := hS.mono i hi
  have e : (b + (S.ptr (i + 1) : Int) - (b + S.ptr i)).toNat = S.ptr (i + 1) - S.ptr i := by omega
  have at0 : ∀ k, k < S.ptr n → I (ja + k) = .val (b + S.col k) := hS.cols
  have lt : ∀ k, k < S.ptr (i + 1) → k < S.ptr n := fun k hk => hS.lt hi hk
  have e2 : ∀ k : Nat, b + (S.col k : Int) - b = (S.col k : Int) := fun k => by ring
  simp only [sum_Ico_eq_sum_range]
  rw [e]
  cases hl : S.ptr (i + 1) - S.ptr i with
  | zero =>
    cases first <;> exact addsF_pure.congr fun p _ => by simp
  | succ l =>
    cases first
    · simp only [Bool.false_eq_true, if_false] at hd
      refine (AddsF.bind (addsF_loop (d := fun k => symAcc alpha S xv i (S.ptr i + k)) fun k hk => ?_)
        (addsF_idx (v := b + S.col (S.ptr i + l)) (d := symAcc alpha S xv i (S.ptr i + l)) ?_ ?_)).congr
        fun p _ => (sum_range_succ _ _).symm
      · have e1 : b + (S.ptr i : Int) + k - b = ((S.ptr i + k : Nat) : Int) := by push_cast; ring
        rw [e1]
        refine addsF_idx (at0 _ (lt _ (by omega))) ?_
        rw [e2]
        refine symPair_addsF hS hx hdA hdx hi (lt _ (by omega)) fun q => ?_
        have := hd _ (by omega) (by omega) q
        omega
      · have e1 : b + (S.ptr i : Int) + l - b = ((S.ptr i + l : Nat) : Int) := by push_cast; ring
        rw [e1]
        exact at0 _ (lt _ (by omega))
      · have e1 : b + (S.ptr i : Int) + l - b = ((S.ptr i + l : Nat) : Int) := by push_cast; ring
        rw [e1, e2]
        exact symDiag_addsF hS hx hdA hdx hi (lt _ (by omega))
    · simp only [if_true] at hd
      refine (addsF_idx (v := b + S.col (S.ptr i)) ?_ (AddsF.bind (d := symAcc alpha S xv i (S.ptr i)) ?_
        (addsF_loop (d := fun k => symAcc alpha S xv i (S.ptr i + (k + 1))) fun k hk => ?_))).congr
        fun p _ => by rw [sum_range_succ', add_comm, add_zero]
      · rw [show b + (S.ptr i : Int) - b = (S.ptr i : Int) by ring]
        exact at0 _ (lt _ (by omega))
      · rw [show b + (S.ptr i : Int) - b = (S.ptr i : Int) by ring, e2]
        exact symDiag_addsF hS hx hdA hdx hi (lt _ (by omega))
      · have e1 : b + (S.ptr i : Int) + 1 + k - b = ((S.ptr i + (k + 1) : Nat) : Int) := by push_cast; ring
        rw [e1]
        refine addsF_idx (at0 _ (lt _ (by omega))) ?_
        rw [e2]
        refine symPair_addsF hS hx hdA hdx hi (lt _ (by omega)) fun q => ?_
        have := hd _ (by omega) (by omega) q
        omega

/-- The sum over all entries, as a sum over the columns of the symmetric matrix. -/
theorem sym_acc {p : Nat} (hp : p < n) (hc : ∀ i k, i < n → S.ptr i ≤ k → k < S.ptr (i + 1) → S.col k < n) :
    ∑ i ∈ range n, ∑ k ∈ Ico (S.ptr i) (S.ptr (i + 1)), symAcc alpha S xv i k p =
      ∑ j ∈ range n, if j = p then cellAcc alpha S (xv j) p p else cellAcc alpha S (xv j) p j + cellAcc alpha S (xv j) j p := by
  have e1 : ∀ i, i < n → ∑ k ∈ Ico (S.ptr i) (S.ptr (i + 1)), symAcc alpha S xv i k p =
      (if i = p then ∑ j ∈ range n, cellAcc alpha S (xv j) p j else 0) + if i = p then 0 else cellAcc alpha S (xv i) i p := by
    intro i hi
    by_cases e : i = p
    · subst e
      rw [if_pos rfl, if_pos rfl, add_zero, ← row_acc fun k h1 h2 => hc i k hi h1 h2]
      refine sum_congr rfl fun k _ => ?_
      unfold symAcc
      by_cases e : S.col k = i
      · simp [e]
      · rw [if_neg e, if_pos rfl, if_neg (Ne.symm e), add_zero]
    · rw [if_neg e, if_neg e, zero_add]
      refine sum_congr rfl fun k _ => ?_
      unfold symAcc
      by_cases e' : S.col k = i
      · rw [if_pos e', if_neg (Ne.symm e), if_neg (by omega)]
      · rw [if_neg e', if_neg (Ne.symm e), zero_add]
        by_cases e'' : S.col k = p
        · rw [if_pos e'', if_pos e''.symm]
        · rw [if_neg e'', if_neg (Ne.symm e'')]
  rw [sum_congr rfl fun i hi => e1 i (mem_range.1 hi), sum_add_distrib, sum_ite_eq' (range n) p, if_pos (mem_range.2 hp), ← sum_add_distrib]
  refine sum_congr rfl fun j _ => ?_
  by_cases e : j = p
  · subst e; simp
  · simp only [if_neg e]

theorem crsM_off' {K : Type} [AddCommMonoid K] {S : Crs K} {i j : Nat} (h : TriRow u S i) (hij : (u = .upper → j < i) ∧ (u = .lower → i < j)) :
    crsM S i j = 0 := by
  refine sum_eq_zero fun k hk => if_neg fun e => ?_
  rw [mem_Ico] at hk
  have := h.tri k hk.1 hk.2
  cases u
  · have h1 := this.1 rfl; have h2 := hij.1 rfl; omega
  · have h1 := this.2 rfl; have h2 := hij.2 rfl; omega

/-- The symmetric matrix of a triangle, in terms of its entries. -/
theorem symM_crs {K : Type} [AddCommMonoid K] {S : Crs K} (hT : ∀ i, i < n → TriRow u S i) {p j : Nat} (hp : p < n) (hj : j < n) :
    symM u (crsM S) p j = if j = p then crsM S p p else crsM S p j + crsM S j p := by
  cases u
  · have hz : ∀ i k, i < n → k < i → crsM S i k = 0 := fun i k hi h => crsM_off' (hT i hi) ⟨fun _ => h, fun e => by cases e⟩
    rcases Nat.lt_trichotomy p j with q | q | q
    · simp [symM, show p ≤ j by omega, show ¬j = p by omega, hz j p hj q]
    · subst q; simp [symM]
    · simp [symM, show ¬p ≤ j by omega, show ¬j = p by omega, hz p j hp q]
  · have hz : ∀ i k, i < n → i < k → crsM S i k = 0 := fun i k hi h => crsM_off' (hT i hi) ⟨fun e => (by cases e), fun _ => h⟩
    rcases Nat.lt_trichotomy p j with q | q | q
    · simp [symM, show ¬j ≤ p by omega, show ¬j = p by omega, hz p j hp q]
    · subst q; simp [symM]
    · simp [symM, show j ≤ p by omega, show ¬j = p by omega, hz j p hj q]

/-- **C166** `sycrsmv` in floating point: `y := beta y + alpha S x` for the symmetric matrix given by the entries of one triangle. -/
theorem C166_sycrsmv (he : f.emin ≤ 0) (hS : CrsAt I m A ia ja b n n S) (hT : ∀ i, i < n → TriRow u S i)
    (hx : VecAt m x 1 n xv) (hy : VecMem m y 1 n) (hb : beta ≠ 0 → VecAt m y 1 n yv) (hdA : VecDisj A 1 (S.ptr n) y 1 n)
    (hdx : VecDisj x 1 n y 1 n) :
    ∃ w, Yields (sycrsmv u n alpha I A ia ja x beta y) m y 1 n w ∧ ∀ i, i < n →
      RowErr f n alpha.val beta.val (yv i).val (symM u (crsM (valS S)) i) (symM u (crsM (absS S)) i) (symM u (crsM (oneS S)) i)
        (fun j => (xv j).val) (w i).val := by
  have hadd : AddsF m y n (loop n fun i => symRow u.isUpper alpha id id id I A ia ja b x y i) fun p => ∑ i ∈ range n,
      ∑ k ∈ Ico (S.ptr i) (S.ptr (i + 1)), symAcc alpha S xv i k p :=
    addsF_loop fun i hi => symRow_addsF hS hx hdA hdx hi fun k h1 h2 e => (hT i hi).diag h1 h2 e
  obtain ⟨w, ⟨m', h1, h2, h3⟩, h4⟩ := scaled_runF he ⟨hy, hb⟩ hadd
  refine ⟨w, ⟨m', (bind_ok (loadIdx_ok hS.base)).trans h1, h2, h3⟩, fun p hp => ?_⟩
  have := h4 p hp
  rw [sym_acc hp fun i k hi _ h2 => hS.colLt k (hS.lt hi h2)] at this
  refine good_row (n := n) ?_
  convert this using 2
  refine sum_congr rfl fun j hj => ?_
  rw [mem_range] at hj
  have t1 : ∀ i, i < n → TriRow u (valS S) i := fun i hi => ⟨(hT i hi).tri, (hT i hi).sorted⟩
  have t2 : ∀ i, i < n → TriRow u (absS S) i := fun i hi => ⟨(hT i hi).tri, (hT i hi).sorted⟩
  have t3 : ∀ i, i < n → TriRow u (oneS S) i := fun i hi => ⟨(hT i hi).tri, (hT i hi).sorted⟩
  rw [symM_crs t1 hp hj, symM_crs t2 hp hj, symM_crs t3 hp hj, cellAcc_eq, cellAcc_eq, cellAcc_eq]
  by_cases e : j = p
  · simp only [if_pos e]
  · simp only [if_neg e]
    refine Prod.ext rfl (Prod.ext ?_ (Prod.ext ?_ ?_))
    · simp only [Prod.snd_add, Prod.fst_add]; ring
    · simp only [Prod.snd_add, Prod.fst_add]; ring
    · simp only [Prod.snd_add]; push_cast; ring

/-- **C166** `syccsmv`, `hecrsmv` and `heccsmv` on real numbers are the same routine, for column storage with the other triangle. -/
theorem C166_same : (syccsmv u n alpha I A ia ja x beta y : M (Fl f) Unit) = sycrsmv u.flip n alpha I A ja ia x beta y ∧
    (hecrsmv id u n alpha I A ia ja x beta y : M (Fl f) Unit) = sycrsmv u n alpha I A ia ja x beta y ∧
    (heccsmv id u n alpha I A ia ja x beta y : M (Fl f) Unit) = sycrsmv u.flip n alpha I A ja ia x beta y :=
  ⟨rfl, rfl, rfl⟩

end

/-! ### Products with dense matrices -/

section
variable {I : Mem Int} {m : Mem (Fl f)} {A ia ja b : Int} {r c : Nat} {S : Crs (Fl f)} {t : Trans} {u : UpLo} {alpha beta : Fl f}

/-- A product column by column. -/
theorem sparseMm_ex {n k l : Nat} {B ldB C ldC : Int} {QB QC : Nat → Nat → Fl f} {g : Int → Int → M (Fl f) Unit}
    (P : (Nat → Fl f) → (Nat → Fl f) → (Nat → Fl f) → Prop)
    (hf : ∀ (m' : Mem (Fl f)) x y xv yv, CrsAt I m' A ia ja b r c S → VecAt m' x 1 l xv → VecMem m' y 1 k →
      (beta ≠ 0 → VecAt m' y 1 k yv) → VecDisj A 1 (S.ptr r) y 1 k → VecDisj x 1 l y 1 k →
      ∃ w, Yields (g x y) m' y 1 k w ∧ P xv yv w)
    (hS : CrsAt I m A ia ja b r c S) (hB : MatAt m B .colMajor ldB (full l n) QB) (hC : MatMem m C .colMajor ldC (full k n))
    (hb : beta ≠ 0 → MatAt m C .colMajor ldC (full k n) QC) (hld : (k : Int) ≤ ldC)
    (hdA : CrsMatDisj A S r C ldC k n)
    (hdB : StDisj (matAd B .colMajor ldB) (full l n) (matAd C .colMajor ldC) (full k n)) :
    ∃ W, YieldsMat (loop n fun i => g (B + i * ldB) (C + i * ldC)) m C .colMajor ldC (full k n) W ∧
      ∀ j, j < n → P (fun q => QB q j) (fun p => QC p j) (fun p => W p j) := by
  obtain ⟨V, h1, h2⟩ := lines_ex (m := m) (C := C) (r := n) (c := k) (ld := ldC)
    (fun j v => P (fun q => QB q j) (fun p => QC p j) v) hld (fun i => g (B + i * ldB) (C + i * ldC)) fun i hi m' ho => by
      have eC : ∀ p, C + (i : Int) * ldC + p = matAd C .colMajor ldC p i := fun p => by simp only [matAd, idx]; ring
      have eB : ∀ p, B + (i : Int) * ldB + p = matAd B .colMajor ldB p i := fun p => by simp only [matAd, idx]; ring
      have old : ∀ p, p < k → m' (matAd C .colMajor ldC p i) = m (matAd C .colMajor ldC p i) := by
        intro p hp
        refine ho _ fun i' j' h' e => ?_
        simp only [matAd, idx] at e
        have e' : matAd C .rowMajor ldC i p = matAd C .rowMajor ldC i' j' := by simp only [matAd, idx]; linarith
        have := (matAd_inj (by omega) (by have := h'.2; omega) e').1
        have := h'.1
        omega
      have off : ∀ a, (∀ p q, p < k → q < n → a ≠ matAd C .colMajor ldC p q) → m' a = m a := by
        intro a ha
        refine ho a fun i' j' h' e => ha j' i' h'.2 (by have := h'.1; omega) ?_
        rw [e]; simp only [matAd, idx]; ring
      exact hf m' (B + i * ldB) (C + i * ldC) (fun q => QB q i) (fun p => QC p i)
        (hS.agree fun e he => off _ fun p q hp hq => hdA e p q he hp hq)
        (fun q hq => by
          rw [elem_one, eB, off _ fun p q' hp hq' => hdB q i p q' ⟨hq, hi⟩ ⟨hp, hq'⟩]
          exact hB q i ⟨hq, hi⟩)
        (fun p hp => by rw [elem_one, eC, old p hp]; exact hC p i ⟨hp, hi⟩)
        (fun h0 p hp => by rw [elem_one, eC, old p hp]; exact hb h0 p i ⟨hp, hi⟩)
        (fun e p he hp => by rw [elem_one, elem_one, eC]; exact hdA e p i he hp hi)
        (fun q p hq hp => by rw [elem_one, elem_one, eC, eB]; exact hdB q i p i ⟨hq, hi⟩ ⟨hp, hi⟩)
  refine ⟨sw V, yieldsMat_col ?_, h2⟩
  rw [sw_full]
  exact h1

/-- **C166** `gecrsmm` in floating point: `C := beta C + alpha op(A) B` for dense `B` and `C` in column-major order. -/
theorem C166_gecrsmm (he : f.emin ≤ 0) {n : Nat} {B ldB C ldC : Int} {QB QC : Nat → Nat → Fl f} (hS : CrsAt I m A ia ja b r c S)
    (hB : MatAt m B .colMajor ldB (full (opCols t r c) n) QB) (hC : MatMem m C .colMajor ldC (full (opRows t r c) n))
    (hb : beta ≠ 0 → MatAt m C .colMajor ldC (full (opRows t r c) n) QC) (hld : (opRows t r c : Int) ≤ ldC)
    (hdA : CrsMatDisj A S r C ldC (opRows t r c) n)
    (hdB : StDisj (matAd B .colMajor ldB) (full (opCols t r c) n) (matAd C .colMajor ldC) (full (opRows t r c) n)) :
    ∃ W, YieldsMat (gecrsmm t r n c alpha I A ia ja B ldB beta C ldC) m C .colMajor ldC (full (opRows t r c) n) W ∧
      ∀ j, j < n → ∀ i, i < opRows t r c →
        RowErr f (opCols t r c) alpha.val beta.val (QC i j).val (trM t (crsM (valS S)) i) (trM t (crsM (absS S)) i)
          (trM t (crsM (oneS S)) i) (fun q => (QB q j).val) (W i j).val :=
  sparseMm_ex (g := fun x y => gecrsmv t r c alpha I A ia ja x beta y)
    (fun xv yv w => ∀ i, i < opRows t r c →
      RowErr f (opCols t r c) alpha.val beta.val (yv i).val (trM t (crsM (valS S)) i) (trM t (crsM (absS S)) i)
        (trM t (crsM (oneS S)) i) (fun q => (xv q).val) (w i).val)
    (fun _ _ _ _ _ h1 h2 h3 h4 h5 h6 => C166_gecrsmv he h1 h2 h3 h4 h5 h6) hS hB hC hb hld hdA hdB

/-- **C166** `sycrsmm` in floating point: `C := beta C + alpha S B`. -/
theorem C166_sycrsmm (he : f.emin ≤ 0) {n l : Nat} {B ldB C ldC : Int} {QB QC : Nat → Nat → Fl f} (hS : CrsAt I m A ia ja b n n S)
    (hT : ∀ i, i < n → TriRow u S i) (hB : MatAt m B .colMajor ldB (full n l) QB) (hC : MatMem m C .colMajor ldC (full n l))
    (hb : beta ≠ 0 → MatAt m C .colMajor ldC (full n l) QC) (hld : (n : Int) ≤ ldC) (hdA : CrsMatDisj A S n C ldC n l)
    (hdB : StDisj (matAd B .colMajor ldB) (full n l) (matAd C .colMajor ldC) (full n l)) :
    ∃ W, YieldsMat (sycrsmm u n l alpha I A ia ja B ldB beta C ldC) m C .colMajor ldC (full n l) W ∧
      ∀ j, j < l → ∀ i, i < n →
        RowErr f n alpha.val beta.val (QC i j).val (symM u (crsM (valS S)) i) (symM u (crsM (absS S)) i)
          (symM u (crsM (oneS S)) i) (fun q => (QB q j).val) (W i j).val :=
  sparseMm_ex (g := fun x y => sycrsmv u n alpha I A ia ja x beta y)
    (fun xv yv w => ∀ i, i < n →
      RowErr f n alpha.val beta.val (yv i).val (symM u (crsM (valS S)) i) (symM u (crsM (absS S)) i)
        (symM u (crsM (oneS S)) i) (fun q => (xv q).val) (w i).val)
    (fun _ _ _ _ _ h1 h2 h3 h4 h5 h6 => C166_sycrsmv he h1 hT h2 h3 h4 h5 h6) hS hB hC hb hld hdA hdB

end

/-! ### Examples -/

/-- One row with three entries, with index base 1. -/
def exRowIdx (col : List Int) : Mem Int := exList 0 [1, 4] (exList 10 col fun _ => .out)

/-- Three entries at 0, the vector of ones at 10, and one element at 20 that is not initialised. -/
def exRowFl (v : Nat → ℚ) : Mem (Fl binary64) := fun p =>
  if 0 ≤ p ∧ p < 3 then .val (.round _ (v p.toNat)) else if 10 ≤ p ∧ p < 13 then .val (.round _ 1) else if p = 20 then .raw else .out

/-- The entries of the row. -/
def exRow (col : Nat → Nat) (v : Nat → ℚ) : Crs (Fl binary64) := ⟨fun i => if i = 0 then 0 else 3, col, fun k => .round _ (v k)⟩

/-- The hypotheses of `C166_gecrsmv` hold for a row with the elements `1`, `2^-53` and `2^-53`, stored from the left or from the right. -/
theorem exRow_ok (v : Nat → ℚ) :
    (CrsAt (exRowIdx [1, 2, 3]) (exRowFl v) 0 0 10 1 1 3 (exRow (fun k => k) v) ∧
      CrsAt (exRowIdx [3, 2, 1]) (exRowFl v) 0 0 10 1 1 3 (exRow (fun k => 2 - k) v)) ∧
    VecAt (exRowFl v) 10 1 3 (fun _ => .round _ 1) ∧ VecMem (exRowFl v) 20 1 1 ∧ VecDisj 0 1 3 20 1 1 ∧ VecDisj 10 1 3 20 1 1 := by
  refine ⟨⟨⟨rfl, fun i h => ?_, fun i h => ?_, fun k (h : k < 3) => ?_, fun k (h : k < 3) => ?_, fun k (h : k < 3) => ?_⟩,
    ⟨rfl, fun i h => ?_, fun i h => ?_, fun k (h : k < 3) => ?_, fun k (h : k < 3) => ?_, fun k (h : k < 3) => ?_⟩⟩,
    fun i h => ?_, fun i h => ?_, fun i j h hk => ?_, fun i j h hk => ?_⟩
  · interval_cases i <;> simp [exRow]
  · interval_cases i <;> rfl
  · interval_cases k <;> rfl
  · interval_cases k <;> simp [exRow]
  · interval_cases k <;> rfl
  · interval_cases i <;> simp [exRow]
  · interval_cases i <;> rfl
  · interval_cases k <;> rfl
  · interval_cases k <;> simp [exRow]
  · interval_cases k <;> rfl
  · interval_cases i <;> rfl
  · interval_cases i <;> exact fun h => by cases h
  · interval_cases i <;> interval_cases j <;> decide
  · interval_cases i <;> interval_cases j <;> decide

/-- **C166** The terms are added in the order of storage: the row `1, 2^-53, 2^-53` times ones gives `1` stored from the left, and the exact sum
`1 + 2^-52` stored from the right. -/
theorem C166_order :
    (∀ i j, crsM (valS (exRow (fun k => k) fun k => if k = 0 then 1 else 1 / 2 ^ 53)) i j =
      crsM (valS (exRow (fun k => 2 - k) fun k => if k = 2 then 1 else 1 / 2 ^ 53)) i j) ∧
    peek (gecrsmv noTrans 1 3 (.round binary64 1) (exRowIdx [1, 2, 3]) 0 0 10 10 (.round _ 0) 20
      (exRowFl fun k => if k = 0 then 1 else 1 / 2 ^ 53)) (fun _ m => m 20) = .ok (.val (.round _ 1)) ∧
    peek (gecrsmv noTrans 1 3 (.round binary64 1) (exRowIdx [3, 2, 1]) 0 0 10 10 (.round _ 0) 20
      (exRowFl fun k => if k = 2 then 1 else 1 / 2 ^ 53)) (fun _ m => m 20) = .ok (.val (.round _ (1 + 1 / 2 ^ 52))) := by
  refine ⟨fun i j => ?_, by decide +kernel, by decide +kernel⟩
  rcases i with _ | i
  · have e : Ico 0 3 = {0, 1, 2} := by decide
    simp only [crsM, valS, exRow, if_true, Nat.zero_add, one_ne_zero, if_false, e]
    rcases j with _ | _ | _ | j <;> simp
  · simp [crsM, valS, exRow]

end Verif.Blas
