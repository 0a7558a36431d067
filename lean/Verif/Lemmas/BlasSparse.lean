import Verif.Model.BlasSparse
import Verif.Spec.BlasSparse
import Verif.Lemmas.Blas1Mat

/-! Lemmas for the sparse routines of cxxblas. -/

namespace Verif.Blas

open Finset

variable {K : Type}

theorem loadIdx_ok {I : Mem Int} {a v : Int} {m : Mem K} (h : I a = .val v) : loadIdx I a m = .ok (v, m) := by
  unfold loadIdx; rw [h]

/-- In every memory that agrees with `m` outside of the vector `y`, `c` adds `d` to the vector and changes nothing else. -/
def Adds [Add K] (m : Mem K) (y inc : Int) (n : Nat) (c : M K Unit) (d : Nat → K) : Prop :=
  ∀ m' v, AgreeOff (cells y inc n) m m' → VecAt m' y inc n v →
    ∃ m'', c m' = .ok ((), m'') ∧ AgreeOff (cells y inc n) m' m'' ∧ VecAt m'' y inc n fun i => v i + d i

section
variable [AddCommMonoid K] {m : Mem K} {y inc : Int} {n : Nat}

theorem Adds.congr {c : M K Unit} {d d' : Nat → K} (h : Adds m y inc n c d) (e : ∀ i, i < n → d i = d' i) : Adds m y inc n c d' := by
  intro m' v h1 h2
  obtain ⟨m'', g1, g2, g3⟩ := h m' v h1 h2
  exact ⟨m'', g1, g2, fun i hi => (g3 i hi).trans (by simp only [e i hi])⟩

theorem adds_pure : Adds m y inc n (pure ()) fun _ => (0 : K) := fun m' v _ h2 =>
  ⟨m', rfl, agreeOff_refl _ _, fun i hi => (h2 i hi).trans (by simp only [add_zero])⟩

theorem Adds.bind {c c' : M K Unit} {d d' : Nat → K} (h : Adds m y inc n c d) (h' : Adds m y inc n c' d') :
    Adds m y inc n (do c; c') fun i => d i + d' i := by
  intro m1 v h1 h2
  obtain ⟨m2, g1, g2, g3⟩ := h m1 v h1 h2
  obtain ⟨m3, k1, k2, k3⟩ := h' m2 _ (h1.trans g2) g3
  exact ⟨m3, (bind_ok g1).trans k1, g2.trans k2, fun i hi => (k3 i hi).trans (by simp only [add_assoc])⟩

theorem adds_loop {l : Nat} {f : Nat → M K Unit} {d : Nat → Nat → K} (h : ∀ k, k < l → Adds m y inc n (f k) (d k)) :
    Adds m y inc n (loop l f) fun i => ∑ k ∈ range l, d k i := by
  induction l with
  | zero => exact adds_pure.congr fun i _ => by simp
  | succ l ih =>
    exact ((ih fun k hk => h k (by omega)).bind (h l (by omega))).congr fun i _ => by rw [sum_range_succ]

theorem adds_idx {I : Mem Int} {a v : Int} {f : Int → M K Unit} {d : Nat → K} (h : I a = .val v) (hf : Adds m y inc n (f v) d) :
    Adds m y inc n (do let j ← loadIdx I a; f j) d := by
  intro m' w h1 h2
  obtain ⟨m'', g1, g2, g3⟩ := hf m' w h1 h2
  exact ⟨m'', (bind_ok (loadIdx_ok h)).trans g1, g2, g3⟩

end

theorem not_cell {x y : Int} {n k : Nat} {i : Nat} (h : VecDisj x 1 k y 1 n) (hi : i < k) : x + i ∉ cells y 1 n := by
  rintro ⟨j, hj, e⟩
  refine h i j hi hj ?_
  rw [e, elem_one]

theorem adds_at [NonUnitalNonAssocSemiring K] {m : Mem K} {y inc : Int} (h0 : inc ≠ 0) {n : Nat} {alpha : K} {f : K → K} {p : Nat}
    {a x : Int} {v u : K} (hp : p < n) (ha : m a = .val v) (hna : a ∉ cells y inc n) (hx : m x = .val u) (hnx : x ∉ cells y inc n) :
    Adds m y inc n (addTerm alpha f (elem y inc n p) a x) fun i => if i = p then alpha * f v * u else 0 := by
  intro m' w h1 h2
  have hy : m' (elem y inc n p) = .val (w p) := h2 p hp
  refine ⟨set m' (elem y inc n p) (w p + alpha * f v * u), ?_, ?_, ?_⟩
  · exact (bind_ok (load_ok hy)).trans ((bind_ok (load_ok ((h1 a hna).trans ha))).trans
      ((bind_ok (load_ok ((h1 x hnx).trans hx))).trans (store_ok (by rw [hy]; simp))))
  · intro b hb
    exact set_ne _ _ fun e => hb ⟨p, hp, e.symm⟩
  · intro i hi
    by_cases e : i = p
    · subst e; simp [set]
    · rw [set_ne _ _ fun q => e (elem_inj h0 q)]
      exact (h2 i hi).trans (by simp only [if_neg e, add_zero])

theorem adds_term [NonUnitalNonAssocSemiring K] {m : Mem K} {y : Int} {n : Nat} {alpha : K} {f : K → K} {p : Nat} {a x : Int} {v u : K}
    (hp : p < n) (ha : m a = .val v) (hna : a ∉ cells y 1 n) (hx : m x = .val u) (hnx : x ∉ cells y 1 n) :
    Adds m y 1 n (addTerm alpha f (y + p) a x) fun i => if i = p then alpha * f v * u else 0 := by
  have := adds_at (alpha := alpha) (f := f) (by decide) hp ha hna hx hnx
  rwa [elem_one] at this

/-! ### Scaling -/

theorem initCell_run [MulZeroOneClass K] [DecidableEq K] {beta : K} {a : Int} {m : Mem K} {w : K} (h : m a ≠ .out)
    (hb : beta ≠ 0 → m a = .val w) : ∃ m', initCell beta a m = .ok ((), m') ∧ m' a = .val (w * beta) ∧ ∀ b, b ≠ a → m' b = m b := by
  unfold initCell
  by_cases h0 : beta = 0
  · subst h0
    exact ⟨set m a 0, by rw [if_pos rfl, store_ok h], by simp [set], fun b hb => set_ne _ _ hb⟩
  · rw [if_neg h0]
    by_cases h1 : beta = 1
    · subst h1
      exact ⟨m, by rw [if_pos rfl]; rfl, by rw [hb h0, mul_one], fun _ _ => rfl⟩
    · rw [if_neg h1]
      exact ⟨set m a (w * beta), (bind_ok (load_ok (hb h0))).trans (store_ok h), by simp [set], fun b hb => set_ne _ _ hb⟩

theorem initLoop_run [MulZeroOneClass K] [DecidableEq K] {beta : K} {y : Int} {n : Nat} {m : Mem K} {yv : Nat → K}
    (hy : InitAt beta m y 1 n yv) : Yields (loop n fun i => initCell beta (y + i)) m y 1 n fun i => yv i * beta := by
  obtain ⟨m', h1, h2, h3⟩ := passes_run (c := n) (f := fun i : Nat => initCell beta (y + i)) (m := m) (fun i : Nat => y + i)
    (fun i => yv i * beta) (fun l i => i = l) (by rintro l l' _ _ _ _ rfl rfl e; omega) (by
      intro l hl m' hm'
      have e : m' (y + l) = m (y + l) := hm' _ (by rintro l' _ hl' rfl e; omega)
      obtain ⟨m'', g1, g2, g3⟩ := initCell_run (beta := beta) (a := y + l) (m := m') (w := yv l)
        (by rw [e, ← elem_one y n l]; exact hy.1 l hl) (fun hb => by rw [e, ← elem_one y n l]; exact hy.2 hb l hl)
      exact ⟨m'', g1, by rintro _ rfl; exact g2, fun a ha => g3 a (ha l rfl)⟩)
  refine ⟨m', h1, fun i hi => ?_, fun a ha => h3 a ?_⟩
  · rw [elem_one]; exact h2 i i hi rfl
  · rintro l i hl rfl
    have := ha i hl
    rwa [elem_one] at this

theorem only_agree {m m' : Mem K} {y : Int} {n : Nat} : OnlyVec m m' y 1 n ↔ AgreeOff (cells y 1 n) m m' :=
  ⟨fun h a ha => h a fun i hi e => ha ⟨i, hi, e.symm⟩, fun h a ha => h a fun ⟨i, hi, e⟩ => ha i hi e.symm⟩

/-- Scaling, then additions. -/
theorem scaled_run [NonAssocSemiring K] [DecidableEq K] {beta : K} {y : Int} {n : Nat} {m : Mem K} {yv d : Nat → K} {c : M K Unit}
    (hy : InitAt beta m y 1 n yv) (hc : Adds m y 1 n c d) :
    Yields (do loop n fun i => initCell beta (y + i); c) m y 1 n fun i => yv i * beta + d i := by
  obtain ⟨m1, h1, h2, h3⟩ := initLoop_run hy
  obtain ⟨m2, g1, g2, g3⟩ := hc m1 _ (only_agree.1 h3) h2
  exact ⟨m2, (bind_ok h1).trans g1, g3, only_agree.2 ((only_agree.1 h3).trans g2)⟩

/-! ### Rows of sparse matrices -/

section
variable {I : Mem Int} {m : Mem K} {A ia ja b : Int} {r c : Nat} {S : Crs K}

theorem CrsAt.ptr_mono (h : CrsAt I m A ia ja b r c S) {i j : Nat} (hij : i ≤ j) (hj : j ≤ r) : S.ptr i ≤ S.ptr j := by
  induction j with
  | zero => have : i = 0 := by omega
            subst this; exact Nat.le_refl _
  | succ j ih =>
    rcases Nat.lt_or_ge i (j + 1) with h1 | h1
    · exact (ih (by omega) (by omega)).trans (h.mono j (by omega))
    · have : i = j + 1 := by omega
      subst this; exact Nat.le_refl _

theorem CrsAt.lt (h : CrsAt I m A ia ja b r c S) {i k : Nat} (hi : i < r) (hk : k < S.ptr (i + 1)) : k < S.ptr r :=
  Nat.lt_of_lt_of_le hk (h.ptr_mono (by omega) (Nat.le_refl _))

theorem CrsAt.base (h : CrsAt I m A ia ja b r c S) : I ia = .val b := by
  have := h.rows 0 (by omega)
  simpa [h.zero] using this

theorem CrsAt.row (h : CrsAt I m A ia ja b r c S) {i : Nat} (hi : i < r) : I (ia + i) = .val (b + S.ptr i) := h.rows i (by omega)

theorem CrsAt.row' (h : CrsAt I m A ia ja b r c S) {i : Nat} (hi : i < r) : I (ia + i + 1) = .val (b + S.ptr (i + 1)) := by
  have := h.rows (i + 1) (by omega)
  rwa [show ia + ((i + 1 : Nat) : Int) = ia + i + 1 by push_cast; ring] at this

variable [AddCommMonoid K] {y : Int} {n : Nat}

/-- The loop over the entries of row `i`. -/
theorem rowEntries_adds {m0 : Mem K} (h : CrsAt I m0 A ia ja b r c S) {i : Nat} (hi : i < r) {f : Int → Int → M K Unit}
    {d : Nat → Nat → K} (hf : ∀ k, S.ptr i ≤ k → k < S.ptr (i + 1) → Adds m y 1 n (f k (S.col k)) (d k)) :
    Adds m y 1 n (rowEntries I ia ja b i f) fun p => ∑ k ∈ Ico (S.ptr i) (S.ptr (i + 1)), d k p := by
  unfold rowEntries
  refine adds_idx (h.row hi) (adds_idx (h.row' hi) ?_)
  have hm := h.mono i hi
  have e : (b + (S.ptr (i + 1) : Int) - (b + S.ptr i)).toNat = S.ptr (i + 1) - S.ptr i := by omega
  rw [e]
  refine (adds_loop (d := fun k => d (S.ptr i + k)) fun k hk => ?_).congr fun p _ => (sum_Ico_eq_sum_range (fun k => d k p) _ _).symm
  have e1 : b + (S.ptr i : Int) + k - b = ((S.ptr i + k : Nat) : Int) := by push_cast; ring
  rw [e1]
  have e2 : b + (S.col (S.ptr i + k) : Int) - b = (S.col (S.ptr i + k) : Int) := by ring
  refine adds_idx (h.cols _ (h.lt hi (by omega))) ?_
  rw [e2]
  exact hf _ (by omega) (by omega)

end

/-! ### Rows of symmetric matrices -/

/-- What entry `k` of row `i` contributes to element `p` of the product. -/
def symTerm [Mul K] [AddCommMonoid K] (alpha : K) (f g h : K → K) (S : Crs K) (xv : Nat → K) (i k p : Nat) : K :=
  if S.col k = i then if p = i then alpha * h (S.v k) * xv i else 0
  else (if p = i then alpha * f (S.v k) * xv (S.col k) else 0) + if p = S.col k then alpha * g (S.v k) * xv i else 0

section
variable [NonUnitalNonAssocSemiring K] {I : Mem Int} {m : Mem K} {A ia ja b x y : Int} {n : Nat} {S : Crs K} {alpha : K}
  {f g h : K → K} {xv : Nat → K}

theorem symPair_adds (hS : CrsAt I m A ia ja b n n S) (hx : VecAt m x 1 n xv) (hdA : VecDisj A 1 (S.ptr n) y 1 n)
    (hdx : VecDisj x 1 n y 1 n) {i k : Nat} (hi : i < n) (hk : k < S.ptr n) (hne : S.col k ≠ i) :
    Adds m y 1 n (symPair alpha f g A x y i k (S.col k)) (symTerm alpha f g h S xv i k) := by
  have hc := hS.colLt k hk
  have e1 := hx i hi
  have e2 := hx _ hc
  rw [elem_one] at e1 e2
  refine ((adds_term hi (hS.vals k hk) (not_cell hdA hk) e2 (not_cell hdx hc)).bind
    (adds_term hc (hS.vals k hk) (not_cell hdA hk) e1 (not_cell hdx hi))).congr fun p _ => ?_
  rw [symTerm, if_neg hne]

theorem symDiag_adds (hS : CrsAt I m A ia ja b n n S) (hx : VecAt m x 1 n xv) (hdA : VecDisj A 1 (S.ptr n) y 1 n)
    (hdx : VecDisj x 1 n y 1 n) {i k : Nat} (hi : i < n) (hk : k < S.ptr n) :
    Adds m y 1 n (symDiag alpha f g h A x y i k (S.col k)) (symTerm alpha f g h S xv i k) := by
  unfold symDiag
  by_cases e : S.col k = i
  · rw [if_pos (by exact_mod_cast e)]
    have e1 := hx i hi
    rw [elem_one] at e1
    rw [e]
    refine (adds_term hi (hS.vals k hk) (not_cell hdA hk) e1 (not_cell hdx hi)).congr fun p _ => ?_
    rw [symTerm, if_pos e]
  · rw [if_neg (by exact_mod_cast e)]
    exact symPair_adds hS hx hdA hdx hi hk e

/-- One row: an entry on the diagonal has to be the first or the last one. -/
theorem symRow_adds {first : Bool} (hS : CrsAt I m A ia ja b n n S) (hx : VecAt m x 1 n xv) (hdA : VecDisj A 1 (S.ptr n) y 1 n)
    (hdx : VecDisj x 1 n y 1 n) {i : Nat} (hi : i < n)
    (hd : ∀ k, S.ptr i ≤ k → k < S.ptr (i + 1) → S.col k = i → if first then k = S.ptr i else k + 1 = S.ptr (i + 1)) :
    Adds m y 1 n (symRow first alpha f g h I A ia ja b x y i) fun p =>
      ∑ k ∈ Ico (S.ptr i) (S.ptr (i + 1)), symTerm alpha f g h S xv i k p := by
  unfold symRow
  refine adds_idx (hS.row hi) (adds_idx (hS.row' hi) ?_)
  have hm := hS.mono i hi
  have e : (b + (S.ptr (i + 1) : Int) - (b + S.ptr i)).toNat = S.ptr (i + 1) - S.ptr i := by omega
  have at0 : ∀ k, k < S.ptr n → I (ja + k) = .val (b + S.col k) := hS.cols
  have lt : ∀ k, k < S.ptr (i + 1) → k < S.ptr n := fun k hk => hS.lt hi hk
  have e2 : ∀ k : Nat, b + (S.col k : Int) - b = (S.col k : Int) := fun k => by ring
  simp only [sum_Ico_eq_sum_range]
  rw [e]
  cases hl : S.ptr (i + 1) - S.ptr i with
  | zero =>
    cases first <;> exact adds_pure.congr fun p _ => by simp
  | succ l =>
    cases first
    · simp only [Bool.false_eq_true, if_false] at hd
      refine (Adds.bind (adds_loop (d := fun k => symTerm alpha f g h S xv i (S.ptr i + k)) fun k hk => ?_)
        (adds_idx (v := b + S.col (S.ptr i + l)) (d := symTerm alpha f g h S xv i (S.ptr i + l)) ?_ ?_)).congr
        fun p _ => (sum_range_succ _ _).symm
      · have e1 : b + (S.ptr i : Int) + k - b = ((S.ptr i + k : Nat) : Int) := by push_cast; ring
        rw [e1]
        refine adds_idx (at0 _ (lt _ (by omega))) ?_
        rw [e2]
        refine symPair_adds hS hx hdA hdx hi (lt _ (by omega)) fun q => ?_
        have := hd _ (by omega) (by omega) q
        omega
      · have e1 : b + (S.ptr i : Int) + l - b = ((S.ptr i + l : Nat) : Int) := by push_cast; ring
        rw [e1]
        exact at0 _ (lt _ (by omega))
      · have e1 : b + (S.ptr i : Int) + l - b = ((S.ptr i + l : Nat) : Int) := by push_cast; ring
        rw [e1, e2]
        exact symDiag_adds hS hx hdA hdx hi (lt _ (by omega))
    · simp only [if_true] at hd
      refine (adds_idx (v := b + S.col (S.ptr i)) ?_ (Adds.bind (d := symTerm alpha f g h S xv i (S.ptr i)) ?_
        (adds_loop (d := fun k => symTerm alpha f g h S xv i (S.ptr i + (k + 1))) fun k hk => ?_))).congr
        fun p _ => by rw [sum_range_succ', add_comm, add_zero]
      · rw [show b + (S.ptr i : Int) - b = (S.ptr i : Int) by ring]
        exact at0 _ (lt _ (by omega))
      · rw [show b + (S.ptr i : Int) - b = (S.ptr i : Int) by ring, e2]
        exact symDiag_adds hS hx hdA hdx hi (lt _ (by omega))
      · have e1 : b + (S.ptr i : Int) + 1 + k - b = ((S.ptr i + (k + 1) : Nat) : Int) := by push_cast; ring
        rw [e1]
        refine adds_idx (at0 _ (lt _ (by omega))) ?_
        rw [e2]
        refine symPair_adds hS hx hdA hdx hi (lt _ (by omega)) fun q => ?_
        have := hd _ (by omega) (by omega) q
        omega

end

end Verif.Blas
