import Verif.Model.Blas3
import Verif.Spec.Blas3
import Verif.Props.Blas2Band

/-! Lemmas: loops that rewrite a matrix column by column or row by row. -/

namespace Verif.Blas

open Finset

variable {K : Type}

theorem OnlyMat.refl (m : Mem K) (A : Int) (o : Order) (ld : Int) (P : Nat → Nat → Prop) : OnlyMat m m A o ld P := fun _ _ => rfl

theorem OnlyMat.trans {m m' m'' : Mem K} {A : Int} {o : Order} {ld : Int} {P : Nat → Nat → Prop}
    (h1 : OnlyMat m m' A o ld P) (h2 : OnlyMat m' m'' A o ld P) : OnlyMat m m'' A o ld P :=
  fun a ha => (h2 a ha).trans (h1 a ha)

theorem OnlyMat.mono {m m' : Mem K} {A : Int} {o : Order} {ld : Int} {P P' : Nat → Nat → Prop}
    (h : OnlyMat m m' A o ld P) (hp : ∀ i j, P i j → P' i j) : OnlyMat m m' A o ld P' :=
  fun a ha => h a fun i j q => ha i j (hp i j q)

/-- What a loop leaves alone keeps its elements. -/
theorem StAt.only {m m' : Mem K} {ad : Nat → Nat → Int} {P P' : Nat → Nat → Prop} {Q : Nat → Nat → K} {C : Int} {o : Order}
    {ld : Int} (h : StAt m ad P Q) (ho : OnlyMat m m' C o ld P') (hd : StDisj ad P (matAd C o ld) P') : StAt m' ad P Q :=
  fun i j hp => (ho _ fun k l hq => hd i j k l hp hq).trans (h i j hp)

theorem StDisj.mono {ad ad' : Nat → Nat → Int} {P P' R : Nat → Nat → Prop} (h : StDisj ad P ad' P')
    (hp : ∀ i j, R i j → P' i j) : StDisj ad P ad' R := fun i j k l h1 h2 => h i j k l h1 (hp k l h2)

/-- Columns of a matrix in row-major order. -/
theorem elem_col {C ld : Int} (h : 0 ≤ ld) (r l i : Nat) : elem (C + l) ld r i = matAd C .rowMajor ld i l := by
  rw [elem_pos h]; simp only [matAd, idx]; ring

/-- Rows of a matrix in row-major order. -/
theorem elem_row (C ld : Int) (c l j : Nat) : elem (C + l * ld) 1 c j = matAd C .rowMajor ld l j := by
  rw [elem_one]; simp only [matAd, idx]; ring

theorem matAd_inj {C ld : Int} {i j k l : Nat} (hj : (j : Int) < ld) (hl : (l : Int) < ld)
    (e : matAd C .rowMajor ld i j = matAd C .rowMajor ld k l) : i = k ∧ j = l := by
  have := rowAd_inj (A := C) (ld := ld) (P := fun _ j => (j : Int) < ld) (fun _ _ h => h)
    (show (i, j) ∈ pos _ from hj) (show (k, l) ∈ pos _ from hl) e
  simpa using this

/-- A loop that rewrites column `l` in pass `l`. -/
theorem cols_run {r c : Nat} {C ld : Int} {m : Mem K} {V : Nat → Nat → K} (hld : (c : Int) ≤ ld) (f : Nat → M K Unit)
    (hf : ∀ l, l < c → ∀ m', OnlyMat m m' C .rowMajor ld (full r l) → Yields (f l) m' (C + l) ld r fun i => V i l) :
    YieldsMat (loop c f) m C .rowMajor ld (full r c) V := by
  have h0 : 0 ≤ ld := by omega
  have key : ∀ k, k ≤ c → YieldsMat (loop k f) m C .rowMajor ld (full r k) V := by
    intro k
    induction k with
    | zero => exact fun _ => ⟨m, rfl, fun i j h => absurd h.2 (Nat.not_lt_zero j), fun _ _ => rfl⟩
    | succ k ih =>
      intro hk
      obtain ⟨m', h1, h2, h3⟩ := ih (by omega)
      obtain ⟨m'', g1, g2, g3⟩ := hf k (by omega) m' h3
      refine ⟨m'', (loop_succ h1).trans g1, fun i j hp => ?_, fun a ha => ?_⟩
      · rcases Nat.lt_or_ge j k with hj | hj
        · refine (g3 _ fun i' _ e => ?_).trans (h2 i j ⟨hp.1, hj⟩)
          rw [elem_col h0] at e
          have := (matAd_inj (by omega) (by omega) e).2
          omega
        · have : j = k := by have := hp.2; omega
          subst this
          have := g2 i hp.1
          rwa [elem_col h0] at this
      · refine (g3 a fun i' hi' e => ?_).trans (h3 a fun i j hp => ha i j ⟨hp.1, Nat.lt_succ_of_lt hp.2⟩)
        rw [elem_col h0] at e
        exact ha i' k ⟨hi', Nat.lt_succ_self k⟩ e
  exact key c (Nat.le_refl _)

/-- A loop that rewrites row `l` in pass `l`. -/
theorem lines_run {r c : Nat} {C ld : Int} {m : Mem K} {V : Nat → Nat → K} (hld : (c : Int) ≤ ld) (f : Nat → M K Unit)
    (hf : ∀ l, l < r → ∀ m', OnlyMat m m' C .rowMajor ld (full l c) → Yields (f l) m' (C + l * ld) 1 c fun j => V l j) :
    YieldsMat (loop r f) m C .rowMajor ld (full r c) V := by
  have key : ∀ k, k ≤ r → YieldsMat (loop k f) m C .rowMajor ld (full k c) V := by
    intro k
    induction k with
    | zero => exact fun _ => ⟨m, rfl, fun i j h => absurd h.1 (Nat.not_lt_zero i), fun _ _ => rfl⟩
    | succ k ih =>
      intro hk
      obtain ⟨m', h1, h2, h3⟩ := ih (by omega)
      obtain ⟨m'', g1, g2, g3⟩ := hf k (by omega) m' h3
      refine ⟨m'', (loop_succ h1).trans g1, fun i j hp => ?_, fun a ha => ?_⟩
      · have hj := hp.2
        rcases Nat.lt_or_ge i k with hi | hi
        · refine (g3 _ fun j' hj' e => ?_).trans (h2 i j ⟨hi, hj⟩)
          rw [elem_row] at e
          have := (matAd_inj (by omega) (by omega) e).1
          omega
        · have : i = k := by have := hp.1; omega
          subst this
          have := g2 j hj
          rwa [elem_row] at this
      · refine (g3 a fun j' hj' e => ?_).trans (h3 a fun i j hp => ha i j ⟨Nat.lt_succ_of_lt hp.1, hp.2⟩)
        rw [elem_row] at e
        exact ha k j' ⟨Nat.lt_succ_self k, hj'⟩ e
  exact key r (Nat.le_refl _)

/-- The same when pass `l` leaves some result with `p`. -/
theorem cols_ex [Zero K] {r c : Nat} {C ld : Int} {m : Mem K} (p : Nat → (Nat → K) → Prop) (hld : (c : Int) ≤ ld)
    (f : Nat → M K Unit)
    (hf : ∀ l, l < c → ∀ m', OnlyMat m m' C .rowMajor ld (full r l) → ∃ v, Yields (f l) m' (C + l) ld r v ∧ p l v) :
    ∃ V, YieldsMat (loop c f) m C .rowMajor ld (full r c) V ∧ ∀ l, l < c → p l fun i => V i l := by
  induction c with
  | zero => exact ⟨fun _ _ => 0, cols_run hld f fun l hl => absurd hl (Nat.not_lt_zero l), fun l hl => absurd hl (Nat.not_lt_zero l)⟩
  | succ k ih =>
    obtain ⟨V, ⟨m', h1, h2, h3⟩, h4⟩ := ih (by omega) fun l hl => hf l (by omega)
    obtain ⟨v, ⟨m'', g1, g2, g3⟩, g4⟩ := hf k (by omega) m' h3
    have h0 : 0 ≤ ld := by omega
    refine ⟨fun i j => if j = k then v i else V i j, ⟨m'', (loop_succ h1).trans g1, fun i j hp => ?_, fun a ha => ?_⟩,
      fun l hl => ?_⟩
    · rcases Nat.lt_or_ge j k with hj | hj
      · beta_reduce
        rw [if_neg (by omega)]
        refine (g3 _ fun i' _ e => ?_).trans (h2 i j ⟨hp.1, hj⟩)
        rw [elem_col h0] at e
        have := (matAd_inj (by omega) (by omega) e).2
        omega
      · have : j = k := by have := hp.2; omega
        subst this
        have := g2 i hp.1
        beta_reduce
        rw [if_pos rfl]
        rwa [elem_col h0] at this
    · refine (g3 a fun i' hi' e => ?_).trans (h3 a fun i j hp => ha i j ⟨hp.1, Nat.lt_succ_of_lt hp.2⟩)
      rw [elem_col h0] at e
      exact ha i' k ⟨hi', Nat.lt_succ_self k⟩ e
    · rcases Nat.lt_or_ge l k with h | h
      · simpa only [if_neg (Nat.ne_of_lt h)] using h4 l h
      · have : l = k := by omega
        subst this
        simpa only [if_true] using g4

theorem lines_ex [Zero K] {r c : Nat} {C ld : Int} {m : Mem K} (p : Nat → (Nat → K) → Prop) (hld : (c : Int) ≤ ld)
    (f : Nat → M K Unit)
    (hf : ∀ l, l < r → ∀ m', OnlyMat m m' C .rowMajor ld (full l c) → ∃ v, Yields (f l) m' (C + l * ld) 1 c v ∧ p l v) :
    ∃ V, YieldsMat (loop r f) m C .rowMajor ld (full r c) V ∧ ∀ l, l < r → p l (V l) := by
  induction r with
  | zero => exact ⟨fun _ _ => 0, lines_run hld f fun l hl => absurd hl (Nat.not_lt_zero l), fun l hl => absurd hl (Nat.not_lt_zero l)⟩
  | succ k ih =>
    obtain ⟨V, ⟨m', h1, h2, h3⟩, h4⟩ := ih fun l hl => hf l (by omega)
    obtain ⟨v, ⟨m'', g1, g2, g3⟩, g4⟩ := hf k (by omega) m' h3
    refine ⟨fun i => if i = k then v else V i, ⟨m'', (loop_succ h1).trans g1, fun i j hp => ?_, fun a ha => ?_⟩, fun l hl => ?_⟩
    · have hj := hp.2
      rcases Nat.lt_or_ge i k with hi | hi
      · beta_reduce
        rw [if_neg (by omega)]
        refine (g3 _ fun j' hj' e => ?_).trans (h2 i j ⟨hi, hj⟩)
        rw [elem_row] at e
        have := (matAd_inj (by omega) (by omega) e).1
        omega
      · have : i = k := by have := hp.1; omega
        subst this
        have := g2 j hj
        beta_reduce
        rw [if_pos rfl]
        rwa [elem_row] at this
    · refine (g3 a fun j' hj' e => ?_).trans (h3 a fun i j hp => ha i j ⟨Nat.lt_succ_of_lt hp.1, hp.2⟩)
      rw [elem_row] at e
      exact ha k j' ⟨Nat.lt_succ_self k, hj'⟩ e
    · rcases Nat.lt_or_ge l k with h | h
      · simpa only [if_neg (Nat.ne_of_lt h)] using h4 l h
      · have : l = k := by omega
        subst this
        simpa only [if_true] using g4

/-- The part of row `l` in the triangle. -/
theorem elem_tri (C ld : Int) (u : UpLo) (n l j : Nat) :
    elem (C + l * ld + triS u l) 1 (triLen u n l) j = matAd C .rowMajor ld l (triS u l + j) := by
  rw [elem_one]; simp only [matAd, idx]; push_cast; ring

/-- The rows of a triangle before row `l`. -/
def triTo (u : UpLo) (n l : Nat) (i j : Nat) : Prop := tri u n i j ∧ i < l

/-- A loop that rewrites the part of row `l` in the triangle in pass `l`. -/
theorem tri_run {u : UpLo} {n : Nat} {C ld : Int} {m : Mem K} {V : Nat → Nat → K} (hld : (n : Int) ≤ ld) (f : Nat → M K Unit)
    (hf : ∀ l, l < n → ∀ m', OnlyMat m m' C .rowMajor ld (triTo u n l) →
      Yields (f l) m' (C + l * ld + triS u l) 1 (triLen u n l) fun j => V l (triS u l + j)) :
    YieldsMat (loop n f) m C .rowMajor ld (tri u n) V := by
  have key : ∀ k, k ≤ n → YieldsMat (loop k f) m C .rowMajor ld (triTo u n k) V := by
    intro k
    induction k with
    | zero => exact fun _ => ⟨m, rfl, fun i j h => absurd h.2 (Nat.not_lt_zero i), fun _ _ => rfl⟩
    | succ k ih =>
      intro hk
      obtain ⟨m', h1, h2, h3⟩ := ih (by omega)
      obtain ⟨m'', g1, g2, g3⟩ := hf k (by omega) m' h3
      have hb := tri_bounds u (show k < n by omega)
      refine ⟨m'', (loop_succ h1).trans g1, fun i j hp => ?_, fun a ha => ?_⟩
      · have hj := hp.1.2.1
        rcases Nat.lt_or_ge i k with hi | hi
        · refine (g3 _ fun j' hj' e => ?_).trans (h2 i j ⟨hp.1, hi⟩)
          rw [elem_tri] at e
          have := (matAd_inj (by omega) (by push_cast; omega) e).1
          omega
        · have : i = k := by have := hp.2; omega
          subst this
          have hq := hp.1
          rw [tri_rows] at hq
          have hq1 := hq.2.1
          have hq2 := hq.2.2
          have := g2 (j - triS u i) (by omega)
          beta_reduce at this
          rw [elem_tri, show triS u i + (j - triS u i) = j by omega] at this
          exact this
      · refine (g3 a fun j' hj' e => ?_).trans (h3 a fun i j hp => ha i j ⟨hp.1, Nat.lt_succ_of_lt hp.2⟩)
        rw [elem_tri] at e
        refine ha k _ ⟨?_, Nat.lt_succ_self k⟩ e
        rw [tri_rows]
        exact ⟨by omega, by omega, by omega⟩
  obtain ⟨m', h1, h2, h3⟩ := key n (Nat.le_refl _)
  exact ⟨m', h1, fun i j hp => h2 i j ⟨hp, hp.1⟩, h3.mono fun i j hp => hp.1⟩

/-! ### Rows and columns as vectors -/

section vecs
variable {m m' : Mem K} {A C ld ldC x inc : Int} {r c rC cC l n : Nat} {Q : Nat → Nat → K} {P : Nat → Nat → Prop}
  {ad : Nat → Nat → Int}

theorem vecAt_col (h : MatAt m A .rowMajor ld (full r c) Q) (h0 : 0 ≤ ld) (hl : l < c) : VecAt m (A + l) ld r fun i => Q i l :=
  fun i hi => by rw [elem_col h0]; exact h i l ⟨hi, hl⟩

theorem vecAt_row (h : MatAt m A .rowMajor ld (full r c) Q) (hl : l < r) : VecAt m (A + l * ld) 1 c fun j => Q l j :=
  fun j hj => by rw [elem_row]; exact h l j ⟨hl, hj⟩

theorem vecMem_col (h : MatMem m A .rowMajor ld (full r c)) (h0 : 0 ≤ ld) (hl : l < c) : VecMem m (A + l) ld r :=
  fun i hi => by rw [elem_col h0]; exact h i l ⟨hi, hl⟩

theorem vecMem_row (h : MatMem m A .rowMajor ld (full r c)) (hl : l < r) : VecMem m (A + l * ld) 1 c :=
  fun j hj => by rw [elem_row]; exact h l j ⟨hl, hj⟩

/-- Column `l` is untouched when only earlier columns have been rewritten. -/
theorem vecAt_col' (h : MatAt m C .rowMajor ld (full r c) Q) (hld : (c : Int) ≤ ld) (hl : l < c)
    (ho : OnlyMat m m' C .rowMajor ld (full r l)) : VecAt m' (C + l) ld r fun i => Q i l := by
  intro i hi
  rw [elem_col (by omega)]
  refine (ho _ fun k j hp e => ?_).trans (h i l ⟨hi, hl⟩)
  have h2 := hp.2
  have := (matAd_inj (by omega) (by omega) e).2
  omega

theorem vecAt_row' (h : MatAt m C .rowMajor ld (full r c) Q) (hld : (c : Int) ≤ ld) (hl : l < r)
    (ho : OnlyMat m m' C .rowMajor ld (full l c)) : VecAt m' (C + l * ld) 1 c fun j => Q l j := by
  intro j hj
  rw [elem_row]
  refine (ho _ fun k j' hp e => ?_).trans (h l j ⟨hl, hj⟩)
  have h1 := hp.1
  have h2 := hp.2
  have := (matAd_inj (by omega) (by omega) e).1
  omega

theorem vecMem_col' (h : MatMem m C .rowMajor ld (full r c)) (hld : (c : Int) ≤ ld) (hl : l < c)
    (ho : OnlyMat m m' C .rowMajor ld (full r l)) : VecMem m' (C + l) ld r := by
  intro i hi
  rw [elem_col (by omega)]
  refine fun e' => h i l ⟨hi, hl⟩ ((ho _ fun k j hp e => ?_).symm.trans e')
  have h2 := hp.2
  have := (matAd_inj (by omega) (by omega) e).2
  omega

theorem vecMem_row' (h : MatMem m C .rowMajor ld (full r c)) (hld : (c : Int) ≤ ld) (hl : l < r)
    (ho : OnlyMat m m' C .rowMajor ld (full l c)) : VecMem m' (C + l * ld) 1 c := by
  intro j hj
  rw [elem_row]
  refine fun e' => h l j ⟨hl, hj⟩ ((ho _ fun k j' hp e => ?_).symm.trans e')
  have h1 := hp.1
  have h2 := hp.2
  have := (matAd_inj (by omega) (by omega) e).1
  omega

theorem disj_col (h : StDisj ad P (matAd C .rowMajor ldC) (full rC cC)) (h0 : 0 ≤ ldC) (hl : l < cC) :
    StVecDisj ad P (C + l) ldC rC := fun i j k hp hk => by rw [elem_col h0]; exact h i j k l hp ⟨hk, hl⟩

theorem disj_row (h : StDisj ad P (matAd C .rowMajor ldC) (full rC cC)) (hl : l < rC) :
    StVecDisj ad P (C + l * ldC) 1 cC := fun i j k hp hk => by rw [elem_row]; exact h i j l k hp ⟨hl, hk⟩

theorem disj_colVec (h : StVecDisj (matAd A .rowMajor ld) (full r c) x inc n) (h0 : 0 ≤ ld) (hl : l < c) :
    VecDisj (A + l) ld r x inc n := fun i j hi hj => by rw [elem_col h0]; exact h i l j ⟨hi, hl⟩ hj

theorem disj_rowVec (h : StVecDisj (matAd A .rowMajor ld) (full r c) x inc n) (hl : l < r) :
    VecDisj (A + l * ld) 1 c x inc n := fun i j hi hj => by rw [elem_row]; exact h l i j ⟨hl, hi⟩ hj

theorem mem_triRow (u : UpLo) (hl : l < n) {j : Nat} (hj : j < triLen u n l) : tri u n l (triS u l + j) := by
  rw [tri_rows]; exact ⟨hl, by omega, by omega⟩

theorem vecAt_tri' {u : UpLo} (h : MatAt m C .rowMajor ld (tri u n) Q) (hld : (n : Int) ≤ ld) (hl : l < n)
    (ho : OnlyMat m m' C .rowMajor ld (triTo u n l)) :
    VecAt m' (C + l * ld + triS u l) 1 (triLen u n l) fun j => Q l (triS u l + j) := by
  intro j hj
  rw [elem_tri]
  refine (ho _ fun k j' hp e => ?_).trans (h l _ (mem_triRow u hl hj))
  have h1 := hp.2
  have h2 := hp.1.2.1
  have hb := tri_bounds u hl
  have := (matAd_inj (by push_cast; omega) (by omega) e).1
  omega

theorem vecMem_tri' {u : UpLo} (h : MatMem m C .rowMajor ld (tri u n)) (hld : (n : Int) ≤ ld) (hl : l < n)
    (ho : OnlyMat m m' C .rowMajor ld (triTo u n l)) : VecMem m' (C + l * ld + triS u l) 1 (triLen u n l) := by
  intro j hj
  rw [elem_tri]
  refine fun e' => h l _ (mem_triRow u hl hj) ((ho _ fun k j' hp e => ?_).symm.trans e')
  have h1 := hp.2
  have h2 := hp.1.2.1
  have hb := tri_bounds u hl
  have := (matAd_inj (by push_cast; omega) (by omega) e).1
  omega

end vecs

/-! ### Column-major order -/

theorem matAd_sw (A ld : Int) : sw (matAd A .colMajor ld) = matAd A .rowMajor ld := by
  funext i j; simp only [sw, matAd, idx_col]

theorem matMem_col {m : Mem K} {A ld : Int} {P : Nat → Nat → Prop} :
    MatMem m A .colMajor ld P ↔ MatMem m A .rowMajor ld (sw P) := by
  constructor
  · intro h i j hp; rw [← idx_col]; exact h j i hp
  · intro h i j hp; rw [idx_col]; exact h j i hp

theorem stDisj_sw1 {ad ad' : Nat → Nat → Int} {P P' : Nat → Nat → Prop} : StDisj (sw ad) (sw P) ad' P' ↔ StDisj ad P ad' P' :=
  ⟨fun h i j k l hp hq => h j i k l hp hq, fun h i j k l hp hq => h j i k l hp hq⟩

theorem stDisj_sw2 {ad ad' : Nat → Nat → Int} {P P' : Nat → Nat → Prop} : StDisj ad P (sw ad') (sw P') ↔ StDisj ad P ad' P' :=
  ⟨fun h i j k l hp hq => h i j l k hp hq, fun h i j k l hp hq => h i j l k hp hq⟩

theorem stDisj_col {A ldA C ldC : Int} {P P' : Nat → Nat → Prop} (h : StDisj (matAd A .colMajor ldA) P (matAd C .colMajor ldC) P') :
    StDisj (matAd A .rowMajor ldA) (sw P) (matAd C .rowMajor ldC) (sw P') := by
  rw [← matAd_sw, ← matAd_sw, stDisj_sw1, stDisj_sw2]; exact h

theorem sw_opM [Star K] (t : Trans) (Q : Nat → Nat → K) : opM t (sw Q) = sw (opM t Q) := by
  funext i j; rfl

/-! ### Scaling -/

/-- A vector of `r * c` elements is a matrix without gaps. -/
theorem vec_mat {cm : M K Unit} {m : Mem K} {A : Int} {r c : Nat} {V : Nat → Nat → K} {v : Nat → K}
    (h : Yields cm m A 1 (r * c) v) (hv : ∀ i j, i < r → j < c → v (i * c + j) = V i j) :
    YieldsMat cm m A .rowMajor c (full r c) V := by
  obtain ⟨m', h1, h2, h3⟩ := h
  have lt : ∀ i j, i < r → j < c → i * c + j < r * c := by
    intro i j hi hj
    have : (i + 1) * c ≤ r * c := Nat.mul_le_mul_right c hi
    rw [Nat.succ_mul] at this
    omega
  refine ⟨m', h1, fun i j hp => ?_, fun a ha => h3 a fun p hp e => ?_⟩
  · have := h2 (i * c + j) (lt i j hp.1 hp.2)
    rw [elem_one, hv i j hp.1 hp.2] at this
    simpa [idx] using this
  · rw [elem_one] at e
    have hc : 0 < c := by
      rcases Nat.eq_zero_or_pos c with h | h
      · subst h; simp at hp
      · exact h
    refine ha (p / c) (p % c) ⟨Nat.div_lt_of_lt_mul (by rwa [Nat.mul_comm] at hp), Nat.mod_lt _ hc⟩ ?_
    rw [e]
    simp only [idx]
    have := Nat.div_add_mod p c
    have e2 : (p : Int) = (p / c : Nat) * c + (p % c : Nat) := by
      rw [Nat.mul_comm] at this
      exact_mod_cast this.symm
    linarith

theorem gescalRow_run {sc : Nat → Int → Int → M K Unit} {r c : Nat} {A ld : Int} {m : Mem K} {V : Nat → Nat → K}
    (hld : (c : Int) ≤ ld)
    (h1 : ld = c → Yields (sc (r * c) A 1) m A 1 (r * c) fun p => V (p / c) (p % c))
    (h2 : ∀ i, i < r → ∀ m', OnlyMat m m' A .rowMajor ld (full i c) → Yields (sc c (A + i * ld) 1) m' (A + i * ld) 1 c (V i)) :
    YieldsMat (gescalRow sc r c A ld) m A .rowMajor ld (full r c) V := by
  unfold gescalRow
  by_cases h : ld = c
  · rw [if_pos h]
    have := vec_mat (V := V) (h1 h) fun i j _ hj => by
      have hc : 0 < c := by omega
      have e1 : (i * c + j) / c = i := by
        rw [Nat.mul_comm, Nat.mul_add_div hc, Nat.div_eq_of_lt hj, Nat.add_zero]
      have e2 : (i * c + j) % c = j := by
        rw [Nat.mul_comm, Nat.mul_add_mod, Nat.mod_eq_of_lt hj]
      rw [e1, e2]
    rwa [← h] at this
  · rw [if_neg h]
    exact lines_run hld _ h2

/-- All positions of a full matrix, as one vector. -/
theorem vecAt_full {m : Mem K} {A : Int} {r c : Nat} {Q : Nat → Nat → K} (h : MatAt m A .rowMajor c (full r c) Q) :
    VecAt m A 1 (r * c) fun p => Q (p / c) (p % c) := by
  intro p hp
  have hc : 0 < c := by
    rcases Nat.eq_zero_or_pos c with h | h
    · subst h; simp at hp
    · exact h
  have := h (p / c) (p % c) ⟨Nat.div_lt_of_lt_mul (by rwa [Nat.mul_comm] at hp), Nat.mod_lt _ hc⟩
  rw [elem_one]
  simp only [idx] at this
  have e := Nat.div_add_mod p c
  have e2 : (p : Int) = (p / c : Nat) * c + (p % c : Nat) := by
    rw [Nat.mul_comm] at e
    exact_mod_cast e.symm
  rw [e2]; exact this

theorem vecMem_full {m : Mem K} {A : Int} {r c : Nat} (h : MatMem m A .rowMajor c (full r c)) : VecMem m A 1 (r * c) := by
  intro p hp
  have hc : 0 < c := by
    rcases Nat.eq_zero_or_pos c with h | h
    · subst h; simp at hp
    · exact h
  have := h (p / c) (p % c) ⟨Nat.div_lt_of_lt_mul (by rwa [Nat.mul_comm] at hp), Nat.mod_lt _ hc⟩
  rw [elem_one]
  simp only [idx] at this
  have e := Nat.div_add_mod p c
  have e2 : (p : Int) = (p / c : Nat) * c + (p % c : Nat) := by
    rw [Nat.mul_comm] at e
    exact_mod_cast e.symm
  rw [e2]; exact this

theorem yields_scal [CommRing K] {n : Nat} {alpha : K} {y incY : Int} {m : Mem K} {yv : Nat → K} (hy : VecAt m y incY n yv)
    (hi : incY ≠ 0) : Yields (scal n alpha y incY) m y incY n fun i => alpha * yv i := by
  refine yields_of_over hi ?_
  rw [scal_run hy hi]
  simp only [mul_comm]

theorem yields_scalInit [CommRing K] [DecidableEq K] {n : Nat} {alpha : K} {y incY : Int} {m : Mem K} {yv : Nat → K}
    (hy : InitAt alpha m y incY n yv) (hi : incY ≠ 0) : Yields (scalInit n alpha y incY) m y incY n fun i => alpha * yv i := by
  refine yields_of_over hi ?_
  rw [scalInit_run hy hi]
  simp only [mul_comm]

theorem gescalInit_row [CommRing K] [DecidableEq K] {r c : Nat} {alpha : K} {A ld : Int} {m : Mem K} {Q : Nat → Nat → K}
    (hA : MatMem m A .rowMajor ld (full r c)) (hb : alpha ≠ 0 → MatAt m A .rowMajor ld (full r c) Q) (hld : (c : Int) ≤ ld) :
    YieldsMat (gescalInit .rowMajor r c alpha A ld) m A .rowMajor ld (full r c) fun i j => alpha * Q i j := by
  refine gescalRow_run (sc := fun n => scalInit n alpha) hld (fun h => ?_) fun i hi m' ho => ?_
  · subst h
    exact yields_scalInit ⟨vecMem_full hA, fun h => vecAt_full (hb h)⟩ (by decide)
  · exact yields_scalInit ⟨vecMem_row' hA hld hi ho, fun h => vecAt_row' (hb h) hld hi ho⟩ (by decide)

theorem gescal_row [CommRing K] {r c : Nat} {alpha : K} {A ld : Int} {m : Mem K} {Q : Nat → Nat → K}
    (hA : MatAt m A .rowMajor ld (full r c) Q) (hld : (c : Int) ≤ ld) :
    YieldsMat (gescal .rowMajor r c alpha A ld) m A .rowMajor ld (full r c) fun i j => alpha * Q i j := by
  refine gescalRow_run (sc := fun n => scal n alpha) hld (fun h => ?_) fun i hi m' ho => ?_
  · subst h
    exact yields_scal (vecAt_full hA) (by decide)
  · exact yields_scal (vecAt_row' hA hld hi ho) (by decide)

/-- One routine after another on the same matrix. -/
theorem YieldsMat.bind {c1 c2 : M K Unit} {m : Mem K} {A : Int} {o : Order} {ld : Int} {P : Nat → Nat → Prop}
    {V W : Nat → Nat → K} (h : YieldsMat c1 m A o ld P V)
    (h2 : ∀ m', MatAt m' A o ld P V → OnlyMat m m' A o ld P → YieldsMat c2 m' A o ld P W) :
    YieldsMat (do c1; c2) m A o ld P W := by
  obtain ⟨m', h1, hV, ho⟩ := h
  obtain ⟨m'', g1, g2, g3⟩ := h2 m' hV ho
  exact ⟨m'', (bind_ok h1).trans g1, g2, ho.trans g3⟩

/-- A loop of routines on the same matrix. -/
theorem YieldsMat.loop {f : Nat → M K Unit} {m : Mem K} {A : Int} {o : Order} {ld : Int} {P : Nat → Nat → Prop}
    (V : Nat → Nat → Nat → K) (h0 : MatAt m A o ld P (V 0)) (n : Nat)
    (h : ∀ l, l < n → ∀ m', MatAt m' A o ld P (V l) → OnlyMat m m' A o ld P → YieldsMat (f l) m' A o ld P (V (l + 1))) :
    YieldsMat (loop n f) m A o ld P (V n) := by
  induction n with
  | zero => exact ⟨m, rfl, h0, fun _ _ => rfl⟩
  | succ n ih =>
    obtain ⟨m', h1, hV, ho⟩ := ih fun l hl => h l (by omega)
    obtain ⟨m'', g1, g2, g3⟩ := h n (by omega) m' hV ho
    exact ⟨m'', (loop_succ h1).trans g1, g2, ho.trans g3⟩

end Verif.Blas
