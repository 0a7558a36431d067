import Verif.Lemmas.Blas2

/-! Lemmas: the exact effect of the rank updates on the memory. -/

namespace Verif.Blas

open Finset

variable {K : Type}

/-- The positions of a matrix of `n` rows whose row `i` is stored from column `s i` on, `len i` elements. -/
def rowsP (n : Nat) (s len : Nat → Nat) (i j : Nat) : Prop := i < n ∧ s i ≤ j ∧ j < s i + len i

/-- The cells of the positions `P` of a matrix. -/
def matCells (A : Int) (o : Order) (ld : Int) (P : Nat → Nat → Prop) : Set Int := {a | ∃ i j, P i j ∧ A + idx o ld i j = a}

/-- Address of a position, row-major. -/
def rowAd (A ld : Int) (p : Nat × Nat) : Int := A + idx .rowMajor ld p.1 p.2

/-- Positions as a set of pairs. -/
def pos (P : Nat → Nat → Prop) : Set (Nat × Nat) := {p | P p.1 p.2}

@[simp] theorem mem_pos {P : Nat → Nat → Prop} {p : Nat × Nat} : p ∈ pos P ↔ P p.1 p.2 := Iff.rfl

theorem rowAd_inj {A ld : Int} {P : Nat → Nat → Prop} (h : ∀ i j, P i j → (j : Int) < ld) :
    Set.InjOn (rowAd A ld) (pos P) := by
  rintro ⟨i, j⟩ hp ⟨k, l⟩ hq e
  have h1 : (j : Int) < ld := h i j hp
  have h2 : (l : Int) < ld := h k l hq
  simp only [rowAd, idx] at e
  have e' : (i : Int) * ld + j = k * ld + l := by linarith
  have hik : (i : Int) = k := by
    by_contra hne
    rcases lt_or_gt_of_ne hne with hlt | hlt
    · have : (k : Int) - i ≥ 1 := by omega
      nlinarith
    · have : (i : Int) - k ≥ 1 := by omega
      nlinarith
  have hjl : (j : Int) = l := by rw [hik] at e'; linarith
  simp only [Prod.mk.injEq]
  exact ⟨by exact_mod_cast hik, by exact_mod_cast hjl⟩

/-- A loop that rewrites row `i` in pass `i`. -/
theorem rows_run {n : Nat} {s len : Nat → Nat} {A ld : Int} {m : Mem K} {Q V : Nat → Nat → K}
    (hld : ∀ i, i < n → ((s i + len i : Nat) : Int) ≤ ld) (hA : MatAt m A .rowMajor ld (rowsP n s len) Q)
    (f : Nat → M K Unit)
    (hf : ∀ i, i < n → ∀ m', AgreeOff (matCells A .rowMajor ld (rowsP n s len)) m m' →
      (∀ k, k < len i → m' (A + i * ld + s i + k * 1) = .val (Q i (s i + k))) →
      f i m' = .ok ((), over m' (fun k : Nat => A + i * ld + s i + k * 1) (fun k => V i (s i + k)) (below (len i)))) :
    loop n f m = .ok ((), over m (rowAd A ld) (fun p => V p.1 p.2) (pos (rowsP n s len))) := by
  have hinj : ∀ k, k ≤ n → Set.InjOn (rowAd A ld) (pos (rowsP k s len)) := by
    intro k hk
    refine rowAd_inj fun i j hp => ?_
    have := hld i (Nat.lt_of_lt_of_le hp.1 hk)
    have := hp.2.2
    omega
  have tr := loop_trace f (fun k => over m (rowAd A ld) (fun p => V p.1 p.2) (pos (rowsP k s len))) n fun i hi => by
    rw [hf i hi]
    · refine congrArg (fun z => Out.ok ((), z)) (over_over (hinj (i + 1) hi) ?_ (fun k => (i, s i + k)) ?_ ?_ ?_ ?_)
      · rintro ⟨a, b⟩ hp
        exact ⟨Nat.lt_succ_of_lt hp.1, hp.2⟩
      · intro k hk; simp only [rowAd, idx]; push_cast; ring
      · intro k hk; rfl
      · intro a _ b _ e
        have e' : (a : Int) = b := by simpa using e
        exact_mod_cast e'
      · rintro ⟨a, b⟩
        simp only [mem_pos, rowsP, mem_below, Prod.mk.injEq]
        constructor
        · rintro ⟨h1, h2, h3⟩
          rcases Nat.lt_or_ge a i with h | h
          · exact Or.inl ⟨h, h2, h3⟩
          · have : a = i := by omega
            subst this
            exact Or.inr ⟨b - s a, by omega, rfl, by omega⟩
        · rintro (⟨h1, h2, h3⟩ | ⟨k, hk, rfl, rfl⟩)
          · exact ⟨by omega, h2, h3⟩
          · exact ⟨by omega, by omega, by omega⟩
    · refine agreeOff_over (S := pos (rowsP i s len)) fun p hp => ?_
      exact ⟨p.1, p.2, ⟨Nat.lt_trans hp.1 hi, hp.2⟩, rfl⟩
    · intro k hk
      have e : A + (i : Int) * ld + s i + (k : Int) * 1 = rowAd A ld (i, s i + k) := by
        simp only [rowAd, idx]; push_cast; ring
      rw [e]
      refine (over_of_not_mem (S := pos (rowsP i s len)) fun p hp e' => ?_).trans (hA i (s i + k) ⟨hi, by omega, by omega⟩)
      have h1 : p ∈ pos (rowsP n s len) := ⟨Nat.lt_trans hp.1 hi, hp.2⟩
      have := hinj n (Nat.le_refl _) h1 (show (i, s i + k) ∈ pos (rowsP n s len) from ⟨hi, Nat.le_add_right _ _, Nat.add_lt_add_left hk _⟩) e'
      have h2 : p.1 < i := hp.1
      rw [this] at h2
      exact absurd h2 (Nat.lt_irrefl _)
  have hz : pos (rowsP 0 s len) = ∅ := by ext p; simp [rowsP]
  simpa [hz] using tr

theorem axpyGeneric_eq [Mul K] [Add K] [Star K] (n : Nat) (alpha : K) (x incX y incY : Int) :
    axpyGeneric n alpha x incX y incY = axpyC false n alpha x incX y incY := rfl

theorem acxpyGeneric_eq [Mul K] [Add K] [Star K] (n : Nat) (alpha : K) (x incX y incY : Int) :
    acxpyGeneric n alpha x incX y incY = axpyC true n alpha x incX y incY := rfl

/-- Adding a vector to a piece of a row. -/
theorem rowAxpy_run [Mul K] [Add K] [Star K] {c : Bool} {n : Nat} {alpha : K} {x incX a : Int} {m : Mem K}
    {xv yv : Nat → K} (hx : ∀ i, i < n → m (x + i * incX) = .val (xv i))
    (hy : ∀ i, i < n → m (a + i * 1) = .val (yv i))
    (hs : ∀ i j, i < n → j < n → x + i * incX ≠ a + j * 1) :
    axpyC c n alpha x incX a 1 m =
      .ok ((), over m (fun i : Nat => a + i * 1) (fun i => yv i + alpha * cj c (xv i)) (below n)) :=
  axpyC_run hx hy (by decide) fun i j hi hj => hs i j hi (by omega)

theorem unit_inj (a : Int) (n : Nat) : Set.InjOn (fun i : Nat => a + (i : Int) * 1) (below n) := by
  intro i _ j _ e
  have e' : (i : Int) = j := by simpa using e
  exact_mod_cast e'

/-- Adding two vectors to a piece of a row, the second factor read in between. -/
theorem rowAxpy2_run [Mul K] [Add K] [Star K] {c1 c2 : Bool} {n : Nat} {al : K} {g : K → K} {x incX y incY yi a : Int}
    {m : Mem K} {xv yv av : Nat → K} {w : K} (hx : ∀ i, i < n → m (x + i * incX) = .val (xv i))
    (hy : ∀ i, i < n → m (y + i * incY) = .val (yv i)) (ha : ∀ i, i < n → m (a + i * 1) = .val (av i))
    (hsx : ∀ i j, i < n → j < n → x + i * incX ≠ a + j * 1) (hsy : ∀ i j, i < n → j < n → y + i * incY ≠ a + j * 1)
    (hw : m yi = .val w) (hyi : ∀ j, j < n → yi ≠ a + j * 1) :
    (do
      axpyC c1 n al y incY a 1
      let w ← load yi
      axpyC c2 n (g w) x incX a 1 : M K Unit) m =
      .ok ((), over m (fun i : Nat => a + i * 1) (fun i => yv i |> cj c1 |> (al * ·) |> (av i + ·) |>
        (· + g w * cj c2 (xv i))) (below n)) := by
  rw [bind_ok (rowAxpy_run hy ha hsy)]
  have hw' : over m (fun i : Nat => a + (i : Int) * 1) (fun i => av i + al * cj c1 (yv i)) (below n) yi = .val w :=
    (over_of_not_mem (S := below n) fun j hj e => hyi j hj e.symm).trans hw
  rw [bind_ok (load_ok hw'), rowAxpy_run (xv := xv) (yv := fun i => av i + al * cj c1 (yv i)), over_same (unit_inj a n)]
  · intro i hi
    exact (over_of_not_mem (S := below n) fun j hj e => hsx i j hi hj e.symm).trans (hx i hi)
  · intro i hi
    exact over_of_mem (unit_inj a n) (show i ∈ below n from hi)
  · exact hsx

theorem VecAt.agreeM {m m' : Mem K} {x incX : Int} {n : Nat} {v : Nat → K} {A : Int} {o : Order} {ld : Int}
    {P : Nat → Nat → Prop} (h : VecAt m x incX n v) (ha : AgreeOff (matCells A o ld P) m m')
    (hd : MatVecDisj A o ld P x incX n) : VecAt m' x incX n v :=
  fun i hi => (ha _ fun ⟨k, l, hp, e⟩ => hd k l i hp hi e).trans (h i hi)

/-- The effect of an update of the rows of a matrix. -/
theorem rank1_run [Mul K] [Add K] [Star K] {c : Bool} {g : K → K} {n lx ly : Nat} {s len : Nat → Nat}
    {x incX y incY A ld : Int} {m : Mem K} {Q : Nat → Nat → K} {xv yv : Nat → K}
    (hld : ∀ i, i < n → ((s i + len i : Nat) : Int) ≤ ld) (hA : MatAt m A .rowMajor ld (rowsP n s len) Q)
    (hx : VecAt m x incX lx xv) (hy : VecAt m y incY ly yv) (hn : n ≤ lx) (hl : ∀ i, i < n → s i + len i ≤ ly)
    (hdx : MatVecDisj A .rowMajor ld (rowsP n s len) x incX lx)
    (hdy : MatVecDisj A .rowMajor ld (rowsP n s len) y incY ly) (f : Nat → M K Unit)
    (hf : ∀ i, i < n → f i = (do
      let v ← load (start lx x incX + i * incX)
      axpyC c (len i) (g v) (start ly y incY + s i * incY) incY (A + i * ld + s i) 1)) :
    loop n f m = .ok ((), over m (rowAd A ld) (fun p => Q p.1 p.2 + g (xv p.1) * cj c (yv p.2))
      (pos (rowsP n s len))) := by
  refine rows_run (V := fun i j => Q i j + g (xv i) * cj c (yv j)) hld hA f fun i hi m' hm hrow => ?_
  have hx' := hx.agreeM hm hdx
  have hy' := hy.agreeM hm hdy
  have hcy : ∀ k : Nat, start ly y incY + (s i : Int) * incY + (k : Int) * incY = elem y incY ly (s i + k) := by
    intro k; rw [← start_elem]; push_cast; ring
  have hx1 : m' (start lx x incX + i * incX) = .val (xv i) := by
    rw [start_elem]; exact hx' i (by omega)
  rw [hf i hi, bind_ok (load_ok hx1), rowAxpy_run (xv := fun k => yv (s i + k)) (yv := fun k => Q i (s i + k))]
  · intro k hk
    rw [hcy]; exact hy' _ (by have := hl i hi; omega)
  · exact hrow
  · intro k l hk hl' e
    rw [hcy] at e
    refine hdy i (s i + l) (s i + k) ⟨hi, by omega, by omega⟩ (by have := hl i hi; omega) ?_
    rw [e]; simp only [idx]; push_cast; ring

theorem rank2_run [Mul K] [Add K] [Star K] {c : Bool} {g h : K → K} {n : Nat} {s len : Nat → Nat}
    {x incX y incY A ld : Int} {m : Mem K} {Q : Nat → Nat → K} {xv yv : Nat → K}
    (hld : ∀ i, i < n → ((s i + len i : Nat) : Int) ≤ ld) (hA : MatAt m A .rowMajor ld (rowsP n s len) Q)
    (hx : VecAt m x incX n xv) (hy : VecAt m y incY n yv) (hl : ∀ i, i < n → s i + len i ≤ n)
    (hdx : MatVecDisj A .rowMajor ld (rowsP n s len) x incX n)
    (hdy : MatVecDisj A .rowMajor ld (rowsP n s len) y incY n) (hne : ∀ i, i < n → 0 < len i) (f : Nat → M K Unit)
    (hf : ∀ i, i < n → f i = (do
      let v ← load (start n x incX + i * incX)
      axpyC c (len i) (g v) (start n y incY + s i * incY) incY (A + i * ld + s i) 1
      let w ← load (start n y incY + i * incY)
      axpyC c (len i) (h w) (start n x incX + s i * incX) incX (A + i * ld + s i) 1)) :
    loop n f m = .ok ((), over m (rowAd A ld)
      (fun p => Q p.1 p.2 + g (xv p.1) * cj c (yv p.2) + h (yv p.1) * cj c (xv p.2)) (pos (rowsP n s len))) := by
  refine rows_run (V := fun i j => Q i j + g (xv i) * cj c (yv j) + h (yv i) * cj c (xv j)) hld hA f
    fun i hi m' hm hrow => ?_
  have hx' := hx.agreeM hm hdx
  have hy' := hy.agreeM hm hdy
  have hc : ∀ (z inc : Int) (k : Nat), start n z inc + (s i : Int) * inc + (k : Int) * inc = elem z inc n (s i + k) := by
    intro z inc k; rw [← start_elem]; push_cast; ring
  have hx1 : m' (start n x incX + i * incX) = .val (xv i) := by
    rw [start_elem]; exact hx' i (by omega)
  have hy1 : m' (start n y incY + i * incY) = .val (yv i) := by
    rw [start_elem]; exact hy' i (by omega)
  rw [hf i hi, bind_ok (load_ok hx1), rowAxpy2_run (g := h) (xv := fun k => xv (s i + k)) (yv := fun k => yv (s i + k))
    (av := fun k => Q i (s i + k)) (w := yv i)]
  · intro k hk
    rw [hc]; exact hx' _ (by have := hl i hi; omega)
  · intro k hk
    rw [hc]; exact hy' _ (by have := hl i hi; omega)
  · exact hrow
  · intro k l hk hl' e
    rw [hc] at e
    refine hdx i (s i + l) (s i + k) ⟨hi, by omega, by omega⟩ (by have := hl i hi; omega) ?_
    rw [e]; simp only [idx]; push_cast; ring
  · intro k l hk hl' e
    rw [hc] at e
    refine hdy i (s i + l) (s i + k) ⟨hi, by omega, by omega⟩ (by have := hl i hi; omega) ?_
    rw [e]; simp only [idx]; push_cast; ring
  · exact hy1
  · intro l hl' e
    rw [start_elem] at e
    refine hdy i (s i + l) i ⟨hi, by omega, by omega⟩ hi ?_
    rw [e]; simp only [idx]; push_cast; ring

/-- The triangles as rows. -/
def triS : UpLo → Nat → Nat
  | .upper, i => i
  | .lower, _ => 0

/-- Lengths of the rows of the triangles. -/
def triLen (u : UpLo) (n i : Nat) : Nat :=
  match u with
  | .upper => n - i
  | .lower => i + 1

theorem tri_rows (u : UpLo) (n : Nat) : tri u n = rowsP n (triS u) (triLen u n) := by
  funext i j
  cases u <;> simp only [tri, rowsP, triS, triLen, eq_iff_iff] <;> constructor <;> omega

theorem full_rows (r c : Nat) : full r c = rowsP r (fun _ => 0) (fun _ => c) := by
  funext i j
  simp only [full, rowsP, eq_iff_iff]
  omega

theorem tri_bounds (u : UpLo) {n i : Nat} (h : i < n) :
    triS u i + triLen u n i ≤ n ∧ 0 < triLen u n i ∧ triS u i ≤ i ∧ i < triS u i + triLen u n i := by
  cases u <;> simp only [triS, triLen] <;> omega

/-- Taking the real part of the diagonal. -/
theorem realDiag_run {re : K → K} {u : UpLo} {n : Nat} {A ld : Int} {m : Mem K} {V : Nat → Nat → K}
    (hld : (n : Int) ≤ ld) :
    realDiag re n A ld (over m (rowAd A ld) (fun p => V p.1 p.2) (pos (tri u n))) =
      .ok ((), over m (rowAd A ld) (fun p => if p.1 = p.2 then re (V p.1 p.2) else V p.1 p.2) (pos (tri u n))) := by
  have hinj : Set.InjOn (rowAd A ld) (pos (tri u n)) := by
    refine rowAd_inj fun i j hp => ?_
    have := hp.2.1
    omega
  have hd : ∀ i, i < n → (i, i) ∈ pos (tri u n) := by
    intro i hi; exact ⟨hi, hi, by cases u <;> simp⟩
  have he : ∀ i : Nat, A + (i : Int) * ld + i = rowAd A ld (i, i) := by
    intro i; simp only [rowAd, idx]; ring
  have hinj' : Set.InjOn (fun i : Nat => A + (i : Int) * ld + i) (below n) := by
    intro i hi j hj e
    simp only [he] at e
    have := hinj (hd i hi) (hd j hj) e
    simpa using this
  unfold realDiag
  rw [loop_over (v := fun i => re (V i i)) hinj']
  · refine congrArg (fun z => Out.ok ((), z)) (over_patch hinj (fun i => (i, i)) (fun i _ => he i) hd hinj' ?_ ?_)
    · intro k hk; simp
    · rintro ⟨i, j⟩ hp hne
      rw [if_neg]
      intro (e : i = j)
      subst e
      exact hne i hp.1 rfl
  · intro i hi
    have h2 : over (over m (rowAd A ld) (fun p => V p.1 p.2) (pos (tri u n))) (fun i : Nat => A + (i : Int) * ld + i)
        (fun i => re (V i i)) (below i) (A + (i : Int) * ld + i) = .val (V i i) := by
      rw [over_of_not_mem, he, over_of_mem hinj (hd i hi)]
      intro j hj e
      have hj' : j < i := hj
      have := hinj' (show j ∈ below n from Nat.lt_trans hj' hi) (show i ∈ below n from hi) e
      omega
    rw [bind_ok (load_ok h2), store_ok (by rw [h2]; simp)]

end Verif.Blas
