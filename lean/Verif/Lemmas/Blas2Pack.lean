import Verif.Lemmas.Blas2RowsRun

/-! Lemmas: packed triangles in memory, and rank updates of them. -/

namespace Verif.Blas

open Finset

variable {K : Type}

/-- Number of elements stored before row `i`. -/
def packOff (u : UpLo) (n i : Nat) : Nat :=
  match u with
  | .upper => ∑ k ∈ range i, (n - k)
  | .lower => ∑ k ∈ range i, (k + 1)

theorem packOff_upper2 {n i : Nat} (h : i ≤ n) : (2 * packOff .upper n i : Int) = (i : Int) * (2 * n - i + 1) := by
  induction i with
  | zero => simp [packOff]
  | succ i ih =>
    have ih := ih (by omega)
    unfold packOff at ih ⊢
    rw [sum_range_succ]
    have e : ((n - i : Nat) : Int) = n - i := by omega
    push_cast at ih ⊢
    rw [e]
    linarith

theorem packOff_lower2 (n i : Nat) : (2 * packOff .lower n i : Int) = (i : Int) * (i + 1) := by
  induction i with
  | zero => simp [packOff]
  | succ i ih =>
    have e : packOff .lower n (i + 1) = packOff .lower n i + (i + 1) := sum_range_succ _ _
    rw [e]
    push_cast at ih ⊢
    linarith

theorem tpRows_row {u : UpLo} {n i : Nat} (h : i ≤ n) (A : Int) : (tpRows u n A).row i = A + packOff u n i := by
  cases u
  · simp only [tpRows]
    rw [← packOff_upper2 h, Int.mul_ediv_cancel_left _ (by decide)]
  · simp only [tpRows]
    rw [← packOff_lower2 n i, Int.mul_ediv_cancel_left _ (by decide)]

theorem packOff_succ (u : UpLo) (n i : Nat) : packOff u n (i + 1) = packOff u n i + (tpRows u n 0).len i := by
  cases u <;> simp only [packOff, tpRows, sum_range_succ]

theorem packOff_mono (u : UpLo) (n : Nat) {i k : Nat} (h : i ≤ k) : packOff u n i ≤ packOff u n k := by
  induction h with
  | refl => exact Nat.le_refl _
  | step _ ih => rw [packOff_succ]; omega

theorem packRow_eq {u : UpLo} {n i j : Nat} (_h : tri u n i j) :
    packRow u n i j = packOff u n i + (j - (tpRows u n 0).first i) := by
  cases u <;> rfl

theorem tri_len {u : UpLo} {n i j : Nat} : tri u n i j ↔
    i < n ∧ (tpRows u n 0).first i ≤ j ∧ j < (tpRows u n 0).first i + (tpRows u n 0).len i := by
  cases u <;> simp only [tri, tpRows] <;> omega

theorem packRow_inj {u : UpLo} {n : Nat} {i j k l : Nat} (h : tri u n i j) (h' : tri u n k l)
    (e : packRow u n i j = packRow u n k l) : i = k ∧ j = l := by
  have key : ∀ {i j k l : Nat}, tri u n i j → tri u n k l → packRow u n i j = packRow u n k l → ¬i < k := by
    intro i j k l h h' e hlt
    rw [packRow_eq h, packRow_eq h'] at e
    have h1 := packOff_mono u n (show i + 1 ≤ k from hlt)
    rw [packOff_succ] at h1
    rw [tri_len] at h h'
    omega
  have h1 := key h h' e
  have h2 := key h' h e.symm
  have h3 : i = k := by omega
  subst h3
  rw [packRow_eq h, packRow_eq h'] at e
  rw [tri_len] at h h'
  exact ⟨rfl, by omega⟩

/-- Addresses of positions of a triangle packed by rows. -/
def packP (A : Int) (u : UpLo) (n : Nat) (p : Nat × Nat) : Int := packAd A .rowMajor u n p.1 p.2

theorem packP_inj (A : Int) (u : UpLo) (n : Nat) : Set.InjOn (packP A u n) (pos (tri u n)) := by
  rintro ⟨i, j⟩ hp ⟨k, l⟩ hq e
  simp only [packP, packAd, packIdx] at e
  have := packRow_inj (u := u) (n := n) (i := i) (j := j) (k := k) (l := l) hp hq (by simpa using e)
  simp only [Prod.mk.injEq]
  exact this

theorem tpRows_ad {u : UpLo} {n : Nat} {A : Int} {i k : Nat} (hi : i < n) (hk : k < (tpRows u n A).len i) :
    (tpRows u n A).row i + (k : Nat) = packP A u n (i, (tpRows u n A).first i + k) := by
  rw [tpRows_row (by omega)]
  have ht : tri u n i ((tpRows u n A).first i + k) := by
    cases u <;> simp only [tri, tpRows] at hk ⊢ <;> omega
  simp only [packP, packAd, packIdx]
  rw [packRow_eq ht]
  have : (tpRows u n A).first i + k - (tpRows u n 0).first i = k := by cases u <;> simp [tpRows]
  rw [this]; push_cast; ring

/-- A triangle in packed rows. -/
theorem tri_packRows (u : UpLo) (n : Nat) (A : Int) : tri u n = rowsP n (tpRows u n A).first (tpRows u n A).len := by
  funext i j
  cases u <;> simp only [tri, rowsP, tpRows, eq_iff_iff] <;> omega

/-! ### Loops over rows at arbitrary addresses -/

section
variable {n : Nat} {R : Rows} {ad : Nat × Nat → Int} {m : Mem K} {Q V : Nat → Nat → K}

/-- A loop that rewrites row `i` in pass `i`. -/
theorem rowsG_run (hinj : Set.InjOn ad (pos (rowsP n R.first R.len)))
    (had : ∀ i k, i < n → k < R.len i → R.row i + (k : Nat) = ad (i, R.first i + k))
    (hA : ∀ i j, rowsP n R.first R.len i j → m (ad (i, j)) = .val (Q i j)) (f : Nat → M K Unit)
    (hf : ∀ i, i < n → ∀ m', AgreeOff (ad '' pos (rowsP n R.first R.len)) m m' →
      (∀ k : Nat, k < R.len i → m' (R.row i + k * 1) = .val (Q i (R.first i + k))) →
      f i m' = .ok ((), over m' (fun k : Nat => R.row i + k * 1) (fun k => V i (R.first i + k)) (below (R.len i)))) :
    loop n f m = .ok ((), over m ad (fun p => V p.1 p.2) (pos (rowsP n R.first R.len))) := by
  have hsub : ∀ k, k ≤ n → pos (rowsP k R.first R.len) ⊆ pos (rowsP n R.first R.len) := fun k hk p hp =>
    ⟨Nat.lt_of_lt_of_le hp.1 hk, hp.2⟩
  have tr := loop_trace f (fun k => over m ad (fun p => V p.1 p.2) (pos (rowsP k R.first R.len))) n fun i hi => by
    rw [hf i hi]
    · refine congrArg (fun z => Out.ok ((), z)) (over_over (hinj.mono (hsub (i + 1) hi)) ?_ (fun k => (i, R.first i + k)) ?_ ?_ ?_ ?_)
      · rintro ⟨a, b⟩ hp
        exact ⟨Nat.lt_succ_of_lt hp.1, hp.2⟩
      · intro k hk
        rw [mul_one]; exact had i k hi hk
      · intro k hk; rfl
      · intro a _ b _ e
        have e' : (a : Int) = b := by simpa using e
        exact_mod_cast e'
      · rintro ⟨a, b⟩
        simp only [mem_pos, rowsP, mem_below, Prod.mk.injEq]
        constructor
        · rintro ⟨h1, h2, h3⟩
          rcases Nat.lt_or_ge a i with h | h
          · exact Or.inl ⟨h, h2, h3⟩
          · have : a = i := by omega
            subst this
            exact Or.inr ⟨b - R.first a, by omega, rfl, by omega⟩
        · rintro (⟨h1, h2, h3⟩ | ⟨k, hk, rfl, rfl⟩)
          · exact ⟨by omega, h2, h3⟩
          · exact ⟨by omega, by omega, by omega⟩
    · exact agreeOff_over (S := pos (rowsP i R.first R.len)) fun p hp => ⟨p, hsub i (Nat.le_of_lt hi) hp, rfl⟩
    · intro k hk
      rw [mul_one, had i k hi hk]
      refine (over_of_not_mem (S := pos (rowsP i R.first R.len)) fun p hp e' => ?_).trans
        (hA i (R.first i + k) ⟨hi, by omega, by omega⟩)
      have h1 := hsub i (Nat.le_of_lt hi) hp
      have := hinj h1 (show (i, R.first i + k) ∈ pos (rowsP n R.first R.len) from
        ⟨hi, Nat.le_add_right _ _, Nat.add_lt_add_left hk _⟩) e'
      have h2 : p.1 < i := hp.1
      rw [this] at h2
      exact absurd h2 (Nat.lt_irrefl _)
  have hz : pos (rowsP 0 R.first R.len) = ∅ := by ext p; simp [rowsP]
  simpa [hz] using tr

variable [Mul K] [Add K] [Star K] {c : Bool} {g h : K → K} {x incX y incY : Int} {xv yv : Nat → K}

theorem rank1G_run (hinj : Set.InjOn ad (pos (rowsP n R.first R.len)))
    (had : ∀ i k, i < n → k < R.len i → R.row i + (k : Nat) = ad (i, R.first i + k))
    (hA : ∀ i j, rowsP n R.first R.len i j → m (ad (i, j)) = .val (Q i j))
    (hx : VecAt m x incX n xv) (hl : ∀ i, i < n → R.first i + R.len i ≤ n)
    (hdx : ∀ i j k, rowsP n R.first R.len i j → k < n → ad (i, j) ≠ elem x incX n k) (f : Nat → M K Unit)
    (hf : ∀ i, i < n → f i = (do
      let v ← load (start n x incX + i * incX)
      axpyC c (R.len i) (g v) (start n x incX + R.first i * incX) incX (R.row i) 1)) :
    loop n f m = .ok ((), over m ad (fun p => Q p.1 p.2 + g (xv p.1) * cj c (xv p.2)) (pos (rowsP n R.first R.len))) := by
  refine rowsG_run (V := fun i j => Q i j + g (xv i) * cj c (xv j)) hinj had hA f fun i hi m' hm hrow => ?_
  have hx' : VecAt m' x incX n xv := fun k hk =>
    (hm _ fun ⟨p, hp, e⟩ => hdx p.1 p.2 k hp hk e).trans (hx k hk)
  have hx1 : m' (start n x incX + i * incX) = .val (xv i) := by
    rw [start_elem]; exact hx' i hi
  rw [hf i hi, bind_ok (load_ok hx1), rowAxpy_run (xv := fun k => xv (R.first i + k)) (yv := fun k => Q i (R.first i + k))]
  · intro k hk
    rw [elem_shift]; exact hx' _ (by have := hl i hi; omega)
  · exact hrow
  · intro k l hk hl' e
    rw [elem_shift, mul_one, had i l hi hl'] at e
    exact hdx i (R.first i + l) (R.first i + k) ⟨hi, by omega, by omega⟩ (by have := hl i hi; omega) e.symm

theorem rank2G_run (hinj : Set.InjOn ad (pos (rowsP n R.first R.len)))
    (had : ∀ i k, i < n → k < R.len i → R.row i + (k : Nat) = ad (i, R.first i + k))
    (hA : ∀ i j, rowsP n R.first R.len i j → m (ad (i, j)) = .val (Q i j))
    (hx : VecAt m x incX n xv) (hy : VecAt m y incY n yv) (hl : ∀ i, i < n → R.first i + R.len i ≤ n)
    (hdx : ∀ i j k, rowsP n R.first R.len i j → k < n → ad (i, j) ≠ elem x incX n k)
    (hdy : ∀ i j k, rowsP n R.first R.len i j → k < n → ad (i, j) ≠ elem y incY n k) (f : Nat → M K Unit)
    (hf : ∀ i, i < n → f i = (do
      let v ← load (start n x incX + i * incX)
      axpyC c (R.len i) (g v) (start n y incY + R.first i * incY) incY (R.row i) 1
      let w ← load (start n y incY + i * incY)
      axpyC c (R.len i) (h w) (start n x incX + R.first i * incX) incX (R.row i) 1)) :
    loop n f m = .ok ((), over m ad
      (fun p => Q p.1 p.2 + g (xv p.1) * cj c (yv p.2) + h (yv p.1) * cj c (xv p.2)) (pos (rowsP n R.first R.len))) := by
  refine rowsG_run (V := fun i j => Q i j + g (xv i) * cj c (yv j) + h (yv i) * cj c (xv j)) hinj had hA f
    fun i hi m' hm hrow => ?_
  have hx' : VecAt m' x incX n xv := fun k hk =>
    (hm _ fun ⟨p, hp, e⟩ => hdx p.1 p.2 k hp hk e).trans (hx k hk)
  have hy' : VecAt m' y incY n yv := fun k hk =>
    (hm _ fun ⟨p, hp, e⟩ => hdy p.1 p.2 k hp hk e).trans (hy k hk)
  have hx1 : m' (start n x incX + i * incX) = .val (xv i) := by
    rw [start_elem]; exact hx' i hi
  have hy1 : m' (start n y incY + i * incY) = .val (yv i) := by
    rw [start_elem]; exact hy' i hi
  have hb := hl i hi
  rw [hf i hi, bind_ok (load_ok hx1), rowAxpy2_run (g := h) (xv := fun k => xv (R.first i + k))
    (yv := fun k => yv (R.first i + k)) (av := fun k => Q i (R.first i + k)) (w := yv i)]
  · intro k hk
    rw [elem_shift]; exact hx' _ (by omega)
  · intro k hk
    rw [elem_shift]; exact hy' _ (by omega)
  · exact hrow
  · intro k l hk hl' e
    rw [elem_shift, mul_one, had i l hi hl'] at e
    exact hdx i (R.first i + l) (R.first i + k) ⟨hi, by omega, by omega⟩ (by omega) e.symm
  · intro k l hk hl' e
    rw [elem_shift, mul_one, had i l hi hl'] at e
    exact hdy i (R.first i + l) (R.first i + k) ⟨hi, by omega, by omega⟩ (by omega) e.symm
  · exact hy1
  · intro l hl' e
    rw [start_elem, mul_one, had i l hi hl'] at e
    exact hdy i (R.first i + l) i ⟨hi, by omega, by omega⟩ hi e.symm

end

/-- Address of the diagonal. -/
theorem diagP_ad {u : UpLo} {n i : Nat} (h : i < n) (A : Int) :
    (if u = .upper then A + ((i : Int) + (i : Int) * (2 * n - i - 1) / 2) else A + ((i : Int) + (i : Int) * (i + 1) / 2)) =
      packP A u n (i, i) := by
  have ht : tri u n i i := ⟨h, h, by cases u <;> simp⟩
  simp only [packP, packAd, packIdx]
  rw [packRow_eq ht]
  cases u
  · have e : (i : Int) * (2 * n - i - 1) = 2 * (packOff .upper n i - i) := by
      have := packOff_upper2 (n := n) (i := i) (by omega)
      linarith
    simp only [if_true, e]
    rw [Int.mul_ediv_cancel_left _ (by decide)]
    simp [tpRows]
  · simp only [reduceCtorEq, if_false]
    rw [← packOff_lower2 n i, Int.mul_ediv_cancel_left _ (by decide)]
    simp [tpRows]; ring

/-- Taking the real part of the diagonal. -/
theorem realDiagP_run {re : K → K} {u : UpLo} {n : Nat} {A : Int} {m : Mem K} {V : Nat → Nat → K} :
    realDiagP re u n A (over m (packP A u n) (fun p => V p.1 p.2) (pos (tri u n))) =
      .ok ((), over m (packP A u n) (fun p => if p.1 = p.2 then re (V p.1 p.2) else V p.1 p.2) (pos (tri u n))) := by
  have hinj := packP_inj A u n
  have hd : ∀ i, i < n → (i, i) ∈ pos (tri u n) := by
    intro i hi; exact ⟨hi, hi, by cases u <;> simp⟩
  have hinj' : Set.InjOn (fun i : Nat => packP A u n (i, i)) (below n) := by
    intro i hi j hj e
    have := hinj (hd i hi) (hd j hj) e
    simpa using this
  have e0 : ∀ (i : Nat), i < n → ∀ m0 : Mem K, (let d : Int := if u = .upper then A + ((i : Int) + (i : Int) * (2 * n - i - 1) / 2)
        else A + ((i : Int) + (i : Int) * (i + 1) / 2)
      do
        let a ← load d
        store d (re a) : M K Unit) m0 = (do
          let a ← load (packP A u n (i, i))
          store (packP A u n (i, i)) (re a) : M K Unit) m0 := by
    intro i hi m0
    simp only [diagP_ad hi A]
  unfold realDiagP
  rw [loop_over (v := fun i => re (V i i)) hinj']
  · refine congrArg (fun z => Out.ok ((), z)) (over_patch hinj (fun i => (i, i)) (fun i _ => rfl) hd hinj' ?_ ?_)
    · intro k hk; simp
    · rintro ⟨i, j⟩ hp hne
      rw [if_neg]
      intro (e : i = j)
      subst e
      exact hne i hp.1 rfl
  · intro i hi
    refine (e0 i hi _).trans ?_
    have h2 : over (over m (packP A u n) (fun p => V p.1 p.2) (pos (tri u n))) (fun i : Nat => packP A u n (i, i))
        (fun i => re (V i i)) (below i) (packP A u n (i, i)) = .val (V i i) := by
      rw [over_of_not_mem, over_of_mem hinj (hd i hi)]
      intro j hj e
      have hj' : j < i := hj
      have := hinj' (show j ∈ below n from Nat.lt_trans hj' hi) (show i ∈ below n from hi) e
      omega
    rw [bind_ok (load_ok h2), store_ok (by rw [h2]; simp)]

end Verif.Blas
