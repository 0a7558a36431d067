import Verif.Lemmas.Blas2Pack

/-! Lemmas: the rows of banded and packed matrices, in both storage orders. -/

namespace Verif.Blas

open Finset

variable {K : Type}

/-- The stored parts of the rows are at the addresses `ad` and in the positions `P`. -/
structure RowsIn (R : Rows) (n : Nat) (ad : Nat → Nat → Int) (P : Nat → Nat → Prop) : Prop where
  ad : ∀ i k, i < n → k < R.len i → R.row i + (k : Nat) = ad i (R.first i + k)
  mem : ∀ i k, i < n → k < R.len i → P i (R.first i + k)

section
variable {R : Rows} {n : Nat} {ad : Nat → Nat → Int} {P : Nat → Nat → Prop} {m : Mem K} {Q : Nat → Nat → K} {d : Diag}

theorem RowsIn.at (h : RowsIn R n ad P) (hA : StAt m ad P Q) : RowsAt m R n Q := fun i k hi hk => by
  rw [h.ad i k hi hk]; exact hA _ _ (h.mem i k hi hk)

theorem RowsIn.disj (h : RowsIn R n ad P) {y incY : Int} {l : Nat} (hd : StVecDisj ad P y incY l) : RowsDisj R n y incY l :=
  fun i k j hi hk hj => by rw [h.ad i k hi hk]; exact hd _ _ _ (h.mem i k hi hk) hj

theorem RowsIn.atD (h : RowsIn R n ad P) (hA : StAt m ad (fun i j => P i j ∧ (d = .unit → i ≠ j)) Q) : RowsAtD m R d n Q :=
  fun i k hi hk hne => by
    rw [h.ad i k hi hk]; exact hA _ _ ⟨h.mem i k hi hk, fun hu e => hne hu e.symm⟩

theorem RowsIn.disjD (h : RowsIn R n ad P) {x incX : Int}
    (hd : StVecDisj ad (fun i j => P i j ∧ (d = .unit → i ≠ j)) x incX n) : RowsDisjD R d n x incX :=
  fun i k j hi hk hne hj => by
    rw [h.ad i k hi hk]; exact hd _ _ _ ⟨h.mem i k hi hk, fun hu e => hne hu e.symm⟩ hj

end

theorem gbRows_in (r c kl ku : Nat) (A ld : Int) :
    RowsIn (gbRows c kl ku A ld) r (bandAd A .rowMajor ld kl ku) (inBand kl ku r c) := by
  constructor
  · intro i k hi hk
    simp only [gbRows] at hk ⊢
    simp only [bandAd, bandIdx]
    have : (((kl - i : Nat) : Int) + k) = kl + ((i - kl + k : Nat) : Int) - i := by omega
    linear_combination this
  · intro i k hi hk
    simp only [gbRows] at hk ⊢
    simp only [inBand]
    omega

theorem gbRows_le {c kl ku i : Nat} {A ld : Int} (h : 0 < (gbRows c kl ku A ld).len i) :
    (gbRows c kl ku A ld).first i + (gbRows c kl ku A ld).len i ≤ c := by
  simp only [gbRows] at h ⊢
  omega

theorem gbRows_M [Zero K] {c kl ku i j : Nat} {A ld : Int} (hj : j < c) (Q : Nat → Nat → K) :
    seg ((gbRows c kl ku A ld).first i) ((gbRows c kl ku A ld).len i) (Q i) j = bandM kl ku Q i j := by
  refine if_congr ?_ rfl rfl
  simp only [gbRows]
  omega

theorem tbRows_in (u : UpLo) (n k : Nat) (A ld : Int) :
    RowsIn (tbRows u n k A ld) n (bandAd A .rowMajor ld (lowerK u k) (upperK u k)) (inBand (lowerK u k) (upperK u k) n n) := by
  cases u
  · constructor
    · intro i l hi hl
      simp only [tbRows] at hl ⊢
      simp only [bandAd, bandIdx, lowerK]
      push_cast; ring
    · intro i l hi hl
      simp only [tbRows] at hl ⊢
      simp only [inBand, lowerK, upperK]
      omega
  · constructor
    · intro i l hi hl
      simp only [tbRows] at hl ⊢
      simp only [bandAd, bandIdx, lowerK]
      have : (((k - i : Nat) : Int) + l) = k + ((i - k + l : Nat) : Int) - i := by omega
      linear_combination this
    · intro i l hi hl
      simp only [tbRows] at hl ⊢
      simp only [inBand, lowerK, upperK]
      omega

theorem tbRows_M [Zero K] {u : UpLo} {n k i j : Nat} {A ld : Int} (hj : j < n) (Q : Nat → Nat → K) :
    rowM (tbRows u n k A ld) Q i j = bandM (lowerK u k) (upperK u k) Q i j := by
  refine if_congr ?_ rfl rfl
  cases u <;> simp only [tbRows, lowerK, upperK] <;> omega

theorem tpRows_in (u : UpLo) (n : Nat) (A : Int) : RowsIn (tpRows u n A) n (packAd A .rowMajor u n) (tri u n) := by
  constructor
  · intro i k hi hk
    exact tpRows_ad hi hk
  · intro i k hi hk
    cases u <;> simp only [tri, tpRows] at hk ⊢ <;> omega

theorem tpRows_M [Zero K] {u : UpLo} {n i j : Nat} {A : Int} (h : tri u n i j) (Q : Nat → Nat → K) :
    rowM (tpRows u n A) Q i j = Q i j := by
  refine if_pos ?_
  cases u <;> simp only [tri, tpRows] at h ⊢ <;> omega

/-! ### Matrices that agree in the triangle -/

section
variable {u : UpLo} {n i j : Nat} {Q V : Nat → Nat → K}

theorem symM_congr (hi : i < n) (hj : j < n) (h : ∀ i j, tri u n i j → Q i j = V i j) : symM u Q i j = symM u V i j := by
  cases u <;> simp only [symM] <;> split_ifs <;> exact h _ _ ⟨by omega, by omega, by simp only; omega⟩

theorem herM_congr [Star K] {re : K → K} (hi : i < n) (hj : j < n) (h : ∀ i j, tri u n i j → Q i j = V i j) :
    herM re u Q i j = herM re u V i j := by
  unfold herM
  by_cases e : i = j
  · subst e
    rw [if_pos rfl, if_pos rfl, h i i ⟨hi, hi, by cases u <;> simp⟩]
  · rw [if_neg e, if_neg e]
    cases u <;> simp only <;> split_ifs <;> first
      | exact h _ _ ⟨by omega, by omega, by simp only; omega⟩
      | exact congrArg star (h _ _ ⟨by omega, by omega, by simp only; omega⟩)

theorem triOp_congr [Zero K] [One K] [Star K] {trans c : Bool} {d : Diag} (hi : i < n) (hj : j < n)
    (h : ∀ i j, tri u n i j → Q i j = V i j) : triOp u trans c d Q i j = triOp u trans c d V i j := by
  unfold triOp triE
  by_cases e : i = j
  · subst e
    rw [if_pos rfl, if_pos rfl]
    simp only [h i i ⟨hi, hi, by cases u <;> simp⟩]
  · rw [if_neg e, if_neg e]
    cases u <;> cases trans
    · rw [show triUp .upper false = true from rfl]
      simp only [if_true, Bool.false_eq_true, if_false]
      split_ifs
      · rw [h _ _ ⟨by omega, by omega, by simp only; omega⟩]
      · rfl
    · rw [show triUp .upper true = false from rfl]
      simp only [if_true, Bool.false_eq_true, if_false]
      split_ifs
      · rw [h _ _ ⟨by omega, by omega, by simp only; omega⟩]
      · rfl
    · rw [show triUp .lower false = false from rfl]
      simp only [Bool.false_eq_true, if_false]
      split_ifs
      · rw [h _ _ ⟨by omega, by omega, by simp only; omega⟩]
      · rfl
    · rw [show triUp .lower true = true from rfl]
      simp only [if_true]
      split_ifs
      · rw [h _ _ ⟨by omega, by omega, by simp only; omega⟩]
      · rfl

end

/-! ### Column-major order -/

section
variable {m m' : Mem K} {ad : Nat → Nat → Int} {P : Nat → Nat → Prop} {Q : Nat → Nat → K} {x inc : Int} {n : Nat}

theorem stAt_sw : StAt m (sw ad) (sw P) (sw Q) ↔ StAt m ad P Q := ⟨fun h i j hp => h j i hp, fun h i j hp => h j i hp⟩
theorem onlySt_sw : OnlySt m m' (sw ad) (sw P) ↔ OnlySt m m' ad P :=
  ⟨fun h a ha => h a fun i j hp => ha j i hp, fun h a ha => h a fun i j hp => ha j i hp⟩
theorem stVecDisj_sw : StVecDisj (sw ad) (sw P) x inc n ↔ StVecDisj ad P x inc n :=
  ⟨fun h i j k hp => h j i k hp, fun h i j k hp => h j i k hp⟩

theorem bandAd_sw (A ld : Int) (kl ku : Nat) : sw (bandAd A .colMajor ld kl ku) = bandAd A .rowMajor ld ku kl := by
  funext i j; rfl

theorem inBand_sw (kl ku r c : Nat) : sw (inBand kl ku r c) = inBand ku kl c r := by
  funext i j; simp only [sw, inBand, eq_iff_iff]; omega

theorem bandM_sw [Zero K] (kl ku : Nat) (Q : Nat → Nat → K) : bandM ku kl (sw Q) = sw (bandM kl ku Q) := by
  funext i j; simp only [sw, bandM, and_comm]

theorem lowerK_flip (u : UpLo) (k : Nat) : lowerK u.flip k = upperK u k := by cases u <;> rfl
theorem upperK_flip (u : UpLo) (k : Nat) : upperK u.flip k = lowerK u k := by cases u <;> rfl

theorem packAd_sw (A : Int) (u : UpLo) (n : Nat) : sw (packAd A .colMajor u n) = packAd A .rowMajor u.flip n := by
  funext i j; rfl

theorem triBand_sw (u : UpLo) (d : Diag) (k n : Nat) : sw (triBand u d k n) = triBand u.flip d k n := by
  funext i j
  simp only [sw, triBand, inBand, lowerK_flip, upperK_flip, eq_iff_iff, ne_comm (a := j)]
  constructor <;> rintro ⟨⟨h1, h2, h3, h4⟩, h5⟩ <;> exact ⟨⟨h2, h1, h4, h3⟩, h5⟩

end

end Verif.Blas
