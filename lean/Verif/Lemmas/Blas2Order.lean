import Verif.Lemmas.Blas2Rank
import Verif.Lemmas.Blas2Solve

/-! Lemmas: a column-major matrix is its transpose in row-major order. -/

namespace Verif.Blas

variable {K : Type}

/-- Transposed positions or elements. -/
def sw {α : Type} (f : Nat → Nat → α) (i j : Nat) : α := f j i

theorem idx_col (ld : Int) (i j : Nat) : idx .colMajor ld i j = idx .rowMajor ld j i := by simp only [idx]; ring

theorem matAt_col {m : Mem K} {A ld : Int} {P : Nat → Nat → Prop} {Q : Nat → Nat → K} :
    MatAt m A .colMajor ld P Q ↔ MatAt m A .rowMajor ld (sw P) (sw Q) := by
  constructor
  · intro h i j hp; rw [← idx_col]; exact h j i hp
  · intro h i j hp; rw [idx_col]; exact h j i hp

theorem onlyMat_col {m m' : Mem K} {A ld : Int} {P : Nat → Nat → Prop} :
    OnlyMat m m' A .colMajor ld P ↔ OnlyMat m m' A .rowMajor ld (sw P) := by
  constructor
  · intro h a ha; refine h a fun i j hp => ?_
    rw [idx_col]; exact ha j i hp
  · intro h a ha; refine h a fun i j hp => ?_
    rw [← idx_col]; exact ha j i hp

theorem matVecDisj_col {A ld x inc : Int} {n : Nat} {P : Nat → Nat → Prop} :
    MatVecDisj A .colMajor ld P x inc n ↔ MatVecDisj A .rowMajor ld (sw P) x inc n := by
  constructor
  · intro h i j k hp hk; rw [← idx_col]; exact h j i k hp hk
  · intro h i j k hp hk; rw [idx_col]; exact h j i k hp hk

theorem sw_full (r c : Nat) : sw (full r c) = full c r := by
  funext i j; simp only [sw, full, eq_iff_iff]; exact and_comm

theorem sw_tri (u : UpLo) (n : Nat) : sw (tri u n) = tri u.flip n := by
  funext i j; cases u <;> simp only [sw, tri, UpLo.flip, eq_iff_iff] <;> constructor <;> omega

theorem sw_stored (u : UpLo) (d : Diag) (n : Nat) : sw (stored u d n) = stored u.flip d n := by
  have h := sw_tri u n
  funext i j
  have h' : tri u n j i = tri u.flip n i j := congrFun (congrFun h i) j
  simp only [sw, stored, h']
  simp only [ne_eq, eq_comm]

theorem sw_symM (u : UpLo) (Q : Nat → Nat → K) : symM u.flip (sw Q) = symM u Q := by
  funext i j
  rcases lt_trichotomy i j with h | h | h
  · cases u <;> simp [symM, UpLo.flip, sw, h.le, not_le.2 h]
  · subst h; cases u <;> simp [symM, UpLo.flip, sw]
  · cases u <;> simp [symM, UpLo.flip, sw, h.le, not_le.2 h]

theorem opM_flip [Star K] (t : Trans) (Q : Nat → Nat → K) : opM t.flip (sw Q) = opM t Q := by
  funext i j
  cases h : t.trans <;> simp [opM, Trans.flip, sw, h]

theorem triOp_eq [Zero K] [One K] [Star K] (t : Trans) (u : UpLo) (d : Diag) (Q : Nat → Nat → K)
    (h0 : star (0 : K) = 0) (h1 : star (1 : K) = 1) : triOp u t.trans t.conj d Q = opM t (triM u d Q) := by
  obtain ⟨c, tr⟩ := t
  funext i j
  by_cases e : i = j
  · subst e
    cases tr <;> cases d <;> cases c <;> simp [triOp, opM, triM, triE, cj, h1]
  · have e' : j ≠ i := fun h => e h.symm
    rcases lt_or_gt_of_ne e with h | h <;> have h' := not_lt.2 h.le <;>
      cases tr <;> cases u <;> cases c <;> simp [triOp, opM, triM, triE, triUp, e, e', cj, h, h', h0]

theorem triOp_flip [Zero K] [One K] [Star K] (t : Trans) (u : UpLo) (d : Diag) (Q : Nat → Nat → K) :
    triOp u.flip t.flip.trans t.flip.conj d (sw Q) = triOp u t.trans t.conj d Q := by
  obtain ⟨c, tr⟩ := t
  funext i j
  cases tr <;> cases u <;> simp [triOp, triE, triUp, Trans.flip, UpLo.flip, sw]

theorem matAt_overRow {m : Mem K} {A ld : Int} {P : Nat → Nat → Prop} {V : Nat → Nat → K}
    (h : ∀ i j, P i j → (j : Int) < ld) :
    MatAt (over m (rowAd A ld) (fun p => V p.1 p.2) (pos P)) A .rowMajor ld P V :=
  fun i j hp => over_of_mem (v := fun p : Nat × Nat => V p.1 p.2) (rowAd_inj h) (show (i, j) ∈ pos P from hp)

theorem onlyMat_overRow {m : Mem K} {A ld : Int} {P : Nat → Nat → Prop} {v : Nat × Nat → K} :
    OnlyMat m (over m (rowAd A ld) v (pos P)) A .rowMajor ld P :=
  fun a ha => over_of_not_mem (S := pos P) fun p hp e => ha p.1 p.2 hp e.symm

end Verif.Blas
