import Verif.Props.Blas1Tri

/-! Property theorems for the level-1 routines of cxxblas on banded matrices (C93). -/

namespace Verif.Blas

variable {K : Type}

section gb
variable {o : Order} {t : Trans} {r c kl ku : Nat} {A ldA B ldB : Int} {m : Mem K} {QA QB : Nat → Nat → K}

theorem lt_diagLen {r c a b k : Nat} : k < diagLen r c ((a : Int) - b) ↔ (b - a) + k < r ∧ (a - b) + k < c := by
  unfold diagLen
  split <;> omega

theorem bandAd_inj {C ld : Int} (h : (kl : Int) + ku + 1 ≤ ld) (i j k l : Nat) (h1 : inBand kl ku r c i j)
    (h2 : inBand kl ku r c k l) (e : bandAd C .rowMajor ld kl ku i j = bandAd C .rowMajor ld kl ku k l) : i = k ∧ j = l := by
  obtain ⟨_, _, a1, a2⟩ := h1
  obtain ⟨_, _, b1, b2⟩ := h2
  have e' : matAd C .rowMajor ld i (kl + j - i) = matAd C .rowMajor ld k (kl + l - k) := by
    simp only [bandAd, bandIdx, matAd, idx] at e ⊢
    have q1 : ((kl + j - i : Nat) : Int) = (kl : Int) + j - i := by omega
    have q2 : ((kl + l - k : Nat) : Int) = (kl : Int) + l - k := by omega
    rw [q1, q2]; exact e
  obtain ⟨q1, q2⟩ := matAd_inj (by omega) (by omega) e'
  subst q1
  exact ⟨rfl, by omega⟩

/-- Diagonal `l` of a banded matrix, as a vector. -/
theorem elem_diag {C ld : Int} (h : 0 ≤ ld) (kl ku n l k : Nat) :
    elem (C + l + max (-((l : Int) - kl)) 0 * ld) ld n k = bandAd C .rowMajor ld kl ku (kl - l + k) (l - kl + k) := by
  rw [elem_pos h]
  simp only [bandAd, bandIdx]
  rcases Nat.le_total l kl with hl | hl
  · rw [max_eq_left (by omega)]
    have e1 : ((kl - l + k : Nat) : Int) = (kl : Int) - l + k := by omega
    have e2 : ((l - kl + k : Nat) : Int) = (k : Int) := by omega
    rw [e1, e2]; ring
  · rw [max_eq_right (by omega)]
    have e1 : ((kl - l + k : Nat) : Int) = (k : Int) := by omega
    have e2 : ((l - kl + k : Nat) : Int) = (l : Int) - kl + k := by omega
    rw [e1, e2]; ring

/-- The same, counted from the other side. -/
theorem elem_diag' {C ld : Int} (h : 0 ≤ ld) {kl ku n l : Nat} (k : Nat) :
    elem (C + ((kl : Int) + ku - l) + max ((l : Int) - ku) 0 * ld) ld n k = bandAd C .rowMajor ld kl ku (l - ku + k) (ku - l + k) := by
  rw [elem_pos h]
  simp only [bandAd, bandIdx]
  rcases Nat.le_total l ku with hl | hl
  · rw [max_eq_right (by omega)]
    have e1 : ((ku - l + k : Nat) : Int) = (ku : Int) - l + k := by omega
    have e2 : ((l - ku + k : Nat) : Int) = (k : Int) := by omega
    rw [e1, e2]; ring
  · rw [max_eq_left (by omega)]
    have e1 : ((ku - l + k : Nat) : Int) = (k : Int) := by omega
    have e2 : ((l - ku + k : Nat) : Int) = (l : Int) - ku + k := by omega
    rw [e1, e2]; ring

/-- Addresses of `A` by the positions of `op(A)`, which has `kl` and `ku` diagonals. -/
def opBand (A : Int) (o : Order) (ld : Int) (t : Trans) (kl ku : Nat) : Nat → Nat → Int :=
  opP t (bandAd A o ld (opRows t kl ku) (opCols t kl ku))

theorem gbRow_run {op cop : VecOp K} {g : K → K → K} {need : Prop} (hop : Acts (if t.conj then cop else op) g need)
    (ht : t.trans = true → r = c)
    (hA : StAt m (opBand A .rowMajor ldA t kl ku) (inBand kl ku r c) (opP t QA)) (h0 : 0 ≤ ldA)
    (hB : ∀ i j, inBand kl ku r c i j → m (bandAd B .rowMajor ldB kl ku i j) ≠ .out)
    (hb : need → StAt m (bandAd B .rowMajor ldB kl ku) (inBand kl ku r c) QB) (hld : (kl : Int) + ku + 1 ≤ ldB)
    (hd : StDisj (opBand A .rowMajor ldA t kl ku) (inBand kl ku r c) (bandAd B .rowMajor ldB kl ku) (inBand kl ku r c)) :
    YieldsSt (gbRow op cop t r c kl ku A ldA B ldB) m (bandAd B .rowMajor ldB kl ku) (inBand kl ku r c) fun i j =>
      g (QB i j) (opP t QA i j) := by
  have hinj := bandAd_inj (r := r) (c := c) (C := B) hld
  unfold gbRow
  cases h : t.trans
  · have e : opBand A .rowMajor ldA t kl ku = bandAd A .rowMajor ldA kl ku := by
      unfold opBand opP opRows opCols; rw [h]; rfl
    rw [e] at hA hd
    refine act_run hop (len := fun l => diagLen r c ((l : Int) - kl)) (ix := fun _ => ldA) (iy := fun _ => ldB)
      (fun l k => kl - l + k) (fun l k => l - kl + k) (fun l k hl hk => ?_) (fun l k hl hk => elem_diag (by omega) kl ku _ l k)
      (fun l k hl hk => elem_diag h0 kl ku _ l k) (fun i j hp => ⟨kl + j - i, min i j, ?_⟩)
      (fun l k l' k' _ _ _ _ e1 e2 => by omega) hinj (fun _ _ => by omega) hA hd hB hb
    · have := lt_diagLen.1 hk
      exact ⟨this.1, this.2, by omega, by omega⟩
    · obtain ⟨h1, h2, h3, h4⟩ := hp
      refine ⟨by omega, ?_, by omega, by omega⟩
      refine lt_diagLen.2 ?_
      omega
  · have e : opBand A .rowMajor ldA t kl ku = fun i j => bandAd A .rowMajor ldA ku kl j i := by
      unfold opBand opP opRows opCols; rw [h]; rfl
    rw [e] at hA hd
    obtain rfl := ht h
    refine act_run hop (len := fun l => diagLen r r ((l : Int) - ku)) (ix := fun _ => ldA) (iy := fun _ => ldB)
      (fun l k => l - ku + k) (fun l k => ku - l + k) (fun l k hl hk => ?_) (fun l k hl hk => elem_diag' (by omega) k)
      (fun l k hl hk => elem_diag h0 ku kl _ l k) (fun i j hp => ⟨ku + i - j, min i j, ?_⟩)
      (fun l k l' k' _ _ _ _ e1 e2 => by omega) hinj (fun _ _ => by omega) hA hd hB hb
    · have := lt_diagLen.1 hk
      exact ⟨this.2, this.1, by omega, by omega⟩
    · obtain ⟨h1, h2, h3, h4⟩ := hp
      refine ⟨by omega, ?_, by omega, by omega⟩
      refine lt_diagLen.2 ?_
      omega

theorem opBand_sw (A ldA : Int) (t : Trans) (kl ku : Nat) :
    sw (opBand A .colMajor ldA t kl ku) = opBand A .rowMajor ldA t ku kl := by
  have e : ∀ a b, sw (opP t (bandAd A .colMajor ldA a b)) = opP t (bandAd A .rowMajor ldA b a) := by
    intro a b; rw [← bandAd_sw]; rfl
  unfold opBand
  rw [e]
  unfold opRows opCols
  cases t.trans <;> rfl

theorem gbOp_run {op cop : VecOp K} {g : K → K → K} {need : Prop} (hop : Acts (if t.conj then cop else op) g need)
    (ht : t.trans = true → r = c)
    (hA : StAt m (bandAd A o ldA (opRows t kl ku) (opCols t kl ku)) (opP t (inBand kl ku r c)) QA) (h0 : 0 ≤ ldA)
    (hB : ∀ i j, inBand kl ku r c i j → m (bandAd B o ldB kl ku i j) ≠ .out)
    (hb : need → StAt m (bandAd B o ldB kl ku) (inBand kl ku r c) QB) (hld : (kl : Int) + ku + 1 ≤ ldB)
    (hd : StDisj (bandAd A o ldA (opRows t kl ku) (opCols t kl ku)) (opP t (inBand kl ku r c)) (bandAd B o ldB kl ku)
      (inBand kl ku r c)) :
    YieldsSt (gbOp op cop o t r c kl ku A ldA B ldB) m (bandAd B o ldB kl ku) (inBand kl ku r c) fun i j =>
      g (QB i j) (opP t QA i j) := by
  have hA' : StAt m (opBand A o ldA t kl ku) _ _ := opAtP hA
  have hd' : StDisj (opBand A o ldA t kl ku) _ _ _ := opDisjP hd
  cases o
  · exact gbRow_run hop ht hA' h0 hB hb hld hd'
  · rw [← stAt_sw, opBand_sw, inBand_sw] at hA'
    rw [← stDisj_sw1, ← stDisj_sw2, opBand_sw, bandAd_sw, inBand_sw] at hd'
    refine yieldsSt_sw ?_
    rw [bandAd_sw, inBand_sw]
    refine gbRow_run (QA := sw QA) (QB := sw QB) hop (fun h => (ht h).symm) hA' h0 (fun i j hp => ?_) (fun h => ?_) (by omega) hd'
    · rw [← inBand_sw] at hp
      rw [← bandAd_sw]
      exact hB j i hp
    · have := hb h
      rwa [← stAt_sw, bandAd_sw, inBand_sw] at this

/-- The property of a routine that leaves the band of `f B op(A)` in `B` and touches nothing else; `B` has `r` rows and `c` columns. -/
def BandOk (rt : Order → Trans → Nat → Nat → Nat → Nat → Int → Int → Int → Int → M K Unit) (need : Prop) (f : K → K → K) [Star K]
    (o : Order) (t : Trans) (r c kl ku : Nat) : Prop :=
  ∀ (A ldA B ldB : Int) (m : Mem K) (QA QB : Nat → Nat → K),
    StAt m (bandAd A o ldA (opRows t kl ku) (opCols t kl ku)) (opP t (inBand kl ku r c)) QA → (kl : Int) + ku + 1 ≤ ldA →
    (∀ i j, inBand kl ku r c i j → m (bandAd B o ldB kl ku i j) ≠ .out) →
    (need → StAt m (bandAd B o ldB kl ku) (inBand kl ku r c) QB) → (kl : Int) + ku + 1 ≤ ldB →
    StDisj (bandAd A o ldA (opRows t kl ku) (opCols t kl ku)) (opP t (inBand kl ku r c)) (bandAd B o ldB kl ku)
      (inBand kl ku r c) →
    YieldsSt (rt o t r c kl ku A ldA B ldB) m (bandAd B o ldB kl ku) (inBand kl ku r c) fun i j => f (QB i j) (opM t QA i j)

/-- **C93** (missing: transposes of matrices that are not square) `gbcopy`: the band of `op(A)`. -/
theorem C93_gbcopy_partial [Star K] (ht : t.trans = true → r = c) : BandOk (K := K) gbcopy False (fun _ v => v) o t r c kl ku := by
  intro A ldA B ldB m QA QB hA hldA hB hb hldB hd
  exact gbOp_run (QB := QB) (g := fun _ v => cj t.conj v) ((acts_copy (K := K)).ite acts_ccopy t.conj) ht hA (by omega) hB hb hldB hd

/-- **C93** (missing: transposes of matrices that are not square) `gbaxpy`: the band of `B + alpha op(A)`. -/
theorem C93_gbaxpy_partial [Mul K] [Add K] [Star K] {alpha : K} (ht : t.trans = true → r = c) :
    BandOk (fun o t r c kl ku => gbaxpy o t r c kl ku alpha) True (fun w v => w + alpha * v) o t r c kl ku := by
  intro A ldA B ldB m QA QB hA hldA hB hb hldB hd
  exact gbOp_run ((acts_axpy alpha).ite (acts_acxpy alpha) t.conj) ht hA (by omega) hB hb hldB hd

/-- **C93** (missing: transposes of matrices that are not square) `gbaxpby`: the band of `beta B + alpha op(A)`. -/
theorem C93_gbaxpby_partial [CommRing K] [Star K] [DecidableEq K] {alpha beta : K} (ht : t.trans = true → r = c) :
    BandOk (fun o t r c kl ku A ldA => gbaxpby o t r c kl ku alpha A ldA beta) (beta ≠ 0) (fun w v => beta * w + alpha * v)
      o t r c kl ku := by
  intro A ldA B ldB m QA QB hA hldA hB hb hldB hd
  exact gbOp_run ((acts_axpby alpha beta).ite (acts_acxpby alpha beta) t.conj) ht hA (by omega) hB hb hldB hd

theorem gbscalRow_run [CommRing K] {alpha : K} (hA : StAt m (bandAd A .rowMajor ldA kl ku) (inBand kl ku r c) QA)
    (hld : (kl : Int) + ku + 1 ≤ ldA) :
    YieldsSt (gbscalRow r c kl ku alpha A ldA) m (bandAd A .rowMajor ldA kl ku) (inBand kl ku r c) fun i j => alpha * QA i j := by
  refine scal_loop (len := fun l => diagLen r c ((l : Int) - kl)) (iy := fun _ => ldA)
    (fun l k => kl - l + k) (fun l k => l - kl + k) (fun l k hl hk => ?_) (fun l k hl hk => elem_diag (by omega) kl ku _ l k)
    (fun i j hp => ⟨kl + j - i, min i j, ?_⟩)
    (fun l k l' k' _ _ _ _ e1 e2 => by omega) (bandAd_inj hld) (fun _ _ => by omega) hA
  · have := lt_diagLen.1 hk
    exact ⟨this.1, this.2, by omega, by omega⟩
  · obtain ⟨h1, h2, h3, h4⟩ := hp
    refine ⟨by omega, ?_, by omega, by omega⟩
    refine lt_diagLen.2 ?_
    omega

/-- **C93** `gbscal`: the band of `alpha A`. -/
theorem C93_gbscal [CommRing K] {alpha : K} (hA : StAt m (bandAd A o ldA kl ku) (inBand kl ku r c) QA)
    (hld : (kl : Int) + ku + 1 ≤ ldA) :
    YieldsSt (gbscal o r c kl ku alpha A ldA) m (bandAd A o ldA kl ku) (inBand kl ku r c) fun i j => alpha * QA i j := by
  cases o
  · exact gbscalRow_run hA hld
  · rw [← stAt_sw, bandAd_sw, inBand_sw] at hA
    refine yieldsSt_sw ?_
    rw [bandAd_sw, inBand_sw]
    exact gbscalRow_run hA (by omega)

/-- The property **C93** of `gbcopy`. -/
def C93Claim : Prop := ∀ (o : Order) (t : Trans) (r c kl ku : Nat), BandOk (K := Int) gbcopy False (fun _ v => v) o t r c kl ku

/-- **C93** For a transpose the lengths of the diagonals are those of the other shape: of the matrix with 1 row and 2 columns whose
elements are the two diagonals, the second is not copied. -/
theorem C93_false : ¬C93Claim := by
  intro h
  obtain ⟨m', h1, h2, _⟩ := h .rowMajor doTrans 1 2 0 1 0 2 20 2 exTwo (fun i _ => 10 + 2 * i + (1 - i : Nat)) (fun _ _ => 0)
    (by
      rintro i j ⟨hi, hj, _, _⟩
      replace hi : j < 1 := hi
      replace hj : i < 2 := hj
      interval_cases i <;> interval_cases j <;> decide)
    (by decide)
    (by rintro i j ⟨hi, hj, _⟩; interval_cases i <;> interval_cases j <;> decide) (fun h => h.elim) (by decide)
    (by
      rintro i j k l ⟨hi, hj, _⟩ ⟨hk, hl, _⟩
      replace hi : j < 1 := hi
      replace hj : i < 2 := hj
      interval_cases i <;> interval_cases j <;> interval_cases k <;> interval_cases l <;> decide)
  have e : peek (gbcopy .rowMajor doTrans 1 2 0 1 0 2 20 2 exTwo) (fun _ m => m 21) = .ok (.val 41) := by decide
  rw [h1] at e
  have e2 : m' 21 = .val 12 := h2 0 1 ⟨by decide, by decide, by decide, by decide⟩
  have : m' 21 = .val 41 := by simpa [peek, bind, Out.bind] using e
  rw [this] at e2
  exact absurd e2 (by decide)

/-- The hypotheses hold for the transpose of a matrix of order 2 with a diagonal above the main one, stored by columns. -/
example : StAt exTwo (bandAd 0 .colMajor 2 0 1) (opP doTrans (inBand 1 0 2 2)) (fun i j => if i = j then 11 + 2 * (i : Int) else 12) ∧
    (∀ i j, inBand 1 0 2 2 i j → exTwo (bandAd 20 .colMajor 3 1 0 i j) ≠ .out) ∧
    StDisj (bandAd 0 .colMajor 2 0 1) (opP doTrans (inBand 1 0 2 2)) (bandAd 20 .colMajor 3 1 0) (inBand 1 0 2 2) ∧
    opP doTrans (inBand 1 0 2 2) 0 1 := by
  refine ⟨?_, ?_, ?_, ⟨by decide, by decide, by decide, by decide⟩⟩
  · rintro i j ⟨hi, hj, h3, h4⟩
    replace hi : j < 2 := hi
    replace hj : i < 2 := hj
    interval_cases i <;> interval_cases j <;> first | decide | (simp at h3 h4)
  · rintro i j ⟨hi, hj, h3, h4⟩
    interval_cases i <;> interval_cases j <;> decide
  · rintro i j k l ⟨hi, hj, _⟩ ⟨hk, hl, _⟩
    replace hi : j < 2 := hi
    replace hj : i < 2 := hj
    interval_cases i <;> interval_cases j <;> interval_cases k <;> interval_cases l <;> decide

example : (peek (gbcopy (K := Int) .colMajor doTrans 2 2 1 0 0 2 20 3 exTwo) fun _ m => (m 20, m 21, m 22, m 23, m 24)) =
    .ok (.val 11, .val 12, .val 42, .val 13, .val 44) := by decide

end gb

end Verif.Blas
