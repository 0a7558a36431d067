import Verif.Model.Blas1
import Verif.Spec.Blas
import Verif.Lemmas.BlasMem
import Mathlib.Algebra.BigOperators.Intervals
import Mathlib.Tactic.Ring
import Mathlib.Tactic.Linarith

/-! Lemmas: the exact effect of the level-1 routines on the memory. -/

namespace Verif.Blas

variable {K : Type}

theorem start_elem (n : Nat) (x inc : Int) (i : Nat) : start n x inc + i * inc = elem x inc n i := by
  unfold start elem
  split <;> ring

theorem elem_inj {x inc : Int} {n : Nat} (h : inc ≠ 0) : Function.Injective (elem x inc n) := by
  intro i j e
  rw [← start_elem, ← start_elem] at e
  have : (i : Int) * inc = j * inc := by linarith
  have := mul_right_cancel₀ h this
  exact_mod_cast this

theorem elem_one (x : Int) (n i : Nat) : elem x 1 n i = x + i := by simp [elem]

theorem elem_pos {x inc : Int} (h : 0 ≤ inc) (n i : Nat) : elem x inc n i = x + i * inc := by
  unfold elem; rw [if_neg (by omega)]

theorem vecSafe_self {x inc : Int} {n : Nat} (h : inc ≠ 0) : VecSafe x inc x inc n := by
  intro i j _ hj e
  have := elem_inj h e
  omega

/-- A loop that computes `y i` from `x i` and the old `y i`. -/
theorem map2_run {n : Nat} {x incX y incY : Int} {m : Mem K} {xv : Nat → K} {yv : Nat → K} (f : K → K → K)
    (hx : VecAt m x incX n xv) (hy : VecAt m y incY n yv) (hi : incY ≠ 0) (hs : VecSafe x incX y incY n) :
    loop n (fun i => do
      let v ← load (start n x incX + i * incX)
      let w ← load (start n y incY + i * incY)
      store (start n y incY + i * incY) (f v w)) m =
    .ok ((), over m (elem y incY n) (fun i => f (xv i) (yv i)) (below n)) := by
  refine loop_over (elem_inj hi).injOn _ _ fun i hin => ?_
  simp only [start_elem]
  have h1 : over m (elem y incY n) (fun i => f (xv i) (yv i)) (below i) (elem x incX n i) = .val (xv i) := by
    exact (over_of_not_mem (S := below i) fun j hj e => hs i j hin hj e.symm).trans (hx i hin)
  have h2 : over m (elem y incY n) (fun i => f (xv i) (yv i)) (below i) (elem y incY n i) = .val (yv i) := by
    rw [over_of_not_mem (fun j hj e => by have := elem_inj hi e; have : j < i := hj; omega), hy i hin]
  rw [bind_ok (load_ok h1), bind_ok (load_ok h2), store_ok (by rw [h2]; simp)]

/-- A loop that computes `y i` from `x i`. -/
theorem map1_run {n : Nat} {x incX y incY : Int} {m : Mem K} {xv : Nat → K} (f : K → K)
    (hx : VecAt m x incX n xv) (hy : VecMem m y incY n) (hi : incY ≠ 0) (hs : VecSafe x incX y incY n) :
    loop n (fun i => do
      let v ← load (start n x incX + i * incX)
      store (start n y incY + i * incY) (f v)) m =
    .ok ((), over m (elem y incY n) (fun i => f (xv i)) (below n)) := by
  refine loop_over (elem_inj hi).injOn _ _ fun i hin => ?_
  simp only [start_elem]
  have h1 : over m (elem y incY n) (fun i => f (xv i)) (below i) (elem x incX n i) = .val (xv i) := by
    exact (over_of_not_mem (S := below i) fun j hj e => hs i j hin hj e.symm).trans (hx i hin)
  rw [bind_ok (load_ok h1), store_ok (over_writable (hy i hin))]

theorem copy_run {n : Nat} {x incX y incY : Int} {m : Mem K} {xv : Nat → K} (hx : VecAt m x incX n xv)
    (hy : VecMem m y incY n) (hi : incY ≠ 0) (hs : VecSafe x incX y incY n) :
    copy n x incX y incY m = .ok ((), over m (elem y incY n) xv (below n)) :=
  map1_run id hx hy hi hs

theorem ccopy_run [Star K] {n : Nat} {x incX y incY : Int} {m : Mem K} {xv : Nat → K} (hx : VecAt m x incX n xv)
    (hy : VecMem m y incY n) (hi : incY ≠ 0) (hs : VecSafe x incX y incY n) :
    ccopy n x incX y incY m = .ok ((), over m (elem y incY n) (fun i => star (xv i)) (below n)) :=
  map1_run star hx hy hi hs

theorem axpy_run [Mul K] [Add K] {n : Nat} {alpha : K} {x incX y incY : Int} {m : Mem K} {xv yv : Nat → K}
    (hx : VecAt m x incX n xv) (hy : VecAt m y incY n yv) (hi : incY ≠ 0) (hs : VecSafe x incX y incY n) :
    axpy n alpha x incX y incY m = .ok ((), over m (elem y incY n) (fun i => yv i + alpha * xv i) (below n)) :=
  map2_run (fun v w => w + alpha * v) hx hy hi hs

theorem acxpy_run [Mul K] [Add K] [Star K] {n : Nat} {alpha : K} {x incX y incY : Int} {m : Mem K} {xv yv : Nat → K}
    (hx : VecAt m x incX n xv) (hy : VecAt m y incY n yv) (hi : incY ≠ 0) (hs : VecSafe x incX y incY n) :
    acxpy n alpha x incX y incY m = .ok ((), over m (elem y incY n) (fun i => yv i + alpha * star (xv i)) (below n)) :=
  map2_run (fun v w => w + alpha * star v) hx hy hi hs

theorem raxpy_run [Div K] [Add K] {n : Nat} {alpha : K} {x incX y incY : Int} {m : Mem K} {xv yv : Nat → K}
    (hx : VecAt m x incX n xv) (hy : VecAt m y incY n yv) (hi : incY ≠ 0) (hs : VecSafe x incX y incY n) :
    raxpy n alpha x incX y incY m = .ok ((), over m (elem y incY n) (fun i => yv i + xv i / alpha) (below n)) :=
  map2_run (fun v w => w + v / alpha) hx hy hi hs

theorem racxpy_run [Div K] [Add K] [Star K] {n : Nat} {alpha : K} {x incX y incY : Int} {m : Mem K} {xv yv : Nat → K}
    (hx : VecAt m x incX n xv) (hy : VecAt m y incY n yv) (hi : incY ≠ 0) (hs : VecSafe x incX y incY n) :
    racxpy n alpha x incX y incY m = .ok ((), over m (elem y incY n) (fun i => yv i + star (xv i) / alpha) (below n)) :=
  map2_run (fun v w => w + star v / alpha) hx hy hi hs

/-- A loop that computes `y i` from the old `y i`. -/
theorem map0_run {n : Nat} {y incY : Int} {m : Mem K} {yv : Nat → K} (f : K → K) (hy : VecAt m y incY n yv)
    (hi : incY ≠ 0) :
    loop n (fun i => do
      let w ← load (start n y incY + i * incY)
      store (start n y incY + i * incY) (f w)) m =
    .ok ((), over m (elem y incY n) (fun i => f (yv i)) (below n)) := by
  refine loop_over (elem_inj hi).injOn _ _ fun i hin => ?_
  simp only [start_elem]
  have h2 : over m (elem y incY n) (fun i => f (yv i)) (below i) (elem y incY n i) = .val (yv i) := by
    rw [over_of_not_mem (fun j hj e => by have := elem_inj hi e; have : j < i := hj; omega), hy i hin]
  rw [bind_ok (load_ok h2), store_ok (by rw [h2]; simp)]

theorem scal_run [Mul K] {n : Nat} {alpha : K} {y incY : Int} {m : Mem K} {yv : Nat → K} (hy : VecAt m y incY n yv)
    (hi : incY ≠ 0) :
    scal n alpha y incY m = .ok ((), over m (elem y incY n) (fun i => yv i * alpha) (below n)) :=
  map0_run (· * alpha) hy hi

theorem rscal_run [Div K] {n : Nat} {alpha : K} {y incY : Int} {m : Mem K} {yv : Nat → K} (hy : VecAt m y incY n yv)
    (hi : incY ≠ 0) :
    rscal n alpha y incY m = .ok ((), over m (elem y incY n) (fun i => yv i / alpha) (below n)) :=
  map0_run (· / alpha) hy hi

/-- Scaling by zero does not read: the old elements may be uninitialised. -/
theorem scalInit_zero_run [Mul K] [Zero K] [DecidableEq K] {n : Nat} {y incY : Int} {m : Mem K}
    (hy : VecMem m y incY n) (hi : incY ≠ 0) :
    scalInit n (0 : K) y incY m = .ok ((), over m (elem y incY n) (fun _ => (0 : K)) (below n)) := by
  unfold scalInit scalInitGeneric
  rw [if_pos rfl]
  refine loop_over (elem_inj hi).injOn _ _ fun i hin => ?_
  rw [start_elem, store_ok (over_writable (hy i hin))]

/-- What `y` must hold before it is scaled by `beta`: nothing when `beta = 0`. -/
def InitAt [Zero K] (beta : K) (m : Mem K) (y incY : Int) (n : Nat) (yv : Nat → K) : Prop :=
  VecMem m y incY n ∧ (beta ≠ 0 → VecAt m y incY n yv)

theorem VecAt.mem {m : Mem K} {x inc : Int} {n : Nat} {v : Nat → K} (h : VecAt m x inc n v) : VecMem m x inc n :=
  fun i hi => by rw [h i hi]; simp

theorem VecAt.init [Zero K] {m : Mem K} {x inc : Int} {n : Nat} {v : Nat → K} (h : VecAt m x inc n v) (beta : K) :
    InitAt beta m x inc n v := ⟨h.mem, fun _ => h⟩

theorem scalInit_run [MulZeroClass K] [DecidableEq K] {n : Nat} {beta : K} {y incY : Int} {m : Mem K} {yv : Nat → K}
    (hy : InitAt beta m y incY n yv) (hi : incY ≠ 0) :
    scalInit n beta y incY m = .ok ((), over m (elem y incY n) (fun i => yv i * beta) (below n)) := by
  by_cases h : beta = 0
  · subst h
    rw [scalInit_zero_run hy.1 hi]
    simp
  · have h1 : scalInit n beta y incY = scal n beta y incY := by
      unfold scalInit scalInitGeneric scal
      rw [if_neg h]
    rw [h1, scal_run (hy.2 h) hi]

/-- Two updates of the same cells. -/
theorem over_same {ι : Type} {m : Mem K} {ad : ι → Int} {v w : ι → K} {S : Set ι} (hinj : Set.InjOn ad S) :
    over (over m ad v S) ad w S = over m ad w S := by
  refine over_unique hinj (fun i hi => over_of_mem hinj hi) fun a ha => ?_
  rw [over_of_not_mem ha, over_of_not_mem ha]

theorem vecAt_over {n : Nat} {y incY : Int} {m : Mem K} {v : Nat → K} (hi : incY ≠ 0) :
    VecAt (over m (elem y incY n) v (below n)) y incY n v :=
  fun _ hin => over_of_mem (elem_inj hi).injOn hin

theorem vecAt_over_disj {n k : Nat} {x incX y incY : Int} {m : Mem K} {v xv : Nat → K} (hx : VecAt m x incX k xv)
    (hd : VecDisj x incX k y incY n) : VecAt (over m (elem y incY n) v (below n)) x incX k xv :=
  fun i hin => (over_of_not_mem (S := below n) fun j hj e => hd i j hin hj e.symm).trans (hx i hin)

theorem axpby_run [NonUnitalNonAssocCommSemiring K] [DecidableEq K] {n : Nat} {alpha beta : K} {x incX y incY : Int}
    {m : Mem K} {xv yv : Nat → K} (hx : VecAt m x incX n xv) (hy : InitAt beta m y incY n yv) (hi : incY ≠ 0)
    (hd : VecDisj x incX n y incY n) :
    axpby n alpha x incX beta y incY m =
      .ok ((), over m (elem y incY n) (fun i => beta * yv i + alpha * xv i) (below n)) := by
  unfold axpby
  rw [bind_ok (scalInit_run hy hi), axpy_run (vecAt_over_disj hx hd) (vecAt_over hi) hi hd.safe,
    over_same (elem_inj hi).injOn]
  simp only [mul_comm]

theorem acxpby_run [NonUnitalNonAssocCommSemiring K] [Star K] [DecidableEq K] {n : Nat} {alpha beta : K}
    {x incX y incY : Int} {m : Mem K} {xv yv : Nat → K} (hx : VecAt m x incX n xv) (hy : InitAt beta m y incY n yv)
    (hi : incY ≠ 0) (hd : VecDisj x incX n y incY n) :
    acxpby n alpha x incX beta y incY m =
      .ok ((), over m (elem y incY n) (fun i => beta * yv i + alpha * star (xv i)) (below n)) := by
  unfold acxpby
  rw [bind_ok (scalInit_run hy hi), acxpy_run (vecAt_over_disj hx hd) (vecAt_over hi) hi hd.safe,
    over_same (elem_inj hi).injOn]
  simp only [mul_comm]

/-! ### Two vectors written together -/

/-- The addresses of two vectors. -/
def elem2 (x incX y incY : Int) (n : Nat) (p : Bool × Nat) : Int :=
  if p.1 then elem y incY n p.2 else elem x incX n p.2

/-- The first `n` elements of both. -/
def below2 (n : Nat) : Set (Bool × Nat) := {p | p.2 < n}

theorem elem2_inj {x incX y incY : Int} {n : Nat} (h1 : incX ≠ 0) (h2 : incY ≠ 0) (hd : VecDisj x incX n y incY n) :
    Set.InjOn (elem2 x incX y incY n) (below2 n) := by
  rintro ⟨b, i⟩ hi ⟨c, j⟩ hj e
  have hi' : i < n := hi
  have hj' : j < n := hj
  cases b <;> cases c <;> simp only [elem2, Bool.false_eq_true, if_false, if_true] at e
  · rw [elem_inj h1 e]
  · exact absurd e (hd i j hi' hj')
  · exact absurd e.symm (hd j i hj' hi')
  · rw [elem_inj h2 e]

theorem pair_run {n : Nat} {x incX y incY : Int} {m : Mem K} {xv yv : Nat → K} (f g : K → K → K)
    (hx : VecAt m x incX n xv) (hy : VecAt m y incY n yv) (h1 : incX ≠ 0) (h2 : incY ≠ 0)
    (hd : VecDisj x incX n y incY n) (body : Nat → M K Unit)
    (hb : ∀ (i : Nat) (m' : Mem K) v w, elem x incX n i ≠ elem y incY n i → m' (elem x incX n i) = .val v →
      m' (elem y incY n i) = .val w →
      body i m' = .ok ((), set (set m' (elem x incX n i) (f v w)) (elem y incY n i) (g v w))) :
    loop n body m = .ok ((), over m (elem2 x incX y incY n)
      (fun p => if p.1 then g (xv p.2) (yv p.2) else f (xv p.2) (yv p.2)) (below2 n)) := by
  have hinj := elem2_inj h1 h2 hd
  generalize hv : (fun p : Bool × Nat => if p.1 then g (xv p.2) (yv p.2) else f (xv p.2) (yv p.2)) = val
  have tr := loop_trace body (fun i => over m (elem2 x incX y incY n) val (below2 i)) n fun i hi => by
    have hn : ∀ (b : Bool), ∀ p ∈ below2 i, elem2 x incX y incY n p ≠ elem2 x incX y incY n (b, i) := by
      intro b p hp e
      have hp' : p.2 < i := hp
      have := hinj (show p ∈ below2 n from Nat.lt_trans hp hi) (show (b, i) ∈ below2 n from hi) e
      subst this
      exact absurd hp' (Nat.lt_irrefl _)
    have e1 : over m (elem2 x incX y incY n) val (below2 i) (elem x incX n i) = .val (xv i) := by
      have := over_of_not_mem (m := m) (v := val) (hn false)
      simp only [elem2, Bool.false_eq_true, if_false] at this
      rw [← hx i hi]; exact this
    have e2 : over m (elem2 x incX y incY n) val (below2 i) (elem y incY n i) = .val (yv i) := by
      have := over_of_not_mem (m := m) (v := val) (hn true)
      simp only [elem2, if_true] at this
      rw [← hy i hi]; exact this
    rw [hb i _ _ _ (hd i i hi hi) e1 e2]
    congr 2
    have s1 : insert (true, i) (insert (false, i) (below2 i)) = below2 (i + 1) := by
      ext ⟨b, j⟩
      simp only [Set.mem_insert_iff, Prod.mk.injEq, below2, Set.mem_setOf_eq]
      cases b <;> simp <;> omega
    have hsub : below2 (i + 1) ⊆ below2 n := fun p hp => Nat.lt_of_lt_of_le hp hi
    rw [← s1, ← set_over (by rw [s1]; exact hinj.mono hsub),
      ← set_over (hinj.mono (Set.Subset.trans (by rw [← s1]; exact Set.subset_insert _ _) hsub))]
    subst hv
    simp [elem2]
  have hz : below2 0 = ∅ := by ext p; simp [below2]
  simpa [hz] using tr

theorem swap_run {n : Nat} {x incX y incY : Int} {m : Mem K} {xv yv : Nat → K} (hx : VecAt m x incX n xv)
    (hy : VecAt m y incY n yv) (h1 : incX ≠ 0) (h2 : incY ≠ 0) (hd : VecDisj x incX n y incY n) :
    swap n x incX y incY m = .ok ((), over m (elem2 x incX y incY n)
      (fun p => if p.1 then xv p.2 else yv p.2) (below2 n)) := by
  refine pair_run (fun _ w => w) (fun v _ => v) hx hy h1 h2 hd _ fun i m' v w hne e1 e2 => ?_
  simp only [start_elem]
  rw [bind_ok (load_ok e1), bind_ok (load_ok e2), bind_ok (store_ok (by rw [e1]; simp)), store_ok]
  rw [set_ne _ _ hne.symm, e2]; simp

theorem rot_run [Mul K] [Add K] [Neg K] {n : Nat} {x incX y incY : Int} {c s : K} {m : Mem K} {xv yv : Nat → K}
    (hx : VecAt m x incX n xv) (hy : VecAt m y incY n yv) (h1 : incX ≠ 0) (h2 : incY ≠ 0)
    (hd : VecDisj x incX n y incY n) :
    rot n x incX y incY c s m = .ok ((), over m (elem2 x incX y incY n)
      (fun p => if p.1 then -s * xv p.2 + c * yv p.2 else c * xv p.2 + s * yv p.2) (below2 n)) := by
  refine pair_run (fun v w => c * v + s * w) (fun v w => -s * v + c * w) hx hy h1 h2 hd _ fun i m' v w hne e1 e2 => ?_
  simp only [start_elem]
  rw [bind_ok (load_ok e1), bind_ok (load_ok e2), bind_ok (store_ok (by rw [e1]; simp)), store_ok]
  rw [set_ne _ _ hne.symm, e2]; simp

theorem set_comm (m : Mem K) {a b : Int} (v w : K) (h : a ≠ b) : set (set m a v) b w = set (set m b w) a v := by
  funext c
  unfold set
  split <;> split <;> simp_all

theorem crot_run [Mul K] [Add K] [Sub K] [Star K] {n : Nat} {x incX y incY : Int} {c s : K} {m : Mem K} {xv yv : Nat → K}
    (hx : VecAt m x incX n xv) (hy : VecAt m y incY n yv) (h1 : incX ≠ 0) (h2 : incY ≠ 0)
    (hd : VecDisj x incX n y incY n) :
    crot n x incX y incY c s m = .ok ((), over m (elem2 x incX y incY n)
      (fun p => if p.1 then c * yv p.2 - star s * xv p.2 else c * xv p.2 + s * yv p.2) (below2 n)) := by
  have key := fun body hb => pair_run (fun v w => c * v + s * w) (fun v w => c * w - star s * v) hx hy h1 h2 hd body hb
  unfold crot
  split
  · refine key _ fun i m' v w hne e1 e2 => ?_
    simp only [start_elem]
    rw [bind_ok (load_ok e1), bind_ok (load_ok e2), bind_ok (store_ok (by rw [e2]; simp)), store_ok, set_comm _ _ _ hne]
    rw [set_ne _ _ hne, e1]; simp
  · rename_i hc
    push Not at hc
    obtain ⟨rfl, rfl⟩ := hc
    refine key _ fun i m' v w hne e1 e2 => ?_
    have s1 : ∀ z : Int, start n z 1 + (i : Int) = elem z 1 n i := fun z => by rw [← start_elem]; ring
    simp only [s1]
    rw [bind_ok (load_ok e1), bind_ok (load_ok e2), bind_ok (store_ok (by rw [e2]; simp)), store_ok, set_comm _ _ _ hne]
    rw [set_ne _ _ hne, e1]; simp

/-! ### Reductions -/

open Finset in
theorem dotu_run [NonUnitalNonAssocSemiring K] {n : Nat} {x incX y incY : Int} {m : Mem K} {xv yv : Nat → K}
    (hx : VecAt m x incX n xv) (hy : VecAt m y incY n yv) :
    dotu n x incX y incY m = .ok (∑ i ∈ range n, xv i * yv i, m) := by
  unfold dotu dotuGeneric
  have := fold_trace (fun i r => do
    let v ← load (start n x incX + i * incX)
    let w ← load (start n y incY + i * incY)
    pure (r + v * w)) (fun k => ∑ i ∈ range k, xv i * yv i) m n fun i hi => by
      simp only [start_elem]
      rw [bind_ok (load_ok (hx i hi)), bind_ok (load_ok (hy i hi)), sum_range_succ]; rfl
  simpa using this

open Finset in
theorem dot_run [NonUnitalNonAssocSemiring K] [Star K] {n : Nat} {x incX y incY : Int} {m : Mem K} {xv yv : Nat → K}
    (hx : VecAt m x incX n xv) (hy : VecAt m y incY n yv) :
    dot n x incX y incY m = .ok (∑ i ∈ range n, star (xv i) * yv i, m) := by
  unfold dot dotGeneric
  have := fold_trace (fun i r => do
    let v ← load (start n x incX + i * incX)
    let w ← load (start n y incY + i * incY)
    pure (r + star v * w)) (fun k => ∑ i ∈ range k, star (xv i) * yv i) m n fun i hi => by
      simp only [start_elem]
      rw [bind_ok (load_ok (hx i hi)), bind_ok (load_ok (hy i hi)), sum_range_succ]; rfl
  simpa using this

open Finset in
theorem asum_run {T : Type} [AddCommMonoid T] {size : K → T} {n : Nat} {x incX : Int} {m : Mem K} {xv : Nat → K}
    (hx : VecAt m x incX n xv) : asum size n x incX m = .ok (∑ i ∈ range n, size (xv i), m) := by
  unfold asum
  have := fold_trace (fun i r => do
    let v ← load (start n x incX + i * incX)
    pure (r + size v)) (fun k => ∑ i ∈ range k, size (xv i)) m n fun i hi => by
      simp only [start_elem]
      rw [bind_ok (load_ok (hx i hi)), sum_range_succ]; rfl
  simpa using this

/-- The first index of the largest element among the first `k`, with its size. -/
def argmax {T : Type} [LT T] [DecidableLT T] (size : Nat → T) : Nat → Nat × T
  | 0 => (0, size 0)
  | k + 1 => if (argmax size k).2 < size k then (k, size k) else argmax size k

theorem argmax_spec {T : Type} [LinearOrder T] (size : Nat → T) : ∀ k,
    (argmax size k).2 = size (argmax size k).1 ∧ (∀ j, j < k → size j ≤ size (argmax size k).1) ∧
      (∀ j, j < (argmax size k).1 → size j < size (argmax size k).1) ∧ (0 < k → (argmax size k).1 < k) ∧
      (k = 0 → (argmax size k).1 = 0)
  | 0 => ⟨rfl, by simp, by simp [argmax], by simp, fun _ => rfl⟩
  | k + 1 => by
    obtain ⟨h1, h2, h3, h4, h5⟩ := argmax_spec size k
    rw [argmax]
    split
    · rename_i h
      rw [h1] at h
      refine ⟨rfl, fun j hj => ?_, fun j hj => ?_, by simp, by simp⟩
      · rcases Nat.lt_or_ge j k with hjk | hjk
        · exact le_of_lt (lt_of_le_of_lt (h2 j hjk) h)
        · rw [show j = k by omega]
      · exact lt_of_le_of_lt (h2 j hj) h
    · rename_i h
      rw [h1] at h
      refine ⟨h1, fun j hj => ?_, h3, fun _ => ?_, by simp⟩
      · rcases Nat.lt_or_ge j k with hjk | hjk
        · exact h2 j hjk
        · rw [show j = k by omega]; exact not_lt.1 h
      · rcases Nat.eq_zero_or_pos k with hk | hk
        · rw [h5 hk]; omega
        · exact Nat.lt_succ_of_lt (h4 hk)

theorem iamax_run {T : Type} [LinearOrder T] {size : K → T} {n : Nat} {x incX : Int} {m : Mem K} {xv : Nat → K}
    (hn : 0 < n) (hx : VecAt m x incX n xv) :
    iamax size n x incX m = .ok (((argmax (fun i => size (xv i)) n).1 : Int), m) := by
  unfold iamax iamaxGeneric
  rw [if_neg (by omega)]
  have h0 : m (start n x incX) = .val (xv 0) := by
    have := hx 0 hn
    rw [← start_elem] at this
    simpa using this
  have hf := fold_trace (fun i (r : Nat × T) => do
    let w ← load (start n x incX + i * incX)
    pure (if r.2 < size w then (i, size w) else r)) (fun k => argmax (fun i => size (xv i)) k) m n fun i hi => by
      simp only [start_elem]
      rw [bind_ok (load_ok (hx i hi)), argmax]; rfl
  rw [bind_ok (c := do
    let v ← load (start n x incX)
    let r ← fold n (0, size v) fun i r => do
      let w ← load (start n x incX + i * incX)
      pure (if r.2 < size w then (i, size w) else r)
    pure r.1) (a := (argmax (fun i => size (xv i)) n).1) (m' := m)]
  · rfl
  · rw [bind_ok (load_ok h0)]
    change fold n (0, size (xv 0)) _ m = _ at hf
    rw [bind_ok hf]; rfl

end Verif.Blas
