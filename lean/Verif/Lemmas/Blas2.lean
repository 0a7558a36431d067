import Verif.Model.Blas2
import Verif.Lemmas.Blas1
import Mathlib.Algebra.Star.BigOperators

/-! Lemmas: the exact effect of the level-2 routines on the memory. -/

namespace Verif.Blas

open Finset

variable {K : Type}

/-- `m'` agrees with `m` outside `Y`. -/
def AgreeOff (Y : Set Int) (m m' : Mem K) : Prop := ∀ a, a ∉ Y → m' a = m a

theorem agreeOff_refl (Y : Set Int) (m : Mem K) : AgreeOff Y m m := fun _ _ => rfl

theorem AgreeOff.trans {Y : Set Int} {m m' m'' : Mem K} (h1 : AgreeOff Y m m') (h2 : AgreeOff Y m' m'') :
    AgreeOff Y m m'' := fun a ha => (h2 a ha).trans (h1 a ha)

theorem agreeOff_over {ι : Type} {Y : Set Int} {m : Mem K} {ad : ι → Int} {v : ι → K} {S : Set ι}
    (h : ∀ i, i ∈ S → ad i ∈ Y) : AgreeOff Y m (over m ad v S) :=
  fun _ ha => over_of_not_mem fun i hi e => ha (e ▸ h i hi)

/-- The cells of a vector. -/
def cells (y inc : Int) (n : Nat) : Set Int := {a | ∃ i, i < n ∧ elem y inc n i = a}

theorem VecAt.agree {m m' : Mem K} {x incX y incY : Int} {n k : Nat} {v : Nat → K} (h : VecAt m x incX n v)
    (ha : AgreeOff (cells y incY k) m m') (hd : VecDisj x incX n y incY k) : VecAt m' x incX n v :=
  fun i hi => (ha _ fun ⟨j, hj, e⟩ => hd i j hi hj e.symm).trans (h i hi)

theorem MatAt.agree {m m' : Mem K} {A : Int} {o : Order} {ld : Int} {P : Nat → Nat → Prop} {y incY : Int} {k : Nat}
    {Q : Nat → Nat → K} (h : MatAt m A o ld P Q) (ha : AgreeOff (cells y incY k) m m')
    (hd : MatVecDisj A o ld P y incY k) : MatAt m' A o ld P Q :=
  fun i j hp => (ha _ fun ⟨l, hl, e⟩ => hd i j l hp hl e.symm).trans (h i j hp)

/-! ### Inner products -/

theorem dotuGeneric_run [NonUnitalNonAssocSemiring K] {n : Nat} {x incX y incY : Int} {m : Mem K} {xv yv : Nat → K}
    (hx : ∀ i, i < n → m (x + i * incX) = .val (xv i)) (hy : ∀ i, i < n → m (y + i * incY) = .val (yv i)) :
    dotuGeneric n x incX y incY m = .ok (∑ i ∈ range n, xv i * yv i, m) := by
  unfold dotuGeneric
  have := fold_trace (fun i r => do
    let v ← load (x + i * incX)
    let w ← load (y + i * incY)
    pure (r + v * w)) (fun k => ∑ i ∈ range k, xv i * yv i) m n fun i hi => by
      rw [bind_ok (load_ok (hx i hi)), bind_ok (load_ok (hy i hi)), sum_range_succ]; rfl
  simpa using this

theorem dotGeneric_run [NonUnitalNonAssocSemiring K] [Star K] {n : Nat} {x incX y incY : Int} {m : Mem K}
    {xv yv : Nat → K} (hx : ∀ i, i < n → m (x + i * incX) = .val (xv i))
    (hy : ∀ i, i < n → m (y + i * incY) = .val (yv i)) :
    dotGeneric n x incX y incY m = .ok (∑ i ∈ range n, star (xv i) * yv i, m) := by
  unfold dotGeneric
  have := fold_trace (fun i r => do
    let v ← load (x + i * incX)
    let w ← load (y + i * incY)
    pure (r + star v * w)) (fun k => ∑ i ∈ range k, star (xv i) * yv i) m n fun i hi => by
      rw [bind_ok (load_ok (hx i hi)), bind_ok (load_ok (hy i hi)), sum_range_succ]; rfl
  simpa using this

theorem dotC_run [NonUnitalNonAssocSemiring K] [Star K] {c : Bool} {n : Nat} {x incX y incY : Int} {m : Mem K}
    {xv yv : Nat → K} (hx : ∀ i, i < n → m (x + i * incX) = .val (xv i))
    (hy : ∀ i, i < n → m (y + i * incY) = .val (yv i)) :
    dotC c n x incX y incY m = .ok (∑ i ∈ range n, cj c (xv i) * yv i, m) := by
  cases c
  · exact dotuGeneric_run hx hy
  · exact dotGeneric_run hx hy

theorem rowDot_run [CommRing K] [StarRing K] {cA cX : Bool} {n : Nat} {a incA x incX : Int} {m : Mem K}
    {av xv : Nat → K} (ha : ∀ i, i < n → m (a + i * incA) = .val (av i))
    (hx : ∀ i, i < n → m (x + i * incX) = .val (xv i)) :
    rowDot cA cX n a incA x incX m = .ok (∑ i ∈ range n, cj cA (av i) * cj cX (xv i), m) := by
  cases cX <;> cases cA <;> simp only [rowDot, cj, if_true, Bool.false_eq_true, if_false]
  · exact dotuGeneric_run ha hx
  · exact dotGeneric_run ha hx
  · rw [dotGeneric_run hx ha]
    simp only [mul_comm]
  · rw [bind_ok (dotuGeneric_run ha hx), pure_ok, star_sum]
    congr 2
    exact sum_congr rfl fun i _ => by rw [star_mul', ]

/-! ### Products with a vector -/

/-- A loop that adds `alpha * d i` to the cell `ad i` in pass `i`. -/
theorem accum_run [Mul K] [Add K] {n : Nat} {ad : Nat → Int} (hinj : Set.InjOn ad (below n)) {m : Mem K} {alpha : K}
    {D : Nat → M K K} {d yv : Nat → K}
    (hD : ∀ i, i < n → ∀ m', AgreeOff (ad '' below n) m m' → D i m' = .ok (d i, m'))
    (hy : ∀ i, i < n → m (ad i) = .val (yv i)) :
    loop n (fun i => addDot alpha (D i) (ad i)) m = .ok ((), over m ad (fun i => yv i + alpha * d i) (below n)) := by
  refine loop_over hinj _ _ fun i hin => ?_
  have h2 : over m ad (fun i => yv i + alpha * d i) (below i) (ad i) = .val (yv i) := by
    rw [over_of_not_mem, hy i hin]
    intro j hj e
    have hj' : j < i := hj
    have := hinj (show j ∈ below n from Nat.lt_trans hj' hin) (show i ∈ below n from hin) e
    omega
  unfold addDot
  have ha : AgreeOff (ad '' below n) m (over m ad (fun i => yv i + alpha * d i) (below i)) :=
    agreeOff_over (S := below i) fun j hj => ⟨j, Nat.lt_trans hj hin, rfl⟩
  rw [bind_ok (hD i hin _ ha), bind_ok (load_ok h2),
    store_ok (by rw [h2]; simp)]

theorem image_elem (y incY : Int) (n : Nat) : elem y incY n '' below n = cells y incY n := by
  ext a; simp [cells, below]

/-- `y = beta y`, then `y[i] += alpha * d i`. -/
theorem mv_run [CommRing K] [DecidableEq K] {n : Nat} {alpha beta : K} {y incY : Int} {m : Mem K} {D : Nat → M K K}
    {d yv : Nat → K} (hy : InitAt beta m y incY n yv) (hi : incY ≠ 0)
    (hD : ∀ i, i < n → ∀ m', AgreeOff (cells y incY n) m m' → D i m' = .ok (d i, m')) :
    (do
      scalInitGeneric n beta (start n y incY) incY
      loop n fun i => addDot alpha (D i) (start n y incY + i * incY) : M K Unit) m =
    .ok ((), over m (elem y incY n) (fun i => beta * yv i + alpha * d i) (below n)) := by
  rw [bind_ok (show scalInitGeneric n beta (start n y incY) incY m = _ from scalInit_run hy hi)]
  simp only [start_elem]
  rw [accum_run (d := d) (yv := fun i => yv i * beta) (elem_inj hi).injOn]
  · rw [over_same (elem_inj hi).injOn]
    simp only [mul_comm]
  · intro i hin m' hm
    rw [image_elem] at hm
    exact hD i hin m' (AgreeOff.trans (agreeOff_over (S := below n) fun j hj => ⟨j, hj, rfl⟩) hm)
  · intro i hin
    exact over_of_mem (elem_inj hi).injOn hin

theorem gemvRow_run [CommRing K] [StarRing K] [DecidableEq K] {t : Trans} {conjX : Bool} {r c : Nat} {alpha beta : K}
    {A ld x incX y incY : Int} {m : Mem K} {Q : Nat → Nat → K} {xv yv : Nat → K}
    (hA : MatAt m A .rowMajor ld (full r c) Q) (hx : VecAt m x incX (if t.trans then r else c) xv)
    (hy : InitAt beta m y incY (if t.trans then c else r) yv) (hi : incY ≠ 0)
    (hdA : MatVecDisj A .rowMajor ld (full r c) y incY (if t.trans then c else r))
    (hdx : VecDisj x incX (if t.trans then r else c) y incY (if t.trans then c else r)) :
    gemvRow t conjX r c alpha A ld x incX beta y incY m =
      .ok ((), over m (elem y incY (if t.trans then c else r)) (fun i => beta * yv i +
        alpha * ∑ j ∈ range (if t.trans then r else c), opM t Q i j * cj conjX (xv j))
        (below (if t.trans then c else r))) := by
  obtain ⟨tc, tt⟩ := t
  cases tt
  · simp only [Bool.false_eq_true, if_false] at *
    simp only [gemvRow, if_true]
    refine mv_run hy hi fun i hin m' hm => ?_
    refine rowDot_run (fun j hj => ?_) fun j hj => ?_
    · rw [mul_one, add_assoc]
      exact hA.agree hm hdA i j ⟨hin, hj⟩
    · rw [start_elem]; exact hx.agree hm hdx j hj
  · simp only [if_true] at *
    simp only [gemvRow, Bool.true_eq_false, if_false]
    refine mv_run hy hi fun i hin m' hm => ?_
    refine rowDot_run (fun j hj => ?_) fun j hj => ?_
    · have := hA.agree hm hdA j i ⟨hj, hin⟩
      rw [if_pos rfl, ← this]; simp only [idx]; congr 1; ring
    · rw [start_elem]; exact hx.agree hm hdx j hj

theorem sum_split {α : Type} [AddCommMonoid α] {n i : Nat} (h : i ≤ n) (f : Nat → α) :
    ∑ k ∈ range n, f k = ∑ k ∈ range i, f k + ∑ k ∈ range (n - i), f (i + k) := by
  conv_lhs => rw [show n = i + (n - i) by omega]
  exact sum_range_add f i (n - i)

theorem sum_split_at {α : Type} [AddCommMonoid α] {n i : Nat} (h : i < n) (f : Nat → α) :
    ∑ k ∈ range n, f k = ∑ k ∈ range i, f k + (f i + ∑ k ∈ range (n - i - 1), f (i + 1 + k)) := by
  rw [sum_split (Nat.le_of_lt h), show n - i = n - i - 1 + 1 by omega, sum_range_succ']
  congr 1
  rw [add_comm]
  congr 1
  exact sum_congr (by simp) fun k _ => by congr 1; omega

/-- The product with the symmetric matrix given by one triangle, in row-major order. -/
theorem symvRow_run [CommRing K] [DecidableEq K] {u : UpLo} {n : Nat} {alpha beta : K}
    {A ld x incX y incY : Int} {m : Mem K} {Q : Nat → Nat → K} {xv yv : Nat → K}
    (hA : MatAt m A .rowMajor ld (tri u n) Q) (hx : VecAt m x incX n xv)
    (hy : InitAt beta m y incY n yv) (hi : incY ≠ 0) (hdA : MatVecDisj A .rowMajor ld (tri u n) y incY n)
    (hdx : VecDisj x incX n y incY n) :
    symv .rowMajor u n alpha A ld x incX beta y incY m =
      .ok ((), over m (elem y incY n) (fun i => beta * yv i + alpha * ∑ j ∈ range n, symM u Q i j * xv j) (below n)) := by
  have hinj := (elem_inj (x := y) (n := n) hi).injOn (s := below n)
  -- two passes, with the inner products `d1` and `d2`
  have two : ∀ (D1 D2 : Nat → M K K) (d1 d2 : Nat → K),
      (∀ i, i < n → ∀ m', AgreeOff (cells y incY n) m m' → D1 i m' = .ok (d1 i, m')) →
      (∀ i, i < n → ∀ m', AgreeOff (cells y incY n) m m' → D2 i m' = .ok (d2 i, m')) →
      (∀ i, i < n → d1 i + d2 i = ∑ j ∈ range n, symM u Q i j * xv j) →
      (do
        scalInitGeneric n beta (start n y incY) incY
        loop n fun i => addDot alpha (D1 i) (start n y incY + i * incY)
        loop n fun i => addDot alpha (D2 i) (start n y incY + i * incY) : M K Unit) m =
      .ok ((), over m (elem y incY n) (fun i => beta * yv i + alpha * ∑ j ∈ range n, symM u Q i j * xv j)
        (below n)) := by
    intro D1 D2 d1 d2 h1 h2 h3
    have e := mv_run (alpha := alpha) hy hi h1
    rw [bind2_ok e]
    simp only [start_elem]
    rw [accum_run (d := d2) (yv := fun i => beta * yv i + alpha * d1 i) hinj]
    · rw [over_same hinj]
      refine congrArg (fun z => Out.ok ((), z)) (over_congr hinj fun i hin => ?_)
      rw [← h3 i hin]; ring
    · intro i hin m' hm
      rw [image_elem] at hm
      exact h2 i hin m' (AgreeOff.trans (agreeOff_over (S := below n) fun j hj => ⟨j, hj, rfl⟩) hm)
    · intro i hin
      exact over_of_mem hinj hin
  cases u
  · refine two _ _ (fun i => ∑ k ∈ range (n - i), Q i (i + k) * xv (i + k)) (fun i => ∑ k ∈ range i, Q k i * xv k)
      (fun i hin m' hm => ?_) (fun i hin m' hm => ?_) fun i hin => ?_
    · refine dotuGeneric_run (fun k hk => ?_) fun k hk => ?_
      · rw [← hA.agree hm hdA i (i + k) ⟨hin, by omega, by simp⟩]
        simp only [idx]; congr 1; push_cast; ring
      · rw [← hx.agree hm hdx (i + k) (by omega), ← start_elem]
        congr 1; push_cast; ring
    · refine dotuGeneric_run (fun k hk => ?_) fun k hk => ?_
      · rw [← hA.agree hm hdA k i ⟨by omega, hin, by simp; omega⟩]
        simp only [idx]; congr 1; ring
      · rw [start_elem]; exact hx.agree hm hdx k (by omega)
    · rw [sum_split (Nat.le_of_lt hin), add_comm]
      congr 1
      · refine sum_congr rfl fun k hk => ?_
        rw [mem_range] at hk
        simp [symM, show ¬ i ≤ k by omega]
      · refine sum_congr rfl fun k hk => ?_
        simp [symM]
  · refine two _ _ (fun i => ∑ k ∈ range i, Q i k * xv k) (fun i => ∑ k ∈ range (n - i), Q (i + k) i * xv (i + k))
      (fun i hin m' hm => ?_) (fun i hin m' hm => ?_) fun i hin => ?_
    · refine dotuGeneric_run (fun k hk => ?_) fun k hk => ?_
      · rw [← hA.agree hm hdA i k ⟨hin, by omega, by simp; omega⟩]
        simp only [idx]; congr 1; push_cast; ring
      · rw [start_elem]; exact hx.agree hm hdx k (by omega)
    · refine dotuGeneric_run (fun k hk => ?_) fun k hk => ?_
      · rw [← hA.agree hm hdA (i + k) i ⟨by omega, hin, by simp⟩]
        simp only [idx]; congr 1; push_cast; ring
      · rw [← hx.agree hm hdx (i + k) (by omega), ← start_elem]
        congr 1; push_cast; ring
    · rw [sum_split (Nat.le_of_lt hin)]
      congr 1
      · refine sum_congr rfl fun k hk => ?_
        rw [mem_range] at hk
        simp [symM, show k ≤ i by omega]
      · refine sum_congr rfl fun k hk => ?_
        by_cases h0 : k = 0
        · subst h0; simp [symM]
        · simp [symM, h0]

/-! ### Changing some cells of an update -/

theorem over_patch {ι κ : Type} {m : Mem K} {ad : ι → Int} {v w : ι → K} {T : Set ι} {ad' : κ → Int} {v' : κ → K}
    {S' : Set κ} (hinj : Set.InjOn ad T) (f : κ → ι) (had : ∀ k, k ∈ S' → ad' k = ad (f k)) (hf : ∀ k, k ∈ S' → f k ∈ T)
    (hinj' : Set.InjOn ad' S') (hw1 : ∀ k, k ∈ S' → w (f k) = v' k)
    (hw2 : ∀ i, i ∈ T → (∀ k, k ∈ S' → f k ≠ i) → w i = v i) :
    over (over m ad v T) ad' v' S' = over m ad w T := by
  refine over_unique hinj (fun i hi => ?_) fun a ha => ?_
  · by_cases h : ∃ k, k ∈ S' ∧ f k = i
    · obtain ⟨k, hk, rfl⟩ := h
      rw [← had k hk, over_of_mem hinj' hk, hw1 k hk]
    · push Not at h
      rw [over_of_not_mem, over_of_mem hinj hi, hw2 i hi h]
      intro k hk e
      rw [had k hk] at e
      exact h k hk (hinj (hf k hk) hi e)
  · rw [over_of_not_mem, over_of_not_mem ha]
    intro k hk
    rw [had k hk]
    exact ha _ (hf k hk)

theorem set_patch {ι : Type} [DecidableEq ι] {m : Mem K} {ad : ι → Int} {v : ι → K} {T : Set ι}
    (hinj : Set.InjOn ad T) {k : ι} (hk : k ∈ T) (z : K) :
    set (over m ad v T) (ad k) z = over m ad (Function.update v k z) T := by
  refine over_unique hinj (fun i hi => ?_) fun a ha => ?_
  · by_cases h : i = k
    · subst h; simp
    · rw [Function.update_of_ne h, set_ne, over_of_mem hinj hi]
      exact fun e => h (hinj hi hk e)
  · rw [set_ne _ _ (fun e => ha k hk e.symm), over_of_not_mem ha]

/-- The effect of `axpy_generic` and `acxpy_generic`. -/
theorem axpyC_run [Mul K] [Add K] [Star K] {c : Bool} {n : Nat} {alpha : K} {x incX y incY : Int} {m : Mem K}
    {xv yv : Nat → K} (hx : ∀ i, i < n → m (x + i * incX) = .val (xv i))
    (hy : ∀ i, i < n → m (y + i * incY) = .val (yv i)) (hi : incY ≠ 0)
    (hs : ∀ i j, i < n → j < i → x + i * incX ≠ y + j * incY) :
    axpyC c n alpha x incX y incY m =
      .ok ((), over m (fun i : Nat => y + i * incY) (fun i => yv i + alpha * cj c (xv i)) (below n)) := by
  have hinj : Set.InjOn (fun i : Nat => y + i * incY) (below n) := by
    intro i _ j _ e
    have : (i : Int) * incY = j * incY := by simpa using e
    exact_mod_cast mul_right_cancel₀ hi this
  have key : ∀ g : K → K, loop n (fun i => do
      let v ← load (x + i * incX)
      let w ← load (y + i * incY)
      store (y + i * incY) (w + alpha * g v)) m =
      .ok ((), over m (fun i : Nat => y + i * incY) (fun i => yv i + alpha * g (xv i)) (below n)) := by
    intro g
    refine loop_over hinj _ _ fun i hin => ?_
    have h1 : over m (fun i : Nat => y + i * incY) (fun i => yv i + alpha * g (xv i)) (below i) (x + i * incX) =
        .val (xv i) := by
      exact (over_of_not_mem (S := below i) fun j hj e => hs i j hin hj e.symm).trans (hx i hin)
    have h2 : over m (fun i : Nat => y + i * incY) (fun i => yv i + alpha * g (xv i)) (below i) (y + i * incY) =
        .val (yv i) := by
      refine (over_of_not_mem (S := below i) fun j hj e => ?_).trans (hy i hin)
      have hj' : j < i := hj
      have := hinj (show j ∈ below n from Nat.lt_trans hj' hin) (show i ∈ below n from hin) e
      omega
    rw [bind_ok (load_ok h1), bind_ok (load_ok h2), store_ok (by rw [h2]; simp)]
  cases c
  · exact key id
  · exact key star

/-! ### Hermitian products -/

theorem hemvRow_run [CommRing K] [StarRing K] [DecidableEq K] {re : K → K} {u : UpLo} {c : Bool} {n : Nat}
    {alpha beta : K} {A ld x incX y incY : Int} {m : Mem K} {Q : Nat → Nat → K} {xv yv : Nat → K}
    (hA : MatAt m A .rowMajor ld (tri u n) Q) (hx : VecAt m x incX n xv)
    (hy : InitAt beta m y incY n yv) (hi : incY ≠ 0) (hdA : MatVecDisj A .rowMajor ld (tri u n) y incY n)
    (hdx : VecDisj x incX n y incY n) :
    (do
      scalInitGeneric n beta (start n y incY) incY
      loop n (hemvBody re u c n alpha A ld (start n x incX) incX (start n y incY) incY) : M K Unit) m =
      .ok ((), over m (elem y incY n) (fun i => beta * yv i + alpha * ∑ j ∈ range n,
        (if i = j then re (Q i i) else cj c (herM re u Q i j)) * xv j) (below n)) := by
  have hinj := (elem_inj (x := y) (n := n) hi).injOn (s := below n)
  -- the contribution of pass `p` to element `i`
  obtain ⟨q, hq⟩ : ∃ q : Nat → Nat → K, q = fun p i =>
      if i = p then re (Q p p) * xv p + (if u = .upper then ∑ k ∈ range (n - p - 1), cj c (Q p (p + 1 + k)) * xv (p + 1 + k)
        else ∑ k ∈ range p, cj c (Q p k) * xv k)
      else if (if u = .upper then p < i else i < p) then cj (!c) (Q p i) * xv p else 0 := ⟨_, rfl⟩
  have cc : ∀ (b : Bool) (z : K), cj (!b) z = cj b (star z) := by
    intro b z; cases b <;> simp [cj]
  have hsum : ∀ i, i < n → ∑ p ∈ range n, q p i =
      ∑ j ∈ range n, (if i = j then re (Q i i) else cj c (herM re u Q i j)) * xv j := by
    intro i hin
    rw [sum_split_at hin, sum_split_at hin (f := fun j => _)]
    cases u
    · have e1 : ∑ k ∈ range i, q k i =
          ∑ k ∈ range i, (if i = k then re (Q i i) else cj c (herM re .upper Q i k)) * xv k := by
        refine sum_congr rfl fun k hk => ?_
        rw [mem_range] at hk
        simp only [hq, reduceCtorEq, if_true, if_false, if_neg (show ¬ i = k by omega), if_pos hk, herM, if_neg (show ¬ i < k by omega), cc]
      have e2 : ∑ k ∈ range (n - i - 1), q (i + 1 + k) i = 0 := by
        refine sum_eq_zero fun k hk => ?_
        simp only [hq, reduceCtorEq, if_true, if_false, if_neg (show ¬ i = i + 1 + k by omega), if_neg (show ¬ i + 1 + k < i by omega)]
      have e3 : q i i = re (Q i i) * xv i + ∑ k ∈ range (n - i - 1), cj c (Q i (i + 1 + k)) * xv (i + 1 + k) := by
        simp only [hq, reduceCtorEq, if_true, if_false, if_true]
      rw [e1, e2, e3, add_zero]
      simp only [if_true]
      congr 2
      refine sum_congr rfl fun k hk => ?_
      simp only [if_neg (show ¬ i = i + 1 + k by omega), herM, if_pos (show i < i + 1 + k by omega)]
    · have e1 : ∑ k ∈ range i, q k i = 0 := by
        refine sum_eq_zero fun k hk => ?_
        rw [mem_range] at hk
        simp only [hq, reduceCtorEq, if_true, if_false, if_neg (show ¬ i = k by omega), if_neg (show ¬ i < k by omega)]
      have e2 : ∑ k ∈ range (n - i - 1), q (i + 1 + k) i = ∑ k ∈ range (n - i - 1),
          (if i = i + 1 + k then re (Q i i) else cj c (herM re .lower Q i (i + 1 + k))) * xv (i + 1 + k) := by
        refine sum_congr rfl fun k hk => ?_
        simp only [hq, reduceCtorEq, if_true, if_false, if_neg (show ¬ i = i + 1 + k by omega), if_pos (show i < i + 1 + k by omega), herM,
          if_neg (show ¬ i + 1 + k < i by omega), cc]
      have e3 : q i i = re (Q i i) * xv i + ∑ k ∈ range i, cj c (Q i k) * xv k := by
        simp only [hq, reduceCtorEq, if_true, if_false, if_true]
      have e4 : ∑ k ∈ range i, cj c (Q i k) * xv k =
          ∑ k ∈ range i, (if i = k then re (Q i i) else cj c (herM re .lower Q i k)) * xv k := by
        refine sum_congr rfl fun k hk => ?_
        rw [mem_range] at hk
        simp only [if_neg (show ¬ i = k by omega), herM, if_pos hk]
      rw [e1, e2, e3, e4, zero_add]
      simp only [if_true]
      ring
  rw [bind_ok (show scalInitGeneric n beta (start n y incY) incY m = _ from scalInit_run hy hi)]
  have tr := loop_trace (hemvBody re u c n alpha A ld (start n x incX) incX (start n y incY) incY)
    (fun k => over m (elem y incY n) (fun i => yv i * beta + alpha * ∑ p ∈ range k, q p i) (below n)) n fun p hp => by
      generalize hw : (fun i => yv i * beta + alpha * ∑ p ∈ range p, q p i) = w
      have hag : ∀ w : Nat → K, AgreeOff (cells y incY n) m (over m (elem y incY n) w (below n)) :=
        fun w => agreeOff_over (S := below n) fun j hj => ⟨j, hj, rfl⟩
      have hx' := fun w => hx.agree (hag w) hdx
      have hA' := fun w => hA.agree (hag w) hdA
      have hdiag : ∀ w : Nat → K, over m (elem y incY n) w (below n) (A + p * ld + p) = .val (Q p p) := by
        intro w
        rw [← hA' w p p ⟨hp, hp, by cases u <;> simp⟩]
        simp only [idx]; congr 1; ring
      have hyp : ∀ w : Nat → K, ∀ i, i < n → over m (elem y incY n) w (below n) (elem y incY n i) = .val (w i) :=
        fun w i hi' => over_of_mem hinj hi'
      -- the diagonal term
      have s1 : ∀ w : Nat → K, hemvDiag re alpha (A + p * ld + p) (elem x incX n p) (elem y incY n p)
          (over m (elem y incY n) w (below n)) = .ok ((), over m (elem y incY n)
            (Function.update w p (w p + alpha * re (Q p p) * xv p)) (below n)) := by
        intro w
        unfold hemvDiag
        rw [bind_ok (load_ok (hdiag w)), bind_ok (load_ok (hx' w p hp)), bind_ok (load_ok (hyp w p hp)),
          store_ok (by rw [hyp w p hp]; simp), set_patch hinj (show p ∈ below n from hp)]
      -- the inner product
      have s2 : ∀ (w : Nat → K) (D : M K K) (d : K),
          D (over m (elem y incY n) w (below n)) = .ok (d, over m (elem y incY n) w (below n)) →
          addDot alpha D (elem y incY n p) (over m (elem y incY n) w (below n)) =
            .ok ((), over m (elem y incY n) (Function.update w p (w p + alpha * d)) (below n)) := by
        intro w D d hD
        unfold addDot
        rw [bind_ok hD, bind_ok (load_ok (hyp w p hp)), store_ok (by rw [hyp w p hp]; simp),
          set_patch hinj (show p ∈ below n from hp)]
      have hcell : ∀ k : Nat, start n y incY + (p : Int) * incY + incY + (k : Int) * incY =
          elem y incY n (p + 1 + k) := by
        intro k; rw [← start_elem]; push_cast; ring
      have hcx : ∀ k : Nat, start n x incX + (p : Int) * incX + incX + (k : Int) * incX =
          elem x incX n (p + 1 + k) := by
        intro k; rw [← start_elem]; push_cast; ring
      cases u
      · have s3 : ∀ w : Nat → K, axpyAt (!c) (n - p - 1) alpha (elem x incX n p) (A + p * ld + p + 1) 1
            (start n y incY + p * incY + incY) incY (over m (elem y incY n) w (below n)) =
            .ok ((), over m (elem y incY n)
              (fun i => if p < i then w i + alpha * xv p * cj (!c) (Q p i) else w i) (below n)) := by
          intro w
          unfold axpyAt
          rw [bind_ok (load_ok (hx' w p hp)), axpyC_run (xv := fun k => Q p (p + 1 + k)) (yv := fun k => w (p + 1 + k))]
          · refine congrArg (fun z => Out.ok ((), z)) (over_patch hinj (fun k => p + 1 + k) (fun k _ => hcell k) ?_ ?_ ?_ ?_)
            · intro k hk; have : k < n - p - 1 := hk; show p + 1 + k < n; omega
            · intro i hi' j hj' e
              simp only [hcell] at e
              have := elem_inj hi e; omega
            · intro k hk; rw [if_pos (by omega)]
            · intro i hin hne
              rw [if_neg]
              intro hlt
              exact hne (i - p - 1) (show i - p - 1 < n - p - 1 by have : i < n := hin; omega) (by omega)
          · intro k hk
            rw [← hA' w p (p + 1 + k) ⟨hp, by omega, by simp; omega⟩]
            simp only [idx]; congr 1; push_cast; ring
          · intro k hk
            rw [hcell]; exact hyp w _ (by omega)
          · exact hi
          · intro i j hi' hj' e
            rw [hcell] at e
            refine hdA p (p + 1 + i) (p + 1 + j) ⟨hp, by omega, by simp; omega⟩ (by omega) ?_
            rw [← e]; simp only [idx]; push_cast; ring
        simp only [hemvBody, start_elem]
        rw [bind_ok (s1 w), bind_ok (s2 _ _ _ (dotC_run (xv := fun k => Q p (p + 1 + k)) (yv := fun k => xv (p + 1 + k))
          (fun k hk => ?_) fun k hk => ?_))]
        · have : elem y incY n p + incY = start n y incY + p * incY + incY := by rw [start_elem]
          rw [this, s3]
          refine congrArg (fun z => Out.ok ((), z)) (over_congr hinj fun i hin => ?_)
          have hwi : yv i * beta + alpha * ∑ x ∈ range (p + 1), q x i = w i + alpha * q p i := by
            rw [← hw, sum_range_succ]; ring
          rw [hwi]
          simp only [hq, reduceCtorEq, if_true, if_false]
          by_cases hip : i = p
          · subst hip
            simp only [lt_irrefl, if_false, if_true, Function.update_self]
            ring
          · by_cases hlt : p < i
            · simp only [hlt, if_true, if_neg hip, Function.update_of_ne hip]
              ring
            · simp only [hlt, if_false, if_neg hip, Function.update_of_ne hip]
              ring
        · rw [← hA' _ p (p + 1 + k) ⟨hp, by omega, by simp; omega⟩]
          simp only [idx]; congr 1; push_cast; ring
        · rw [← hx' _ (p + 1 + k) (by omega), ← hcx, start_elem]
      · have s3 : ∀ w : Nat → K, axpyAt (!c) p alpha (elem x incX n p) (A + p * ld) 1
            (start n y incY) incY (over m (elem y incY n) w (below n)) =
            .ok ((), over m (elem y incY n)
              (fun i => if i < p then w i + alpha * xv p * cj (!c) (Q p i) else w i) (below n)) := by
          intro w
          unfold axpyAt
          rw [bind_ok (load_ok (hx' w p hp)), axpyC_run (xv := fun k => Q p k) (yv := fun k => w k)]
          · refine congrArg (fun z => Out.ok ((), z)) (over_patch hinj (fun k => k) (fun k _ => start_elem _ _ _ _) ?_ ?_ ?_ ?_)
            · intro k hk; have : k < p := hk; show k < n; omega
            · intro i hi' j hj' e
              simp only [start_elem] at e
              exact elem_inj hi e
            · intro k hk; rw [if_pos (show k < p from hk)]
            · intro i hin hne
              rw [if_neg]
              intro hlt
              exact hne i hlt rfl
          · intro k hk
            rw [← hA' w p k ⟨hp, by omega, by simp; omega⟩]
            simp only [idx]; congr 1; push_cast; ring
          · intro k hk
            rw [start_elem]; exact hyp w _ (by omega)
          · exact hi
          · intro i j hi' hj' e
            rw [start_elem] at e
            refine hdA p i j ⟨hp, by omega, by simp; omega⟩ (by omega) ?_
            rw [← e]; simp only [idx]; push_cast; ring
        simp only [hemvBody, start_elem]
        rw [bind_ok (s1 w), bind_ok (s2 _ _ _ (dotC_run (xv := fun k => Q p k) (yv := fun k => xv k)
          (fun k hk => ?_) fun k hk => ?_))]
        · rw [s3]
          refine congrArg (fun z => Out.ok ((), z)) (over_congr hinj fun i hin => ?_)
          have hwi : yv i * beta + alpha * ∑ x ∈ range (p + 1), q x i = w i + alpha * q p i := by
            rw [← hw, sum_range_succ]; ring
          rw [hwi]
          simp only [hq, reduceCtorEq, if_true, if_false]
          by_cases hip : i = p
          · subst hip
            simp only [lt_irrefl, if_false, if_true, Function.update_self]
            ring
          · by_cases hlt : i < p
            · simp only [hlt, if_true, if_neg hip, Function.update_of_ne hip]
              ring
            · simp only [hlt, if_false, if_neg hip, Function.update_of_ne hip]
              ring
        · rw [← hA' _ p k ⟨hp, by omega, by simp; omega⟩]
          simp only [idx]; congr 1; push_cast; ring
        · rw [start_elem]; exact hx' _ k (by omega)
  simp only [range_zero, sum_empty, mul_zero, add_zero] at tr
  rw [tr]
  refine congrArg (fun z => Out.ok ((), z)) (over_congr hinj fun i hin => ?_)
  rw [hsum i hin]; ring

end Verif.Blas
