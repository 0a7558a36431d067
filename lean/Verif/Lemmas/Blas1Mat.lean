import Verif.Model.Blas1Mat
import Verif.Lemmas.Blas3
import Verif.Spec.Blas1Mat

/-! Lemmas: loops whose passes rewrite disjoint parts of a matrix. -/

namespace Verif.Blas

variable {K : Type}

/-- A loop whose pass `l` writes `v` to the cells `ad i` for `i` in `S l`, whatever the earlier passes have written. -/
theorem passes_run {ι : Type} {c : Nat} {f : Nat → M K Unit} {m : Mem K} (ad : ι → Int) (v : ι → K) (S : Nat → ι → Prop)
    (hinj : ∀ l l' i i', l < c → l' < c → S l i → S l' i' → ad i = ad i' → l = l' ∧ i = i')
    (hf : ∀ l, l < c → ∀ m', (∀ a, (∀ l' i, l' < l → S l' i → a ≠ ad i) → m' a = m a) →
      ∃ m'', f l m' = .ok ((), m'') ∧ (∀ i, S l i → m'' (ad i) = .val (v i)) ∧ ∀ a, (∀ i, S l i → a ≠ ad i) → m'' a = m' a) :
    ∃ m', loop c f m = .ok ((), m') ∧ (∀ l i, l < c → S l i → m' (ad i) = .val (v i)) ∧
      ∀ a, (∀ l i, l < c → S l i → a ≠ ad i) → m' a = m a := by
  induction c with
  | zero => exact ⟨m, rfl, fun l i hl => absurd hl (Nat.not_lt_zero l), fun _ _ => rfl⟩
  | succ c ih =>
    obtain ⟨m', h1, h2, h3⟩ := ih (fun l l' i i' hl hl' => hinj l l' i i' (by omega) (by omega)) fun l hl => hf l (by omega)
    obtain ⟨m'', g1, g2, g3⟩ := hf c (by omega) m' h3
    refine ⟨m'', (loop_succ h1).trans g1, fun l i hl hS => ?_, fun a ha => ?_⟩
    · rcases Nat.lt_or_ge l c with h | h
      · refine (g3 _ fun i' hS' e => ?_).trans (h2 l i h hS)
        have := (hinj l c i i' hl (by omega) hS hS' e).1
        omega
      · have : l = c := by omega
        subst this
        exact g2 i hS
    · exact (g3 a fun i hS => ha c i (by omega) hS).trans (h3 a fun l i hl hS => ha l i (by omega) hS)

/-- `op` replaces every element `w` of the second vector by `g w v` with the element `v` of the first; the old elements have to be
initialised only if `need`. -/
def Acts (op : VecOp K) (g : K → K → K) (need : Prop) : Prop :=
  ∀ (m : Mem K) (n : Nat) (x incX y incY : Int) (xv yv : Nat → K), VecAt m x incX n xv → VecMem m y incY n →
    (need → VecAt m y incY n yv) → incY ≠ 0 → VecDisj x incX n y incY n →
    Yields (op n x incX y incY) m y incY n fun i => g (yv i) (xv i)

theorem acts_copy : Acts (K := K) copy (fun _ v => v) False := fun _ _ _ _ _ _ _ _ hx hy _ hi hd => C71_copy hx hy hi hd.safe

theorem acts_ccopy [Star K] : Acts (K := K) ccopy (fun _ v => star v) False :=
  fun _ _ _ _ _ _ _ _ hx hy _ hi hd => C71_ccopy hx hy hi hd.safe

theorem acts_axpy [Mul K] [Add K] (alpha : K) : Acts (fun n => axpy n alpha) (fun w v => w + alpha * v) True :=
  fun _ _ _ _ _ _ _ _ hx _ hy hi hd => C71_axpy hx (hy trivial) hi hd.safe

theorem acts_acxpy [Mul K] [Add K] [Star K] (alpha : K) : Acts (fun n => acxpy n alpha) (fun w v => w + alpha * star v) True :=
  fun _ _ _ _ _ _ _ _ hx _ hy hi hd => C71_acxpy hx (hy trivial) hi hd.safe

theorem acts_raxpy [Div K] [Add K] (alpha : K) : Acts (fun n => raxpy n alpha) (fun w v => w + v / alpha) True :=
  fun _ _ _ _ _ _ _ _ hx _ hy hi hd => yields_of_over hi (raxpy_run hx (hy trivial) hi hd.safe)

theorem acts_axpby [CommRing K] [Star K] [DecidableEq K] (alpha beta : K) :
    Acts (fun n x incX => axpby n alpha x incX beta) (fun w v => beta * w + alpha * v) (beta ≠ 0) :=
  fun _ _ _ _ _ _ _ _ hx hm hy hi hd => (C71_axpby hx hm hy hi hd).1

theorem acts_acxpby [CommRing K] [Star K] [DecidableEq K] (alpha beta : K) :
    Acts (fun n x incX => acxpby n alpha x incX beta) (fun w v => beta * w + alpha * star v) (beta ≠ 0) :=
  fun _ _ _ _ _ _ _ _ hx hm hy hi hd => (C71_axpby hx hm hy hi hd).2

/-- An operation and its conjugated version, as one. -/
theorem Acts.ite [Star K] {op cop : VecOp K} {g : K → K → K} {need : Prop} (h1 : Acts op g need)
    (h2 : Acts cop (fun w v => g w (star v)) need) (c : Bool) : Acts (if c then cop else op) (fun w v => g w (cj c v)) need := by
  cases c
  · exact h1
  · exact h2

/-- A loop whose pass `l` rewrites a vector of elements of the matrix; `pi l k`, `pj l k` is the position of its element `k`. -/
theorem upd_run {c : Nat} {f : Nat → M K Unit} {len : Nat → Nat} {y iy : Nat → Int} {ad : Nat → Nat → Int}
    {P : Nat → Nat → Prop} {V : Nat → Nat → K} {m : Mem K} (pi pj : Nat → Nat → Nat)
    (hP : ∀ l k, l < c → k < len l → P (pi l k) (pj l k))
    (hy : ∀ l k, l < c → k < len l → elem (y l) (iy l) (len l) k = ad (pi l k) (pj l k))
    (hcov : ∀ i j, P i j → ∃ l k, l < c ∧ k < len l ∧ pi l k = i ∧ pj l k = j)
    (hone : ∀ l k l' k', l < c → k < len l → l' < c → k' < len l' → pi l k = pi l' k' → pj l k = pj l' k' → l = l')
    (hinj : ∀ i j k l, P i j → P k l → ad i j = ad k l → i = k ∧ j = l)
    (hf : ∀ l, l < c → ∀ m', (∀ a, (∀ i j, P i j → a ≠ ad i j) → m' a = m a) →
      (∀ k, k < len l → m' (ad (pi l k) (pj l k)) = m (ad (pi l k) (pj l k))) →
      Yields (f l) m' (y l) (iy l) (len l) fun k => V (pi l k) (pj l k)) :
    YieldsSt (loop c f) m ad P V := by
  obtain ⟨m', h1, h2, h3⟩ := passes_run (c := c) (f := f) (m := m)
    (fun p : Nat × Nat => ad p.1 p.2) (fun p => V p.1 p.2)
    (fun l p => ∃ k, k < len l ∧ pi l k = p.1 ∧ pj l k = p.2)
    (by
      rintro l l' ⟨i, j⟩ ⟨i', j'⟩ hl hl' ⟨k, hk, e1, e2⟩ ⟨k', hk', e1', e2'⟩ e
      simp only at e e1 e2 e1' e2'
      subst e1 e2 e1' e2'
      obtain ⟨q1, q2⟩ := hinj _ _ _ _ (hP l k hl hk) (hP l' k' hl' hk') e
      exact ⟨hone l k l' k' hl hk hl' hk' q1 q2, Prod.ext q1 q2⟩)
    (by
      intro l hl m' hm'
      have keep : ∀ k, k < len l → m' (ad (pi l k) (pj l k)) = m (ad (pi l k) (pj l k)) := by
        intro k hk
        refine hm' _ ?_
        rintro l' ⟨i, j⟩ hl' ⟨k', hk', e1, e2⟩ e
        simp only at e e1 e2
        subst e1 e2
        obtain ⟨q1, q2⟩ := hinj _ _ _ _ (hP l k hl hk) (hP l' k' (by omega) hk') e
        have := hone l k l' k' hl hk (by omega) hk' q1 q2
        omega
      have rest : ∀ a, (∀ i j, P i j → a ≠ ad i j) → m' a = m a := by
        intro a ha
        refine hm' a ?_
        rintro l' ⟨i, j⟩ hl' ⟨k', hk', e1, e2⟩
        simp only at e1 e2 ⊢
        subst e1 e2
        exact ha _ _ (hP l' k' (by omega) hk')
      obtain ⟨m'', g1, g2, g3⟩ := hf l hl m' rest keep
      refine ⟨m'', g1, ?_, fun a ha => g3 a fun k hk e => ?_⟩
      · rintro ⟨i, j⟩ ⟨k, hk, e1, e2⟩
        simp only at e1 e2 ⊢
        subst e1 e2
        have := g2 k hk
        rwa [hy l k hl hk] at this
      · rw [hy l k hl hk] at e
        exact ha (pi l k, pj l k) ⟨k, hk, rfl, rfl⟩ e)
  refine ⟨m', h1, fun i j hp => ?_, fun a ha => h3 a ?_⟩
  · obtain ⟨l, k, hl, hk, e1, e2⟩ := hcov i j hp
    exact h2 l (i, j) hl ⟨k, hk, e1, e2⟩
  · rintro l ⟨i, j⟩ hl ⟨k, hk, e1, e2⟩
    simp only at e1 e2 ⊢
    subst e1 e2
    exact ha _ _ (hP l k hl hk)

/-- A loop of operations with the elements of another matrix. -/
theorem act_run {op : VecOp K} {g : K → K → K} {need : Prop} (hop : Acts op g need) {c : Nat} {len : Nat → Nat}
    {x ix y iy : Nat → Int} {ad adA : Nat → Nat → Int} {P : Nat → Nat → Prop} {QA QB : Nat → Nat → K} {m : Mem K}
    (pi pj : Nat → Nat → Nat)
    (hP : ∀ l k, l < c → k < len l → P (pi l k) (pj l k))
    (hy : ∀ l k, l < c → k < len l → elem (y l) (iy l) (len l) k = ad (pi l k) (pj l k))
    (hx : ∀ l k, l < c → k < len l → elem (x l) (ix l) (len l) k = adA (pi l k) (pj l k))
    (hcov : ∀ i j, P i j → ∃ l k, l < c ∧ k < len l ∧ pi l k = i ∧ pj l k = j)
    (hone : ∀ l k l' k', l < c → k < len l → l' < c → k' < len l' → pi l k = pi l' k' → pj l k = pj l' k' → l = l')
    (hinj : ∀ i j k l, P i j → P k l → ad i j = ad k l → i = k ∧ j = l)
    (hiy : ∀ l, l < c → iy l ≠ 0) (hA : StAt m adA P QA) (hd : StDisj adA P ad P)
    (hB : ∀ i j, P i j → m (ad i j) ≠ .out) (hb : need → StAt m ad P QB) :
    YieldsSt (loop c fun l => op (len l) (x l) (ix l) (y l) (iy l)) m ad P fun i j => g (QB i j) (QA i j) := by
  refine upd_run pi pj hP hy hcov hone hinj fun l hl m' rest keep => ?_
  exact hop m' (len l) (x l) (ix l) (y l) (iy l) (fun k => QA (pi l k) (pj l k))
    (fun k => QB (pi l k) (pj l k))
    (fun k hk => by rw [hx l k hl hk]; exact (rest _ fun i j hp => hd _ _ _ _ (hP l k hl hk) hp).trans (hA _ _ (hP l k hl hk)))
    (fun k hk => by rw [hy l k hl hk, keep k hk]; exact hB _ _ (hP l k hl hk))
    (fun hn k hk => by rw [hy l k hl hk, keep k hk]; exact hb hn _ _ (hP l k hl hk)) (hiy l hl)
    (fun k k' hk hk' => by rw [hx l k hl hk, hy l k' hl hk']; exact hd _ _ _ _ (hP l k hl hk) (hP l k' hl hk'))

/-- A loop of multiplications by a number. -/
theorem scal_loop [CommRing K] {alpha : K} {c : Nat} {len : Nat → Nat} {y iy : Nat → Int} {ad : Nat → Nat → Int}
    {P : Nat → Nat → Prop} {Q : Nat → Nat → K} {m : Mem K} (pi pj : Nat → Nat → Nat)
    (hP : ∀ l k, l < c → k < len l → P (pi l k) (pj l k))
    (hy : ∀ l k, l < c → k < len l → elem (y l) (iy l) (len l) k = ad (pi l k) (pj l k))
    (hcov : ∀ i j, P i j → ∃ l k, l < c ∧ k < len l ∧ pi l k = i ∧ pj l k = j)
    (hone : ∀ l k l' k', l < c → k < len l → l' < c → k' < len l' → pi l k = pi l' k' → pj l k = pj l' k' → l = l')
    (hinj : ∀ i j k l, P i j → P k l → ad i j = ad k l → i = k ∧ j = l)
    (hiy : ∀ l, l < c → iy l ≠ 0) (hA : StAt m ad P Q) :
    YieldsSt (loop c fun l => scal (len l) alpha (y l) (iy l)) m ad P fun i j => alpha * Q i j := by
  refine upd_run pi pj hP hy hcov hone hinj fun l hl m' rest keep => ?_
  exact yields_scal (yv := fun k => Q (pi l k) (pj l k))
    (fun k hk => by rw [hy l k hl hk, keep k hk]; exact hA _ _ (hP l k hl hk)) (hiy l hl)

/-- A part of a matrix as a matrix with its own positions. -/
theorem YieldsSt.shift {c : M K Unit} {m : Mem K} {ad : Nat → Nat → Int} {P P' : Nat → Nat → Prop} {V : Nat → Nat → K}
    (a b : Nat) (h : YieldsSt c m (fun i j => ad (i + a) (j + b)) P' fun i j => V (i + a) (j + b))
    (hp : ∀ i j, P i j ↔ a ≤ i ∧ b ≤ j ∧ P' (i - a) (j - b)) : YieldsSt c m ad P V := by
  obtain ⟨m', h1, h2, h3⟩ := h
  refine ⟨m', h1, fun i j hq => ?_, fun x hx => h3 x fun i j hq => hx _ _ ((hp _ _).2 ?_)⟩
  · obtain ⟨q1, q2, q3⟩ := (hp i j).1 hq
    have := h2 _ _ q3
    simp only at this
    rwa [Nat.sub_add_cancel q1, Nat.sub_add_cancel q2] at this
  · simpa using hq

theorem loop_one (f : Nat → M K Unit) (m : Mem K) : loop 1 f m = f 0 m := loop_succ (loop_zero f m)

theorem YieldsSt.one {c : M K Unit} {m : Mem K} {ad : Nat → Nat → Int} {P : Nat → Nat → Prop} {V : Nat → Nat → K}
    (h : YieldsSt (loop 1 fun _ => c) m ad P V) : YieldsSt c m ad P V := by
  obtain ⟨m', h1, h2⟩ := h
  exact ⟨m', (loop_one _ m).symm.trans h1, h2⟩

theorem YieldsSt.posCongr {c : M K Unit} {m : Mem K} {ad : Nat → Nat → Int} {P P' : Nat → Nat → Prop} {V : Nat → Nat → K}
    (h : YieldsSt c m ad P V) (e : ∀ i j, P i j ↔ P' i j) : YieldsSt c m ad P' V := by
  obtain ⟨m', h1, h2, h3⟩ := h
  exact ⟨m', h1, fun i j hp => h2 i j ((e i j).2 hp), fun a ha => h3 a fun i j hp => ha i j ((e i j).1 hp)⟩

/-- Two matrices are exchanged, in a loop of exchanges of vectors. -/
def Swaps (c : M K Unit) (m : Mem K) (ad ad' : Nat → Nat → Int) (P : Nat → Nat → Prop) (Q Q' : Nat → Nat → K) : Prop :=
  ∃ m', c m = .ok ((), m') ∧ StAt m' ad P Q' ∧ StAt m' ad' P Q ∧ ∀ a, (∀ i j, P i j → a ≠ ad i j ∧ a ≠ ad' i j) → m' a = m a

theorem swap_loop {c : Nat} {len : Nat → Nat} {x ix y iy : Nat → Int} {ad ad' : Nat → Nat → Int} {P : Nat → Nat → Prop}
    {Q Q' : Nat → Nat → K} {m : Mem K} (pi pj : Nat → Nat → Nat)
    (hP : ∀ l k, l < c → k < len l → P (pi l k) (pj l k))
    (hx : ∀ l k, l < c → k < len l → elem (x l) (ix l) (len l) k = ad (pi l k) (pj l k))
    (hy : ∀ l k, l < c → k < len l → elem (y l) (iy l) (len l) k = ad' (pi l k) (pj l k))
    (hcov : ∀ i j, P i j → ∃ l k, l < c ∧ k < len l ∧ pi l k = i ∧ pj l k = j)
    (hone : ∀ l k l' k', l < c → k < len l → l' < c → k' < len l' → pi l k = pi l' k' → pj l k = pj l' k' → l = l')
    (hinj : ∀ i j k l, P i j → P k l → ad i j = ad k l → i = k ∧ j = l)
    (hinj' : ∀ i j k l, P i j → P k l → ad' i j = ad' k l → i = k ∧ j = l)
    (hix : ∀ l, l < c → ix l ≠ 0) (hiy : ∀ l, l < c → iy l ≠ 0)
    (hA : StAt m ad P Q) (hB : StAt m ad' P Q') (hd : StDisj ad P ad' P) :
    Swaps (loop c fun l => swap (len l) (x l) (ix l) (y l) (iy l)) m ad ad' P Q Q' := by
  have hd' : ∀ i j k l, P i j → P k l → ad' i j ≠ ad k l := fun i j k l h1 h2 e => hd k l i j h2 h1 e.symm
  obtain ⟨m', h1, h2, h3⟩ := passes_run (c := c) (f := fun l => swap (len l) (x l) (ix l) (y l) (iy l)) (m := m)
    (fun p : Bool × Nat × Nat => if p.1 then ad' p.2.1 p.2.2 else ad p.2.1 p.2.2)
    (fun p => if p.1 then Q p.2.1 p.2.2 else Q' p.2.1 p.2.2)
    (fun l p => ∃ k, k < len l ∧ pi l k = p.2.1 ∧ pj l k = p.2.2)
    (by
      rintro l l' ⟨b, i, j⟩ ⟨b', i', j'⟩ hl hl' ⟨k, hk, e1, e2⟩ ⟨k', hk', e1', e2'⟩ e
      simp only at e e1 e2 e1' e2'
      subst e1 e2 e1' e2'
      have p1 := hP l k hl hk
      have p2 := hP l' k' hl' hk'
      cases b <;> cases b' <;> simp only [Bool.false_eq_true, if_false, if_true] at e
      · obtain ⟨q1, q2⟩ := hinj _ _ _ _ p1 p2 e
        exact ⟨hone l k l' k' hl hk hl' hk' q1 q2, by rw [q1, q2]⟩
      · exact absurd e (hd _ _ _ _ p1 p2)
      · exact absurd e (hd' _ _ _ _ p1 p2)
      · obtain ⟨q1, q2⟩ := hinj' _ _ _ _ p1 p2 e
        exact ⟨hone l k l' k' hl hk hl' hk' q1 q2, by rw [q1, q2]⟩)
    (by
      intro l hl m' hm'
      have keep : ∀ k, k < len l → m' (ad (pi l k) (pj l k)) = m (ad (pi l k) (pj l k)) := by
        intro k hk
        refine hm' _ ?_
        rintro l' ⟨b, i, j⟩ hl' ⟨k', hk', e1, e2⟩ e
        simp only at e e1 e2
        subst e1 e2
        have p1 := hP l k hl hk
        have p2 := hP l' k' (by omega) hk'
        cases b <;> simp only [Bool.false_eq_true, if_false, if_true] at e
        · obtain ⟨q1, q2⟩ := hinj _ _ _ _ p1 p2 e
          have := hone l k l' k' hl hk (by omega) hk' q1 q2
          omega
        · exact absurd e (hd _ _ _ _ p1 p2)
      have keep' : ∀ k, k < len l → m' (ad' (pi l k) (pj l k)) = m (ad' (pi l k) (pj l k)) := by
        intro k hk
        refine hm' _ ?_
        rintro l' ⟨b, i, j⟩ hl' ⟨k', hk', e1, e2⟩ e
        simp only at e e1 e2
        subst e1 e2
        have p1 := hP l k hl hk
        have p2 := hP l' k' (by omega) hk'
        cases b <;> simp only [Bool.false_eq_true, if_false, if_true] at e
        · exact absurd e (hd' _ _ _ _ p1 p2)
        · obtain ⟨q1, q2⟩ := hinj' _ _ _ _ p1 p2 e
          have := hone l k l' k' hl hk (by omega) hk' q1 q2
          omega
      obtain ⟨m'', g1, g2, g3, g4⟩ := C71_swap (m := m') (n := len l) (x := x l) (incX := ix l) (y := y l) (incY := iy l)
        (xv := fun k => Q (pi l k) (pj l k)) (yv := fun k => Q' (pi l k) (pj l k))
        (fun k hk => by rw [hx l k hl hk, keep k hk]; exact hA _ _ (hP l k hl hk))
        (fun k hk => by rw [hy l k hl hk, keep' k hk]; exact hB _ _ (hP l k hl hk)) (hix l hl) (hiy l hl)
        (fun k k' hk hk' => by rw [hx l k hl hk, hy l k' hl hk']; exact hd _ _ _ _ (hP l k hl hk) (hP l k' hl hk'))
      refine ⟨m'', g1, ?_, fun a ha => g4 a fun k hk => ⟨fun e => ?_, fun e => ?_⟩⟩
      · rintro ⟨b, i, j⟩ ⟨k, hk, e1, e2⟩
        simp only at e1 e2 ⊢
        subst e1 e2
        cases b <;> simp only [Bool.false_eq_true, if_false, if_true]
        · have := g2 k hk
          rwa [hx l k hl hk] at this
        · have := g3 k hk
          rwa [hy l k hl hk] at this
      · rw [hx l k hl hk] at e
        exact ha (false, pi l k, pj l k) ⟨k, hk, rfl, rfl⟩ e
      · rw [hy l k hl hk] at e
        exact ha (true, pi l k, pj l k) ⟨k, hk, rfl, rfl⟩ e)
  refine ⟨m', h1, fun i j hp => ?_, fun i j hp => ?_, fun a ha => h3 a ?_⟩
  · obtain ⟨l, k, hl, hk, e1, e2⟩ := hcov i j hp
    exact h2 l (false, i, j) hl ⟨k, hk, e1, e2⟩
  · obtain ⟨l, k, hl, hk, e1, e2⟩ := hcov i j hp
    exact h2 l (true, i, j) hl ⟨k, hk, e1, e2⟩
  · rintro l ⟨b, i, j⟩ hl ⟨k, hk, e1, e2⟩
    simp only at e1 e2 ⊢
    subst e1 e2
    cases b
    · exact (ha _ _ (hP l k hl hk)).1
    · exact (ha _ _ (hP l k hl hk)).2

theorem Swaps.one {c : M K Unit} {m : Mem K} {ad ad' : Nat → Nat → Int} {P : Nat → Nat → Prop} {Q Q' : Nat → Nat → K}
    (h : Swaps (loop 1 fun _ => c) m ad ad' P Q Q') : Swaps c m ad ad' P Q Q' := by
  obtain ⟨m', h1, h2⟩ := h
  exact ⟨m', (loop_one _ m).symm.trans h1, h2⟩

/-- Element `p` of a matrix without gaps. -/
theorem matAd_flat {A : Int} {c p : Nat} (hc : 0 < c) : A + (p : Int) = matAd A .rowMajor c (p / c) (p % c) := by
  have h := Nat.div_add_mod p c
  have e : (p : Int) = (p / c : Nat) * c + (p % c : Nat) := by
    rw [Nat.mul_comm] at h
    exact_mod_cast h.symm
  simp only [matAd, idx]
  linarith

theorem flat_full {r c p : Nat} (h : p < r * c) : 0 < c ∧ full r c (p / c) (p % c) := by
  have hc : 0 < c := by
    rcases Nat.eq_zero_or_pos c with h0 | h0
    · subst h0; simp at h
    · exact h0
  exact ⟨hc, Nat.div_lt_of_lt_mul (by rwa [Nat.mul_comm] at h), Nat.mod_lt _ hc⟩

theorem full_flat {r c i j : Nat} (h : full r c i j) : i * c + j < r * c ∧ (i * c + j) / c = i ∧ (i * c + j) % c = j := by
  obtain ⟨hi, hj⟩ := h
  have hc : 0 < c := by omega
  refine ⟨?_, ?_, ?_⟩
  · have : (i + 1) * c ≤ r * c := Nat.mul_le_mul_right c hi
    rw [Nat.succ_mul] at this
    omega
  · rw [Nat.mul_comm, Nat.mul_add_div hc, Nat.div_eq_of_lt hj, Nat.add_zero]
  · rw [Nat.mul_comm, Nat.mul_add_mod, Nat.mod_eq_of_lt hj]

theorem matAd_inj' {C ld : Int} {P : Nat → Nat → Prop} (h : ∀ i j, P i j → (j : Int) < ld) (i j k l : Nat) (h1 : P i j)
    (h2 : P k l) (e : matAd C .rowMajor ld i j = matAd C .rowMajor ld k l) : i = k ∧ j = l := matAd_inj (h i j h1) (h k l h2) e

end Verif.Blas
