import Verif.Props.Blas1Tri

/-! Property theorems for the level-1 routines of cxxblas on packed triangles (C94). -/

namespace Verif.Blas

variable {K : Type}

section tp
variable {o : Order} {u : UpLo} {t : Trans} {d : Diag} {n : Nat} {A B : Int} {m : Mem K} {QA QB : Nat → Nat → K}

/-! ### Packed triangles as vectors -/

theorem packOff_all (u : UpLo) (n : Nat) : packOff u n n = packLen n := by
  unfold packLen
  cases u
  · have := packOff_upper2 (Nat.le_refl n)
    have e : 2 * packOff .upper n n = n * (n + 1) := by
      have h2 : ((2 * packOff .upper n n : Nat) : Int) = ((n * (n + 1) : Nat) : Int) := by
        push_cast; rw [this]; ring
      exact_mod_cast h2
    omega
  · have := packOff_lower2 n n
    have e : 2 * packOff .lower n n = n * (n + 1) := by exact_mod_cast this
    omega

theorem packRow_lt (h : ∃ i j, tri u n i j ∧ packRow u n i j = p) : p < packLen n := by
  obtain ⟨i, j, ht, rfl⟩ := h
  rw [packRow_eq ht, ← packOff_all u n]
  have h1 := packOff_mono u n (show i + 1 ≤ n from ht.1)
  rw [packOff_succ] at h1
  rw [tri_len] at ht
  omega

theorem packRow_surj {p : Nat} (h : p < packLen n) : ∃ i j, tri u n i j ∧ packRow u n i j = p := by
  rw [← packOff_all u n] at h
  have key : ∀ k, p < packOff u n k → ∃ i, i < k ∧ packOff u n i ≤ p ∧ p < packOff u n (i + 1) := by
    intro k
    induction k with
    | zero => intro h; cases u <;> simp [packOff] at h
    | succ k ih =>
      intro h
      rcases Nat.lt_or_ge p (packOff u n k) with h1 | h1
      · obtain ⟨i, hi, h2⟩ := ih h1
        exact ⟨i, by omega, h2⟩
      · exact ⟨k, by omega, h1, h⟩
  obtain ⟨i, hi, h1, h2⟩ := key n h
  rw [packOff_succ] at h2
  have ht : tri u n i ((tpRows u n 0).first i + (p - packOff u n i)) := tri_len.2 ⟨hi, by omega, by omega⟩
  refine ⟨i, _, ht, ?_⟩
  rw [packRow_eq ht]
  omega

theorem packAd_inj (i j k l : Nat) (h1 : tri u n i j) (h2 : tri u n k l) (e : packAd A o u n i j = packAd A o u n k l) :
    i = k ∧ j = l := by
  cases o <;> simp only [packAd, packIdx] at e
  · exact packRow_inj h1 h2 (by omega)
  · have s : ∀ {i j}, tri u n i j → tri u.flip n j i := fun {i j} h => by rw [← sw_tri]; exact h
    exact (packRow_inj (s h1) (s h2) (by omega)).symm

/-- The elements of a packed triangle, counted. -/
theorem pack_positions (o : Order) (u : UpLo) (n : Nat) : ∃ pi pj : Nat → Nat,
    (∀ A k, k < packLen n → tri u n (pi k) (pj k) ∧ elem A 1 (packLen n) k = packAd A o u n (pi k) (pj k)) ∧
    ∀ i j, tri u n i j → ∃ k, k < packLen n ∧ pi k = i ∧ pj k = j := by
  have ex : ∀ k, k < packLen n → ∃ i j, tri u n i j ∧ packIdx o u n i j = k := by
    intro k hk
    cases o
    · obtain ⟨i, j, h1, h2⟩ := packRow_surj (u := u) hk
      exact ⟨i, j, h1, by simp only [packIdx]; omega⟩
    · obtain ⟨i, j, h1, h2⟩ := packRow_surj (u := u.flip) hk
      refine ⟨j, i, ?_, by simp only [packIdx]; omega⟩
      rw [← sw_tri] at h1; exact h1
  have ex2 : ∀ k, ∃ p : Nat × Nat, k < packLen n → tri u n p.1 p.2 ∧ packIdx o u n p.1 p.2 = k := by
    intro k
    by_cases hk : k < packLen n
    · obtain ⟨i, j, h⟩ := ex k hk
      exact ⟨(i, j), fun _ => h⟩
    · exact ⟨(0, 0), fun h => absurd h hk⟩
  obtain ⟨f, hf⟩ := Classical.axiomOfChoice ex2
  refine ⟨fun k => (f k).1, fun k => (f k).2, fun A k hk => ⟨(hf k hk).1, ?_⟩, fun i j ht => ?_⟩
  · rw [elem_one]; simp only [packAd]; rw [(hf k hk).2]
  · have hl : ∃ k : Nat, k < packLen n ∧ packIdx o u n i j = k := by
      cases o
      · exact ⟨packRow u n i j, packRow_lt ⟨i, j, ht, rfl⟩, rfl⟩
      · exact ⟨packRow u.flip n j i, packRow_lt ⟨j, i, by rw [← sw_tri]; exact ht, rfl⟩, rfl⟩
    obtain ⟨k, hk, e⟩ := hl
    have := packAd_inj (A := 0) (o := o) (f k).1 (f k).2 i j (hf k hk).1 ht (by simp only [packAd]; rw [(hf k hk).2, e])
    exact ⟨k, hk, this.1, this.2⟩

theorem packOp_run {op : VecOp K} {g : K → K → K} {need : Prop} (hop : Acts op g need)
    (hA : StAt m (packAd A o u n) (tri u n) QA) (hB : ∀ i j, tri u n i j → m (packAd B o u n i j) ≠ .out)
    (hb : need → StAt m (packAd B o u n) (tri u n) QB)
    (hd : StDisj (packAd A o u n) (tri u n) (packAd B o u n) (tri u n)) :
    YieldsSt (op (packLen n) A 1 B 1) m (packAd B o u n) (tri u n) fun i j => g (QB i j) (QA i j) := by
  obtain ⟨pi, pj, h1, h2⟩ := pack_positions o u n
  refine YieldsSt.one ?_
  exact act_run hop (c := 1) (len := fun _ => packLen n) (x := fun _ => A) (y := fun _ => B) (ix := fun _ => 1)
    (iy := fun _ => 1) (fun _ => pi) (fun _ => pj) (fun _ k _ hk => (h1 0 k hk).1) (fun _ k _ hk => (h1 B k hk).2)
    (fun _ k _ hk => (h1 A k hk).2)
    (fun i j h => let ⟨k, q1, q2, q3⟩ := h2 i j h; ⟨0, k, by decide, q1, q2, q3⟩)
    (fun _ _ _ _ _ _ _ _ _ _ => by omega) packAd_inj (fun _ _ => by decide) hA hd hB hb

/-! ### The transposed loops -/

/-- `f a b` replaces the value `w` at `b` by `g w v`, with `v` the value at `a`. -/
def ElemActs (f : Int → Int → M K Unit) (g : K → K → K) (need : Prop) : Prop :=
  ∀ (m : Mem K) (a b : Int) (v w : K), m a = .val v → m b ≠ .out → (need → m b = .val w) → f a b m = .ok ((), set m b (g w v))

theorem elem_copy (h : K → K) : ElemActs (fun a b => do let v ← load a; store b (h v)) (fun _ v => h v) False :=
  fun _ _ _ _ _ ha hb _ => (bind_ok (load_ok ha)).trans (store_ok hb)

theorem elem_upd (h : K → K → K) :
    ElemActs (fun a b => do let v ← load a; let w ← load b; store b (h w v)) h True :=
  fun _ _ _ _ _ ha hb hw => (bind_ok (load_ok ha)).trans ((bind_ok (load_ok (hw trivial))).trans (store_ok hb))

/-- The positions of the upper triangle from the diagonal `s` on. -/
def upFrom (s n : Nat) (i j : Nat) : Prop := i + s ≤ j ∧ j < n

theorem trans_adB {i j : Nat} : B + ((i : Int) + (j : Int) * (j + 1) / 2) = packAd B .colMajor .upper n i j := by
  simp only [packAd, packIdx, UpLo.flip, packRow]
  have := packOff_lower2 n j
  rw [← this, Int.mul_ediv_cancel_left _ (by decide)]
  unfold packOff
  push_cast
  ring

theorem trans_adA {i j : Nat} (hi : i ≤ j) (hj : j < n) :
    A + ((j : Int) + (2 * (n : Int) - i - 1) * i / 2) = packAd A .colMajor .lower n j i := by
  simp only [packAd, packIdx, UpLo.flip, packRow]
  have := packOff_upper2 (n := n) (i := i) (by omega)
  have e : (2 * (n : Int) - i - 1) * i = 2 * (packOff .upper n i - i) := by
    have : (2 : Int) * (packOff .upper n i - i) = 2 * packOff .upper n i - 2 * i := by ring
    rw [this, packOff_upper2 (by omega)]; ring
  rw [e, Int.mul_ediv_cancel_left _ (by decide)]
  have e2 : ((j - i : Nat) : Int) = (j : Int) - i := by omega
  have e3 : (∑ k ∈ Finset.range i, (n - k)) = packOff .upper n i := rfl
  rw [e3]
  push_cast
  rw [e2]
  ring

theorem tpTrans_run {f : Int → Int → M K Unit} {g : K → K → K} {need : Prop} (hf : ElemActs f g need) {s : Nat}
    (hA : StAt m (sw (packAd A .colMajor .lower n)) (upFrom s n) (sw QA))
    (hB : ∀ i j, upFrom s n i j → m (packAd B .colMajor .upper n i j) ≠ .out)
    (hb : need → StAt m (packAd B .colMajor .upper n) (upFrom s n) QB)
    (hd : StDisj (sw (packAd A .colMajor .lower n)) (upFrom s n) (packAd B .colMajor .upper n) (upFrom s n)) :
    YieldsSt (tpTrans f s n A B) m (packAd B .colMajor .upper n) (upFrom s n) fun i j => g (QB i j) (QA j i) := by
  have ht : ∀ {i j}, upFrom s n i j → tri .upper n i j := fun {i j} h => ⟨by have := h.1; have := h.2; omega, h.2, by
    have := h.1; simp only; omega⟩
  have hinj : ∀ i j k l, upFrom s n i j → upFrom s n k l →
      packAd B .colMajor .upper n i j = packAd B .colMajor .upper n k l → i = k ∧ j = l :=
    fun i j k l h1 h2 e => packAd_inj i j k l (ht h1) (ht h2) e
  obtain ⟨m', h1, h2, h3⟩ := passes_run (c := n)
    (f := fun i => loopFrom (i + s) n fun j => f (A + (j + (2 * n - i - 1) * i / 2)) (B + (i + j * (j + 1) / 2))) (m := m)
    (fun p : Nat × Nat => packAd B .colMajor .upper n p.1 p.2) (fun p => g (QB p.1 p.2) (QA p.2 p.1))
    (fun l p => p.1 = l ∧ upFrom s n p.1 p.2)
    (by
      rintro l l' ⟨i, j⟩ ⟨i', j'⟩ hl hl' ⟨e1, q1⟩ ⟨e2, q2⟩ e
      simp only at e1 e2 q1 q2 e
      obtain ⟨e3, e4⟩ := hinj _ _ _ _ q1 q2 e
      exact ⟨by omega, Prod.ext e3 e4⟩)
    (by
      intro l hl m1 hm1
      obtain ⟨m', h1, h2, h3⟩ := passes_run (c := n - (l + s))
        (f := fun k => f (A + ((l + s + k : Nat) + (2 * n - l - 1) * l / 2)) (B + (l + (l + s + k : Nat) * ((l + s + k : Nat) + 1) / 2)))
        (m := m1)
        (fun p : Nat × Nat => packAd B .colMajor .upper n p.1 p.2) (fun p => g (QB p.1 p.2) (QA p.2 p.1))
        (fun k p => p = (l, l + s + k))
        (by
          rintro k k' _ _ hk hk' rfl rfl e
          obtain ⟨e3, e4⟩ := hinj _ _ _ _ ⟨by omega, by omega⟩ ⟨by omega, by omega⟩ e
          exact ⟨by omega, Prod.ext e3 e4⟩)
        (by
          intro k hk m2 hm2
          have hu : upFrom s n l (l + s + k) := ⟨by omega, by omega⟩
          have q1 : ∀ a, (∀ i j, upFrom s n i j → a ≠ packAd B .colMajor .upper n i j) → m2 a = m a := by
            intro a ha
            refine (hm2 a ?_).trans (hm1 a ?_)
            · rintro k' _ hk' rfl
              exact ha _ _ ⟨by omega, by omega⟩
            · rintro l' ⟨i, j⟩ _ ⟨_, hq⟩
              exact ha _ _ hq
          have q2 : m2 (packAd B .colMajor .upper n l (l + s + k)) = m (packAd B .colMajor .upper n l (l + s + k)) := by
            refine (hm2 _ ?_).trans (hm1 _ ?_)
            · rintro k' _ hk' rfl e
              obtain ⟨e3, e4⟩ := hinj _ _ _ _ hu ⟨by omega, by omega⟩ e
              omega
            · rintro l' ⟨i, j⟩ hl' ⟨e1, hq⟩ e
              simp only at e1 hq e
              obtain ⟨e3, e4⟩ := hinj _ _ _ _ hu hq e
              omega
          refine ⟨set m2 (packAd B .colMajor .upper n l (l + s + k)) (g (QB l (l + s + k)) (QA (l + s + k) l)), ?_, ?_, ?_⟩
          · rw [trans_adB (n := n), trans_adA (by omega) (by omega)]
            refine hf m2 _ _ (QA (l + s + k) l) (QB l (l + s + k)) ?_ ?_ ?_
            · exact (q1 _ fun i j hq => hd _ _ _ _ hu hq).trans (hA _ _ hu)
            · rw [q2]; exact hB _ _ hu
            · intro hn; rw [q2]; exact hb hn _ _ hu
          · rintro _ rfl
            simp [set]
          · intro a ha
            exact set_ne _ _ (ha _ rfl))
      refine ⟨m', h1, ?_, fun a ha => h3 a ?_⟩
      · rintro ⟨i, j⟩ ⟨e, hq⟩
        simp only at e hq ⊢
        subst e
        have := hq.1
        have := hq.2
        refine h2 (j - (i + s)) (i, j) (by omega) (Prod.ext rfl ?_)
        simp only
        omega
      · rintro k _ hk rfl
        exact ha _ ⟨rfl, by simp only; omega, by simp only; omega⟩)
  refine ⟨m', h1, fun i j hp => ?_, fun a ha => h3 a ?_⟩
  · exact h2 i (i, j) (by have := hp.1; have := hp.2; omega) ⟨rfl, hp⟩
  · rintro l ⟨i, j⟩ _ ⟨_, hq⟩
    exact ha _ _ hq

/-- The triangles for which the transposed routines are right: an upper triangle stored by columns, or, which is the same, a lower
one stored by rows. -/
def packGood (o : Order) (u : UpLo) : Prop :=
  match o, u with
  | .colMajor, .upper => True
  | .rowMajor, .lower => True
  | _, _ => False

theorem upFrom_upper (d : Diag) (n : Nat) : upFrom (diagShift d) n = stored .upper d n := by
  funext i j
  cases d <;> simp only [upFrom, diagShift, stored, tri, forall_true_left, reduceCtorEq, IsEmpty.forall_iff, and_true, eq_iff_iff]
    <;> omega

theorem tpTrans_good {f : Int → Int → M K Unit} {g : K → K → K} {need : Prop} (hf : ElemActs f g need) (hg : packGood o u)
    (hA : StAt m (packAd A o u.flip n) (sw (stored u d n)) QA)
    (hB : ∀ i j, stored u d n i j → m (packAd B o u n i j) ≠ .out)
    (hb : need → StAt m (packAd B o u n) (stored u d n) QB)
    (hd : StDisj (packAd A o u.flip n) (sw (stored u d n)) (packAd B o u n) (stored u d n)) :
    YieldsSt (tpTrans f (diagShift d) n A B) m (packAd B o u n) (stored u d n) fun i j => g (QB i j) (QA j i) := by
  cases o <;> cases u <;> simp only [packGood] at hg
  · -- lower, by rows
    have e1 : packAd A .rowMajor .upper n = sw (packAd A .colMajor .lower n) := (packAd_sw A .lower n).symm
    have e2 : packAd B .rowMajor .lower n = sw (packAd B .colMajor .upper n) := (packAd_sw B .upper n).symm
    simp only [UpLo.flip] at hA hd
    rw [sw_stored, UpLo.flip, e1] at hA hd
    have e3 : stored .lower d n = sw (stored .upper d n) := (sw_stored .upper d n).symm
    rw [e2, e3] at hb hd ⊢
    rw [stDisj_sw2] at hd
    refine yieldsSt_sw (V := fun i j => g (QB i j) (QA j i)) ?_
    have := tpTrans_run (m := m) (n := n) (A := A) (B := B) (QA := sw QA) (QB := sw QB) hf (s := diagShift d)
      (by rw [upFrom_upper]; exact hA) (by
        rw [upFrom_upper]; intro i j hp
        have := hB j i (by rw [e3]; exact hp)
        rw [e2] at this; exact this)
      (by rw [upFrom_upper]; exact fun h => stAt_sw.1 (hb h)) (by rw [upFrom_upper]; exact hd)
    rw [upFrom_upper] at this
    exact this
  · simp only [UpLo.flip] at hA hd
    have := tpTrans_run (m := m) (n := n) (A := A) (B := B) (QA := QA) (QB := QB) hf (s := diagShift d)
      (by rw [upFrom_upper]; exact fun i j hp => hA j i hp) (by rw [upFrom_upper]; exact hB)
      (by rw [upFrom_upper]; exact hb) (by rw [upFrom_upper]; exact fun i j k l hp hq => hd j i k l hp hq)
    rw [upFrom_upper] at this
    exact this

/-! ### C94 -/

/-- The property of a routine that leaves the stored triangle of `f B op(A)` in `B` and touches nothing else. Both matrices are
stored in the order `o`; the triangle of `A` is that of `B`, or the other one for a transpose. -/
def PackOk (rt : Int → Int → M K Unit) (need : Prop) (f : K → K → K) [Star K] (o : Order) (u : UpLo) (t : Trans) (d : Diag)
    (n : Nat) : Prop :=
  ∀ (A B : Int) (m : Mem K) (QA QB : Nat → Nat → K),
    StAt m (packAd A o (if t.trans then u.flip else u) n) (opP t (stored u d n)) QA →
    (∀ i j, stored u d n i j → m (packAd B o u n i j) ≠ .out) → (need → StAt m (packAd B o u n) (stored u d n) QB) →
    StDisj (packAd A o (if t.trans then u.flip else u) n) (opP t (stored u d n)) (packAd B o u n) (stored u d n) →
    YieldsSt (rt A B) m (packAd B o u n) (stored u d n) fun i j => f (QB i j) (opM t QA i j)

theorem stored_non (u : UpLo) (n : Nat) : stored u .nonUnit n = tri u n := by
  funext i j; simp [stored]

theorem packOk_plain [Star K] {rt : Int → Int → M K Unit} {op : VecOp K} {g : K → K → K} {need : Prop} (ht : t.trans = false)
    (hrt : ∀ A B, rt A B = op (packLen n) A 1 B 1) (hop : Acts op (fun w v => g w (cj t.conj v)) need) :
    PackOk rt need g o u t .nonUnit n := by
  intro A B m QA QB hA hB hb hd
  have e : opP t (stored u .nonUnit n) = tri u n := by
    rw [stored_non]; unfold opP; rw [ht]; rfl
  rw [e] at hA hd
  rw [stored_non] at hB hb hd ⊢
  simp only [ht, Bool.false_eq_true, if_false] at hA hd
  rw [hrt]
  have := packOp_run hop hA hB hb hd
  refine this.congr fun i j _ => ?_
  simp only [opM, ht, Bool.false_eq_true, if_false]

theorem packOk_trans [Star K] {rt : Int → Int → M K Unit} {f : Int → Int → M K Unit} {g : K → K → K} {need : Prop}
    (ht : t.trans = true) (hg : packGood o u) (hrt : ∀ A B, rt A B = tpTrans f (diagShift d) n A B)
    (hf : ElemActs f (fun w v => g w (cj t.conj v)) need) :
    PackOk rt need g o u t d n := by
  intro A B m QA QB hA hB hb hd
  have e : opP t (stored u d n) = sw (stored u d n) := by
    funext i j; simp only [opP, ht, if_true, sw]
  rw [e] at hA hd
  simp only [ht, if_true] at hA hd
  rw [hrt]
  refine (tpTrans_good hf hg hA hB hb hd).congr fun i j _ => ?_
  simp only [opM, ht, if_true]

/-- **C94** (missing: transposes to the other triangles) `tpcopy`: the packed triangle of `op(A)`. A unit diagonal is for transposes
only. -/
theorem C94_tpcopy_partial [Star K] (h : if t.trans then packGood o u else d = .nonUnit) :
    PackOk (K := K) (tpcopy t d n) False (fun _ v => v) o u t d n := by
  cases ht : t.trans
  · rw [ht] at h
    simp only [Bool.false_eq_true, if_false] at h
    subst h
    refine packOk_plain (op := if t.conj then ccopy else copy) ht (fun A B => ?_)
      ((acts_copy (K := K)).ite acts_ccopy t.conj)
    unfold tpcopy
    rw [ht]
  · rw [ht] at h
    simp only [if_true] at h
    refine packOk_trans (f := fun a b => do let v ← load a; store b (conjIf t.conj v)) ht h (fun A B => ?_)
      (elem_copy (conjIf t.conj))
    unfold tpcopy
    rw [ht]

/-- **C94** `tpcopy` without a transposition and with a unit diagonal fails an assertion. -/
theorem C94_tpcopy_assert [Star K] (ht : t.trans = false) : tpcopy t .unit n A B m = assertFail m := by
  unfold tpcopy; rw [ht]

/-- **C94** (missing: transposes to a lower triangle; row-major order and unit diagonals are excluded by assertions) `tpaxpy`: the
packed triangle of `B + alpha op(A)`. -/
theorem C94_tpaxpy_partial [Mul K] [Add K] [Star K] {alpha : K} (h : t.trans = true → u = .upper) :
    PackOk (tpaxpy .colMajor t .nonUnit n alpha) True (fun w v => w + alpha * v) .colMajor u t .nonUnit n := by
  cases ht : t.trans
  · refine packOk_plain (op := if t.conj then fun n => acxpy n alpha else fun n => axpy n alpha) ht (fun A B => ?_)
      ((acts_axpy alpha).ite (acts_acxpy alpha) t.conj)
    unfold tpaxpy
    simp only [ht]
    cases t.conj <;> rfl
  · obtain rfl := h ht
    refine packOk_trans
      (f := fun a b => do let v ← load a; let w ← load b; store b (w + alpha * conjIf t.conj v)) ht trivial (fun A B => ?_)
      (elem_upd fun w v => w + alpha * conjIf t.conj v)
    unfold tpaxpy
    simp only [ht]

/-- **C94** `tpaxpy` in row-major order or with a unit diagonal fails an assertion. -/
theorem C94_tpaxpy_assert [Mul K] [Add K] [Star K] {alpha : K} (h : o = .rowMajor ∨ d = .unit) :
    tpaxpy o t d n alpha A B m = assertFail m := by
  rcases h with rfl | rfl
  · rfl
  · cases o <;> rfl

/-- **C94** (missing: transposes to the other triangles; a unit diagonal without a transposition; for a transpose the old elements
are needed also for `beta = 0`) `tpaxpby`: the packed triangle of `beta B + alpha op(A)`. -/
theorem C94_tpaxpby_partial [CommRing K] [Star K] [DecidableEq K] {alpha beta : K}
    (h : if t.trans then packGood o u else d = .nonUnit) :
    PackOk (fun A B => tpaxpby t d n alpha A beta B) (t.trans = true ∨ beta ≠ 0) (fun w v => beta * w + alpha * v) o u t d n := by
  cases ht : t.trans
  · rw [ht] at h
    simp only [Bool.false_eq_true, if_false] at h
    subst h
    simp only [Bool.false_eq_true, false_or]
    refine packOk_plain
      (op := if t.conj then fun n x incX => acxpby n alpha x incX beta else fun n x incX => axpby n alpha x incX beta) ht
      (fun A B => ?_) ((acts_axpby alpha beta).ite (acts_acxpby alpha beta) t.conj)
    unfold tpaxpby
    rw [ht]
    cases t.conj <;> rfl
  · rw [ht] at h
    simp only [if_true] at h
    simp only [true_or]
    refine packOk_trans
      (f := fun a b => do let v ← load a; let w ← load b; store b (beta * w + alpha * conjIf t.conj v)) ht h (fun A B => ?_)
      (elem_upd fun w v => beta * w + alpha * conjIf t.conj v)
    unfold tpaxpby
    rw [ht]

/-- The property **C94** of `tpcopy` for transposes. -/
def C94Claim : Prop := ∀ (o : Order) (u : UpLo) (n : Nat), PackOk (K := Int) (tpcopy doTrans .nonUnit n) False (fun _ v => v) o u doTrans .nonUnit n

/-- Element `(i, j)` of an upper triangle of order 4 packed by columns in `exTwo` -/
def exUp (i j : Nat) : Int := 10 + i + j * (j + 1) / 2

/-- **C94** The transpose of an upper triangle of order 4, stored by columns, is wrong: `tpcopy` takes the addresses of the transpose of
a lower one. -/
theorem C94_false : ¬C94Claim := by
  intro h
  obtain ⟨m', h1, h2, _⟩ := h .colMajor .lower 4 0 20 exTwo exUp (fun _ _ => 0)
    (by
      rintro i j ⟨⟨hi, hj, h3⟩, _⟩
      replace hi : j < 4 := hi
      replace hj : i < 4 := hj
      replace h3 : i ≤ j := h3
      interval_cases j <;> interval_cases i <;> decide)
    (by
      rintro i j ⟨⟨hi, hj, h3⟩, _⟩
      replace h3 : j ≤ i := h3
      interval_cases i <;> interval_cases j <;> decide)
    (fun h => h.elim)
    (by
      rintro i j k l ⟨⟨hi, hj, h3⟩, _⟩ ⟨⟨hk, hl, h4⟩, _⟩
      replace hi : j < 4 := hi
      replace hj : i < 4 := hj
      replace h3 : i ≤ j := h3
      replace h4 : l ≤ k := h4
      interval_cases j <;> interval_cases i <;> interval_cases k <;> interval_cases l <;> decide)
  have e : peek (tpcopy doTrans .nonUnit 4 0 20 exTwo) (fun _ m => m 22) = .ok (.val 14) := by decide
  rw [h1] at e
  have e2 : m' 22 = .val 13 := h2 2 0 ⟨⟨by decide, by decide, by decide⟩, by decide⟩
  have : m' 22 = .val 14 := by simpa [peek, bind, Out.bind] using e
  rw [this] at e2
  exact absurd e2 (by decide)

/-! ### `tpscal` -/

/-- A loop with a counter is a loop with the values of the counter. -/
theorem fold_counter {σ : Type} {c : Nat} {f : Nat → σ → M K Unit} {next : Nat → σ → σ} {v : Nat → σ}
    (hv : ∀ i, i < c → v (i + 1) = next i (v i)) {m m' : Mem K} (h : loop c (fun i => f i (v i)) m = .ok ((), m')) :
    fold c (v 0) (fun i s => do f i s; pure (next i s)) m = .ok (v c, m') := by
  induction c generalizing m' with
  | zero =>
    have h' : (Out.ok ((), m) : Out (Unit × Mem K)) = .ok ((), m') := h
    injection h' with h'
    injection h' with _ h'
    subst h'
    rfl
  | succ c ih =>
    cases hc : loop c (fun i => f i (v i)) m with
    | ok p =>
      obtain ⟨⟨⟩, m1⟩ := p
      rw [loop_succ hc] at h
      refine (bind_ok (ih (fun i hi => hv i (by omega)) hc)).trans ((bind_ok h).trans ?_)
      rw [hv c (by omega)]
      rfl
    | throw e =>
      have : loop (c + 1) (fun i => f i (v i)) m = .throw e := by
        show (loop c (fun i => f i (v i)) >>= fun _ => f c (v c)) m = _
        simp only [bind, StateT.bind, hc]
        rfl
      rw [this] at h
      cases h
    | ub =>
      have : loop (c + 1) (fun i => f i (v i)) m = .ub := by
        show (loop c (fun i => f i (v i)) >>= fun _ => f c (v c)) m = _
        simp only [bind, StateT.bind, hc]
        rfl
      rw [this] at h
      cases h

/-- **C94** `tpscal`: the packed triangle of `alpha A`; (missing: the other triangles with a unit diagonal) with a unit diagonal of an
upper triangle stored by rows, or, which is the same, a lower one stored by columns. -/
theorem C94_tpscal_partial [CommRing K] {alpha : K} (h : d = .unit → ¬packGood o u) (hA : StAt m (packAd A o u n) (stored u d n) QA) :
    YieldsSt (tpscal d n alpha A) m (packAd A o u n) (stored u d n) fun i j => alpha * QA i j := by
  cases d
  · have row : ∀ {QA : Nat → Nat → K}, StAt m (packAd A .rowMajor .upper n) (stored .upper .unit n) QA →
        YieldsSt (tpscal .unit n alpha A) m (packAd A .rowMajor .upper n) (stored .upper .unit n) fun i j => alpha * QA i j := by
      intro QA hA
      have ht : ∀ {i j}, stored .upper .unit n i j → tri .upper n i j := fun {i j} h => h.1
      obtain ⟨m', h1, h2⟩ := scal_loop (alpha := alpha) (c := n - 1) (len := fun l => n - l - 1)
        (y := fun l => A + packOff .upper n l + 1) (iy := fun _ => 1) (ad := packAd A .rowMajor .upper n)
        (P := stored .upper .unit n) (Q := QA) (m := m) (fun l _ => l) (fun l k => l + 1 + k)
        (fun l k hl hk => ⟨⟨by omega, by omega, by simp only; omega⟩, fun _ => by omega⟩)
        (fun l k hl hk => by
          rw [elem_one]
          simp only [packAd, packIdx, packRow, packOff]
          have : l + 1 + k - l = k + 1 := by omega
          rw [this]; push_cast; ring)
        (fun i j h => ⟨i, j - i - 1, by
          obtain ⟨⟨q1, q2, q3⟩, q4⟩ := h
          have := q4 rfl
          simp only at q3
          refine ⟨by omega, by omega, rfl, by omega⟩⟩)
        (fun l k l' k' _ _ _ _ e _ => e) (fun i j k l h1 h2 e => packAd_inj i j k l (ht h1) (ht h2) e) (fun _ _ => by decide) hA
      refine ⟨m', ?_, h2⟩
      have := fold_counter (f := fun i (offset : Nat) => scal (n - i - 1) alpha (A + offset + 1) 1)
        (next := fun i offset => offset + (n - i)) (v := packOff .upper n) (fun i _ => packOff_succ .upper n i) h1
      exact bind_ok this
    have hg := h rfl
    cases o <;> cases u <;> simp only [packGood, not_true_eq_false] at hg
    · exact row hA
    · rw [← stAt_sw, packAd_sw, sw_stored] at hA
      refine yieldsSt_sw ?_
      rw [packAd_sw, sw_stored]
      exact row hA
  · rw [stored_non] at hA ⊢
    obtain ⟨pi, pj, h1, h2⟩ := pack_positions o u n
    refine YieldsSt.one ?_
    exact scal_loop (c := 1) (len := fun _ => packLen n) (y := fun _ => A) (iy := fun _ => 1) (fun _ => pi) (fun _ => pj)
      (fun _ k _ hk => (h1 0 k hk).1) (fun _ k _ hk => (h1 A k hk).2)
      (fun i j h => let ⟨k, q1, q2, q3⟩ := h2 i j h; ⟨0, k, by decide, q1, q2, q3⟩)
      (fun _ _ _ _ _ _ _ _ _ _ => by omega) packAd_inj (fun _ _ => by decide) hA

/-- **C94** `tpscal` of an upper triangle of order 3 stored by columns, with a unit diagonal, multiplies the diagonal
element `(1, 1)` in place of the element `(0, 2)`. -/
theorem C94_tpscal_false : ¬∀ (o : Order) (u : UpLo) (d : Diag) (n : Nat) (alpha A : Int) (m : Mem Int) (QA : Nat → Nat → Int),
    StAt m (packAd A o u n) (stored u d n) QA →
    YieldsSt (tpscal d n alpha A) m (packAd A o u n) (stored u d n) fun i j => alpha * QA i j := by
  intro h
  obtain ⟨m', h1, h2, _⟩ := h .colMajor .upper .unit 3 2 0 exTwo exUp (by
    rintro i j ⟨⟨hi, hj, h3⟩, _⟩
    replace h3 : i ≤ j := h3
    interval_cases j <;> interval_cases i <;> decide)
  have e : peek (tpscal .unit 3 2 0 exTwo) (fun _ m => m 3) = .ok (.val 13) := by decide
  rw [h1] at e
  have e2 : m' 3 = .val 26 := h2 0 2 ⟨⟨by decide, by decide, by decide⟩, by decide⟩
  have : m' 3 = .val 13 := by simpa [peek, bind, Out.bind] using e
  rw [this] at e2
  exact absurd e2 (by decide)

/-- The hypotheses hold for the transpose of a lower triangle of order 3 stored by columns. -/
example : StAt exTwo (packAd 0 .colMajor .lower 3) (opP doTrans (stored .upper .nonUnit 3))
      (fun i j => 10 + (i : Int) + (5 - j) * j / 2) ∧
    (∀ i j, stored .upper .nonUnit 3 i j → exTwo (packAd 20 .colMajor .upper 3 i j) ≠ .out) ∧
    StDisj (packAd 0 .colMajor .lower 3) (opP doTrans (stored .upper .nonUnit 3)) (packAd 20 .colMajor .upper 3)
      (stored .upper .nonUnit 3) ∧
    packGood .colMajor .upper ∧ opP doTrans (stored .upper .nonUnit 3) 2 0 := by
  refine ⟨?_, ?_, ?_, trivial, ⟨⟨by decide, by decide, by decide⟩, by decide⟩⟩
  · rintro i j ⟨⟨hi, hj, h3⟩, _⟩
    replace hi : j < 3 := hi
    replace hj : i < 3 := hj
    replace h3 : j ≤ i := h3
    interval_cases i <;> interval_cases j <;> decide
  · rintro i j ⟨⟨hi, hj, h3⟩, _⟩
    interval_cases i <;> interval_cases j <;> decide
  · rintro i j k l ⟨⟨hi, hj, h3⟩, _⟩ ⟨⟨hk, hl, h4⟩, _⟩
    replace hi : j < 3 := hi
    replace hj : i < 3 := hj
    interval_cases i <;> interval_cases j <;> interval_cases k <;> interval_cases l <;> decide

example : (peek (tpcopy (K := Int) doTrans .nonUnit 3 0 20 exTwo) fun _ m => (m 20, m 21, m 22, m 23, m 24)) =
    .ok (.val 10, .val 11, .val 13, .val 12, .val 14) := by decide

end tp

end Verif.Blas
