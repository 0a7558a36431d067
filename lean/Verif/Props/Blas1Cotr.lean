import Verif.Props.Blas1Band

/-! Property theorems for conjugation and transposition in place (C95). -/

namespace Verif.Blas

variable {K : Type}

/-! ### Exchanges and replacements of elements -/

/-- `f a b` leaves `h w` at `a` and `h v` at `b`, with `v` and `w` the values at `a` and `b`. -/
def PairActs (f : Int → Int → M K Unit) (h : K → K) : Prop :=
  ∀ (m : Mem K) (a b : Int) (v w : K), m a = .val v → m b = .val w → f a b m = .ok ((), set (set m a (h w)) b (h v))

theorem set_out {m : Mem K} {a b : Int} {v : K} (h : m b ≠ .out) : set m a v b ≠ .out := by
  unfold set; split
  · simp
  · exact h

theorem pair_swap : PairActs (K := K) swapCells id := fun m a b v w ha hb => by
  refine (bind_ok (load_ok ha)).trans ((bind_ok (load_ok hb)).trans ((bind_ok (store_ok ?_)).trans (store_ok (set_out ?_))))
  · rw [ha]; simp
  · rw [hb]; simp

theorem pair_conj [Star K] : PairActs (K := K) swapConj star := fun m a b v w ha hb => by
  refine (bind_ok (load_ok ha)).trans ((bind_ok (load_ok hb)).trans ((bind_ok (store_ok ?_)).trans (store_ok (set_out ?_))))
  · rw [ha]; simp
  · rw [hb]; simp

/-- Nested loops that exchange elements at positions `(p, q)` and `(q, p)`. -/
theorem pairs_run {f : Int → Int → M K Unit} {h : K → K} (hf : PairActs f h) {c : Nat} {len : Nat → Nat} {a b : Nat → Nat → Int}
    {ad : Nat → Nat → Int} {P : Nat → Nat → Prop} {Q : Nat → Nat → K} {m : Mem K} (p q : Nat → Nat → Nat)
    (hP : ∀ l k, l < c → k < len l → P (p l k) (q l k) ∧ P (q l k) (p l k))
    (ha : ∀ l k, l < c → k < len l → a l k = ad (p l k) (q l k))
    (hb : ∀ l k, l < c → k < len l → b l k = ad (q l k) (p l k))
    (hone : ∀ l k l' k', l < c → k < len l → l' < c → k' < len l' →
      (p l k = p l' k' ∧ q l k = q l' k') ∨ (p l k = q l' k' ∧ q l k = p l' k') → l = l' ∧ k = k')
    (hinj : ∀ i j k l, P i j → P k l → ad i j = ad k l → i = k ∧ j = l) (hA : StAt m ad P Q) :
    YieldsSt (loop c fun l => loop (len l) fun k => f (a l k) (b l k)) m ad
      (fun i j => ∃ l k, l < c ∧ k < len l ∧ ((i = p l k ∧ j = q l k) ∨ (i = q l k ∧ j = p l k))) fun i j => h (Q j i) := by
  -- the positions of pair `k` of pass `l`
  let S : Nat → Nat → Nat × Nat → Prop := fun l k x => (x.1 = p l k ∧ x.2 = q l k) ∨ (x.1 = q l k ∧ x.2 = p l k)
  have hSP : ∀ l k x, l < c → k < len l → S l k x → P x.1 x.2 := by
    rintro l k ⟨i, j⟩ hl hk (⟨rfl, rfl⟩ | ⟨rfl, rfl⟩)
    · exact (hP l k hl hk).1
    · exact (hP l k hl hk).2
  have hS1 : ∀ l k l' k' x, l < c → k < len l → l' < c → k' < len l' → S l k x → S l' k' x → l = l' ∧ k = k' := by
    rintro l k l' k' ⟨i, j⟩ hl hk hl' hk' (⟨rfl, rfl⟩ | ⟨rfl, rfl⟩) (⟨e1, e2⟩ | ⟨e1, e2⟩)
    · exact hone l k l' k' hl hk hl' hk' (Or.inl ⟨e1, e2⟩)
    · exact hone l k l' k' hl hk hl' hk' (Or.inr ⟨e1, e2⟩)
    · exact hone l k l' k' hl hk hl' hk' (Or.inr ⟨e2, e1⟩)
    · exact hone l k l' k' hl hk hl' hk' (Or.inl ⟨e2, e1⟩)
  have hS : ∀ l k l' k' x x', l < c → k < len l → l' < c → k' < len l' → S l k x → S l' k' x' →
      ad x.1 x.2 = ad x'.1 x'.2 → (l = l' ∧ k = k') ∧ x = x' := by
    intro l k l' k' x x' hl hk hl' hk' h1 h2 e
    obtain ⟨e1, e2⟩ := hinj _ _ _ _ (hSP l k x hl hk h1) (hSP l' k' x' hl' hk' h2) e
    have ex : x = x' := Prod.ext e1 e2
    subst ex
    exact ⟨hS1 l k l' k' x hl hk hl' hk' h1 h2, rfl⟩
  obtain ⟨m', h1, h2, h3⟩ := passes_run (c := c) (f := fun l => loop (len l) fun k => f (a l k) (b l k)) (m := m)
    (fun x : Nat × Nat => ad x.1 x.2) (fun x => h (Q x.2 x.1)) (fun l x => ∃ k, k < len l ∧ S l k x)
    (by
      rintro l l' x x' hl hl' ⟨k, hk, s1⟩ ⟨k', hk', s2⟩ e
      obtain ⟨q1, q2⟩ := hS l k l' k' x x' hl hk hl' hk' s1 s2 e
      exact ⟨q1.1, q2⟩)
    (by
      intro l hl m1 hm1
      obtain ⟨m', h1, h2, h3⟩ := passes_run (c := len l) (f := fun k => f (a l k) (b l k)) (m := m1)
        (fun x : Nat × Nat => ad x.1 x.2) (fun x => h (Q x.2 x.1)) (fun k x => S l k x)
        (by
          intro k k' x x' hk hk' s1 s2 e
          obtain ⟨q1, q2⟩ := hS l k l k' x x' hl hk hl hk' s1 s2 e
          exact ⟨q1.2, q2⟩)
        (by
          intro k hk m2 hm2
          have keep : ∀ x, S l k x → m2 (ad x.1 x.2) = m (ad x.1 x.2) := by
            intro x hx
            refine (hm2 _ ?_).trans (hm1 _ ?_)
            · intro k' x' hk' hx' e
              have := (hS l k l k' x x' hl hk hl (by omega) hx hx' e).1.2
              omega
            · rintro l' x' hl' ⟨k', hk', hx'⟩ e
              have := (hS l k l' k' x x' hl hk (by omega) hk' hx hx' e).1.1
              omega
          obtain ⟨p1, p2⟩ := hP l k hl hk
          have e1 : m2 (ad (p l k) (q l k)) = .val (Q (p l k) (q l k)) :=
            (keep (p l k, q l k) (Or.inl ⟨rfl, rfl⟩)).trans (hA _ _ p1)
          have e2 : m2 (ad (q l k) (p l k)) = .val (Q (q l k) (p l k)) :=
            (keep (q l k, p l k) (Or.inr ⟨rfl, rfl⟩)).trans (hA _ _ p2)
          refine ⟨set (set m2 (ad (p l k) (q l k)) (h (Q (q l k) (p l k)))) (ad (q l k) (p l k)) (h (Q (p l k) (q l k))),
            ?_, ?_, fun x hx => ?_⟩
          · rw [ha l k hl hk, hb l k hl hk]
            exact hf m2 _ _ _ _ e1 e2
          · rintro ⟨i, j⟩ (⟨e3, e4⟩ | ⟨e3, e4⟩) <;> simp only at e3 e4 ⊢ <;> subst e3 e4
            · by_cases e5 : ad (p l k) (q l k) = ad (q l k) (p l k)
              · obtain ⟨e6, _⟩ := hinj _ _ _ _ p1 p2 e5
                simp [set, e6]
              · simp [set, e5]
            · simp [set]
          · rw [set_ne _ _ (hx (q l k, p l k) (Or.inr ⟨rfl, rfl⟩)), set_ne _ _ (hx (p l k, q l k) (Or.inl ⟨rfl, rfl⟩))])
      refine ⟨m', h1, ?_, fun x hx => h3 x ?_⟩
      · rintro x ⟨k, hk, s⟩
        exact h2 k x hk s
      · intro k y hk s
        exact hx y ⟨k, hk, s⟩)
  refine ⟨m', h1, ?_, fun x hx => h3 x ?_⟩
  · rintro i j ⟨l, k, hl, hk, s⟩
    exact h2 l (i, j) hl ⟨k, hk, s⟩
  · rintro l ⟨i, j⟩ hl ⟨k, hk, s⟩
    exact hx i j ⟨l, k, hl, hk, s⟩

/-- Nested loops that conjugate elements. -/
theorem conj_run [Star K] {c : Nat} {len : Nat → Nat} {a : Nat → Nat → Int}
    {ad : Nat → Nat → Int} {P : Nat → Nat → Prop} {Q : Nat → Nat → K} {m : Mem K} (p q : Nat → Nat → Nat)
    (hP : ∀ l k, l < c → k < len l → P (p l k) (q l k))
    (ha : ∀ l k, l < c → k < len l → a l k = ad (p l k) (q l k))
    (hcov : ∀ i j, P i j → ∃ l k, l < c ∧ k < len l ∧ p l k = i ∧ q l k = j)
    (hone : ∀ l k l' k', l < c → k < len l → l' < c → k' < len l' → p l k = p l' k' ∧ q l k = q l' k' → l = l' ∧ k = k')
    (hinj : ∀ i j k l, P i j → P k l → ad i j = ad k l → i = k ∧ j = l) (hA : StAt m ad P Q) :
    YieldsSt (loop c fun l => loop (len l) fun k => conjCell (a l k)) m ad P fun i j => star (Q i j) := by
  have hS : ∀ l k l' k', l < c → k < len l → l' < c → k' < len l' → ad (p l k) (q l k) = ad (p l' k') (q l' k') →
      l = l' ∧ k = k' := fun l k l' k' hl hk hl' hk' e =>
    hone l k l' k' hl hk hl' hk' (hinj _ _ _ _ (hP l k hl hk) (hP l' k' hl' hk') e)
  obtain ⟨m', h1, h2, h3⟩ := passes_run (c := c) (f := fun l => loop (len l) fun k => conjCell (a l k)) (m := m)
    (fun x : Nat × Nat => ad x.1 x.2) (fun x => star (Q x.1 x.2)) (fun l x => ∃ k, k < len l ∧ x = (p l k, q l k))
    (by
      rintro l l' _ _ hl hl' ⟨k, hk, rfl⟩ ⟨k', hk', rfl⟩ e
      obtain ⟨rfl, rfl⟩ := hS l k l' k' hl hk hl' hk' e
      exact ⟨rfl, rfl⟩)
    (by
      intro l hl m1 hm1
      obtain ⟨m', h1, h2, h3⟩ := passes_run (c := len l) (f := fun k => conjCell (a l k)) (m := m1)
        (fun x : Nat × Nat => ad x.1 x.2) (fun x => star (Q x.1 x.2)) (fun k x => x = (p l k, q l k))
        (by
          rintro k k' _ _ hk hk' rfl rfl e
          obtain ⟨_, rfl⟩ := hS l k l k' hl hk hl hk' e
          exact ⟨rfl, rfl⟩)
        (by
          intro k hk m2 hm2
          have e1 : m2 (ad (p l k) (q l k)) = .val (Q (p l k) (q l k)) := by
            refine ((hm2 _ ?_).trans (hm1 _ ?_)).trans (hA _ _ (hP l k hl hk))
            · rintro k' _ hk' rfl e
              have := (hS l k l k' hl hk hl (by omega) e).2
              omega
            · rintro l' _ hl' ⟨k', hk', rfl⟩ e
              have := (hS l k l' k' hl hk (by omega) hk' e).1
              omega
          refine ⟨set m2 (ad (p l k) (q l k)) (star (Q (p l k) (q l k))), ?_, ?_, fun x hx => set_ne _ _ (hx _ rfl)⟩
          · rw [ha l k hl hk]
            exact (bind_ok (load_ok e1)).trans (store_ok (by rw [e1]; simp))
          · rintro _ rfl
            simp [set])
      refine ⟨m', h1, ?_, fun x hx => h3 x ?_⟩
      · rintro _ ⟨k, hk, rfl⟩
        exact h2 k _ hk rfl
      · rintro k _ hk rfl
        exact hx _ ⟨k, hk, rfl⟩)
  refine ⟨m', h1, fun i j hp => ?_, fun x hx => h3 x ?_⟩
  · obtain ⟨l, k, hl, hk, e1, e2⟩ := hcov i j hp
    exact h2 l (i, j) hl ⟨k, hk, by rw [e1, e2]⟩
  · rintro l _ hl ⟨k, hk, rfl⟩
    exact hx _ _ (hP l k hl hk)

/-- Elements that are exchanged, and the diagonal, make up the transpose. -/
theorem YieldsSt.withDiag {cm : M K Unit} {m : Mem K} {ad : Nat → Nat → Int} {P P' : Nat → Nat → Prop} {Q : Nat → Nat → K}
    (h : YieldsSt cm m ad P' fun i j => Q j i) (hA : StAt m ad P Q)
    (hinj : ∀ i j k l, P i j → P k l → ad i j = ad k l → i = k ∧ j = l)
    (hp : ∀ i j, P i j ↔ P' i j ∨ (i = j ∧ P i i)) (hq : ∀ i, ¬P' i i) : YieldsSt cm m ad P fun i j => Q j i := by
  obtain ⟨m', h1, h2, h3⟩ := h
  refine ⟨m', h1, fun i j hij => ?_, fun a ha => h3 a fun i j hij => ha i j ((hp i j).2 (Or.inl hij))⟩
  rcases (hp i j).1 hij with h | ⟨rfl, h⟩
  · exact h2 i j h
  · refine (h3 _ fun k l hkl e => ?_).trans (hA i i h)
    obtain ⟨rfl, rfl⟩ := hinj _ _ _ _ h ((hp k l).2 (Or.inl hkl)) e
    exact hq _ hkl

/-! ### C95: `gecotr` -/

section ge
variable {o : Order} {t : Trans} {r c n : Nat} {A ldA : Int} {m : Mem K} {QA : Nat → Nat → K}

theorem gecotrConj_run [Star K] (hA : MatAt m A .colMajor ldA (full r c) QA) (hld : (r : Int) ≤ ldA) :
    YieldsMat (gecotrConj r c A ldA) m A .colMajor ldA (full r c) fun i j => star (QA i j) := by
  refine conj_run (fun _ k => k) (fun l _ => l) (fun l k hl hk => ⟨hk, hl⟩)
    (fun l k _ _ => ?_) (fun i j h => ⟨j, i, h.2, h.1, rfl, rfl⟩) (fun l k l' k' _ _ _ _ e => ⟨e.2, e.1⟩)
    (matAd_injC fun i j h => by have := h.1; omega) hA
  simp only [matAd, idx]; ring

theorem gecotrSwap_run (hA : MatAt m A .colMajor ldA (full n n) QA) (hld : (n : Int) ≤ ldA) :
    YieldsMat (gecotrSwap n A ldA) m A .colMajor ldA (full n n) fun i j => QA j i := by
  have hinj : ∀ i j k l, full n n i j → full n n k l → matAd A .colMajor ldA i j = matAd A .colMajor ldA k l → i = k ∧ j = l :=
    matAd_injC fun i j h => by have := h.1; omega
  have := pairs_run (K := K) pair_swap (c := n) (len := fun i => i) (a := fun i j => A + (i + ldA * j))
    (b := fun i j => A + (j + ldA * i)) (ad := matAd A .colMajor ldA) (P := full n n) (Q := QA) (m := m) (fun i _ => i) (fun _ j => j)
    (fun l k hl hk => ⟨⟨hl, by omega⟩, ⟨by omega, hl⟩⟩) (fun l k _ _ => by simp only [matAd, idx]; ring)
    (fun l k _ _ => by simp only [matAd, idx]; ring) (fun l k l' k' _ _ _ _ e => by omega) hinj hA
  refine YieldsSt.withDiag this hA hinj (fun i j => ⟨fun h => ?_, ?_⟩) ?_
  · rcases Nat.lt_trichotomy i j with q | q | q
    · exact Or.inl ⟨j, i, h.2, q, Or.inr ⟨rfl, rfl⟩⟩
    · subst q; exact Or.inr ⟨rfl, h⟩
    · exact Or.inl ⟨i, j, h.1, q, Or.inl ⟨rfl, rfl⟩⟩
  · rintro (⟨l, k, hl, hk, ⟨rfl, rfl⟩ | ⟨rfl, rfl⟩⟩ | ⟨rfl, h⟩)
    · exact ⟨hl, by omega⟩
    · exact ⟨by omega, hl⟩
    · exact h
  · rintro i ⟨l, k, hl, hk, ⟨e1, e2⟩ | ⟨e1, e2⟩⟩ <;> omega

theorem gecotrCol_run [Star K] (ht : t.trans = true → r = c) (hA : MatAt m A .colMajor ldA (full r c) QA)
    (hld : (r : Int) ≤ ldA) : YieldsMat (gecotrCol t r c A ldA) m A .colMajor ldA (full r c) (opM t QA) := by
  obtain ⟨b, b'⟩ := t
  cases b'
  · cases b
    · exact ⟨m, rfl, hA, fun _ _ => rfl⟩
    · exact gecotrConj_run hA hld
  · obtain rfl := ht rfl
    cases b
    · simp only [gecotrCol, if_true]
      exact gecotrSwap_run hA hld
    · simp only [gecotrCol, if_true]
      exact (gecotrSwap_run hA hld).bind fun m' hV ho => gecotrConj_run hV hld

/-- **C95** `gecotr`: `A := op(A)` in place; a matrix that is transposed has to be square. -/
theorem C95_gecotr [Star K] (ht : t.trans = true → r = c) (hA : MatAt m A o ldA (full r c) QA) (hld : LdOk o ldA r c) :
    YieldsMat (gecotr o t r c A ldA) m A o ldA (full r c) (opM t QA) := by
  cases o
  · refine yieldsSt_row ?_
    have h := matAt_row hA
    rw [sw_full] at h ⊢
    exact gecotrCol_run (fun e => (ht e).symm) h hld
  · exact gecotrCol_run ht hA hld

/-- **C95** The transpose of a matrix that is not square fails an assertion. -/
theorem C95_gecotr_assert [Star K] (ht : t.trans = true) (h : r ≠ c) : gecotr o t r c A ldA m = assertFail m := by
  obtain ⟨b, b'⟩ := t
  simp only at ht
  subst ht
  have h' : c ≠ r := h.symm
  cases o <;> cases b <;> simp only [gecotr, gecotrCol, h, h', if_false]

/-- **C95** Twice the same `gecotr` restores the matrix. -/
theorem C95_involution [InvolutiveStar K] (ht : t.trans = true → r = c) (hA : MatAt m A o ldA (full r c) QA)
    (hld : LdOk o ldA r c) :
    YieldsMat (do gecotr o t r c A ldA; gecotr o t r c A ldA) m A o ldA (full r c) QA := by
  refine (C95_gecotr ht hA hld).bind fun m' hV ho => ?_
  obtain ⟨m'', h1, h2, h3⟩ := C95_gecotr ht hV hld
  refine ⟨m'', h1, fun i j hp => (h2 i j hp).trans ?_, h3⟩
  simp only [opM, cj]
  cases t.conj <;> cases t.trans <;> simp

end ge

/-! ### C95: `gbcotr` -/

section gb
variable {o : Order} {t : Trans} {r c kl ku n : Nat} {A ldA : Int} {m : Mem K} {QA : Nat → Nat → K}

theorem cell_diag {C ld : Int} (kl ku l k : Nat) :
    C + l + max (-((l : Int) - kl)) 0 * ld + k * ld = bandAd C .rowMajor ld kl ku (kl - l + k) (l - kl + k) := by
  simp only [bandAd, bandIdx]
  rcases Nat.le_total l kl with hl | hl
  · rw [max_eq_left (by omega)]
    have e1 : ((kl - l + k : Nat) : Int) = (kl : Int) - l + k := by omega
    have e2 : ((l - kl + k : Nat) : Int) = (k : Int) := by omega
    rw [e1, e2]; ring
  · rw [max_eq_right (by omega)]
    have e1 : ((kl - l + k : Nat) : Int) = (k : Int) := by omega
    have e2 : ((l - kl + k : Nat) : Int) = (l : Int) - kl + k := by omega
    rw [e1, e2]; ring

theorem gbcotrRow_run [Star K] (ht : t.trans = true → r = c ∧ kl = ku)
    (hA : StAt m (bandAd A .rowMajor ldA kl ku) (inBand kl ku r c) QA) (hld : (kl : Int) + ku + 1 ≤ ldA) :
    YieldsSt (gbcotrRow t r c kl ku A ldA) m (bandAd A .rowMajor ldA kl ku) (inBand kl ku r c) (opM t QA) := by
  have hinj := bandAd_inj (r := r) (c := c) (C := A) hld
  obtain ⟨b, b'⟩ := t
  cases b'
  · cases b
    · exact ⟨m, rfl, hA, fun _ _ => rfl⟩
    · refine conj_run (len := fun j : Nat => diagLen r c ((j : Int) - kl))
        (a := fun j k : Nat => A + j + max (-((j : Int) - kl)) 0 * ldA + k * ldA)
        (fun l k => kl - l + k) (fun l k => l - kl + k) (fun l k hl hk => ?_) (fun l k hl hk => cell_diag kl ku l k)
        (fun i j hp => ⟨kl + j - i, min i j, ?_⟩) (fun l k l' k' _ _ _ _ e => by omega) hinj hA
      · have := lt_diagLen.1 hk
        exact ⟨this.1, this.2, by omega, by omega⟩
      · obtain ⟨h1, h2, h3, h4⟩ := hp
        refine ⟨by omega, ?_, by omega, by omega⟩
        refine lt_diagLen.2 ?_
        omega
  · obtain ⟨rfl, rfl⟩ := ht rfl
    have run : ∀ {f : Int → Int → M K Unit} {h : K → K} (_ : PairActs f h) (e : Nat), e ≤ kl + 1 →
        YieldsSt (loop e fun j => loop (diagLen r r ((j : Int) - kl)) fun k =>
          f (A + j + max (-((j : Int) - kl)) 0 * ldA + k * ldA) (A + ((kl : Int) + kl - j) + max ((j : Int) - kl) 0 * ldA + k * ldA)) m
          (bandAd A .rowMajor ldA kl kl)
          (fun i j => ∃ l k, l < e ∧ k < diagLen r r ((l : Int) - kl) ∧
            ((i = kl - l + k ∧ j = l - kl + k) ∨ (i = l - kl + k ∧ j = kl - l + k))) fun i j => h (QA j i) := by
      intro f h hf e he
      refine pairs_run hf (len := fun j : Nat => diagLen r r ((j : Int) - kl))
        (a := fun j k : Nat => A + j + max (-((j : Int) - kl)) 0 * ldA + k * ldA)
        (b := fun j k : Nat => A + ((kl : Int) + kl - j) + max ((j : Int) - kl) 0 * ldA + k * ldA)
        (fun l k => kl - l + k) (fun l k => l - kl + k) (fun l k hl hk => ?_)
        (fun l k hl hk => cell_diag kl kl l k) (fun l k hl hk => ?_) (fun l k l' k' _ _ _ _ e => by omega) hinj hA
      · have := lt_diagLen.1 hk
        exact ⟨⟨this.1, this.2, by omega, by omega⟩, ⟨this.2, this.1, by omega, by omega⟩⟩
      · rw [max_eq_right (by omega)]
        simp only [bandAd, bandIdx]
        have e1 : ((kl - l + k : Nat) : Int) = (kl : Int) - l + k := by omega
        have e2 : ((l - kl + k : Nat) : Int) = (k : Int) := by omega
        rw [e1, e2]; ring
    cases b
    · simp only [gbcotrRow, and_self, if_true]
      refine YieldsSt.withDiag (run pair_swap kl (by omega)) hA hinj (fun i j => ⟨fun h => ?_, ?_⟩) ?_
      · obtain ⟨h1, h2, h3, h4⟩ := h
        rcases Nat.lt_trichotomy i j with q | q | q
        · refine Or.inl ⟨kl + i - j, i, by omega, lt_diagLen.2 (by omega), Or.inr (by omega)⟩
        · subst q; exact Or.inr ⟨rfl, h1, h2, h3, h4⟩
        · refine Or.inl ⟨kl + j - i, j, by omega, lt_diagLen.2 (by omega), Or.inl (by omega)⟩
      · rintro (⟨l, k, hl, hk, s⟩ | ⟨rfl, h⟩)
        · have := lt_diagLen.1 hk
          rcases s with ⟨rfl, rfl⟩ | ⟨rfl, rfl⟩
          · exact ⟨this.1, this.2, by omega, by omega⟩
          · exact ⟨this.2, this.1, by omega, by omega⟩
        · exact h
      · rintro i ⟨l, k, hl, hk, s⟩
        omega
    · simp only [gbcotrRow, and_self, if_true]
      refine YieldsSt.posCongr (run pair_conj (kl + 1) (by omega)) fun i j => ⟨?_, fun h => ?_⟩
      · rintro ⟨l, k, hl, hk, s⟩
        have := lt_diagLen.1 hk
        rcases s with ⟨rfl, rfl⟩ | ⟨rfl, rfl⟩
        · exact ⟨this.1, this.2, by omega, by omega⟩
        · exact ⟨this.2, this.1, by omega, by omega⟩
      · obtain ⟨h1, h2, h3, h4⟩ := h
        rcases Nat.le_total i j with q | q
        · refine ⟨kl + i - j, i, by omega, lt_diagLen.2 (by omega), Or.inr (by omega)⟩
        · refine ⟨kl + j - i, j, by omega, lt_diagLen.2 (by omega), Or.inl (by omega)⟩

/-- **C95** `gbcotr`: the band of `op(A)` in place; a matrix that is transposed has to be square, with as many diagonals below the main
one as above. -/
theorem C95_gbcotr [Star K] (ht : t.trans = true → r = c ∧ kl = ku)
    (hA : StAt m (bandAd A o ldA kl ku) (inBand kl ku r c) QA) (hld : (kl : Int) + ku + 1 ≤ ldA) :
    YieldsSt (gbcotr o t r c kl ku A ldA) m (bandAd A o ldA kl ku) (inBand kl ku r c) (opM t QA) := by
  cases o
  · exact gbcotrRow_run ht hA hld
  · rw [← stAt_sw, bandAd_sw, inBand_sw] at hA
    refine yieldsSt_sw ?_
    rw [bandAd_sw, inBand_sw]
    exact gbcotrRow_run (fun h => ⟨(ht h).1.symm, (ht h).2.symm⟩) hA (by omega)

/-- **C95** Any other transpose fails an assertion. -/
theorem C95_gbcotr_assert [Star K] (ht : t.trans = true) (h : ¬(r = c ∧ kl = ku)) :
    gbcotr o t r c kl ku A ldA m = assertFail m := by
  obtain ⟨b, b'⟩ := t
  simp only at ht
  subst ht
  have h' : ¬(c = r ∧ ku = kl) := fun e => h ⟨e.1.symm, e.2.symm⟩
  cases o <;> cases b <;> simp only [gbcotr, gbcotrRow, h, h', if_false]

end gb

/-- The hypotheses hold for a matrix of order 3 with gaps between its columns, and for a band of 3 diagonals in it. -/
example : MatAt exTwo 0 .colMajor 3 (full 3 3) (fun i j => 10 + (i : Int) + 3 * j) ∧ LdOk .colMajor 3 3 3 ∧
    StAt exTwo (bandAd 0 .colMajor 3 1 1) (inBand 1 1 3 3) (fun i j => 11 + (i : Int) + 2 * j) := by
  refine ⟨?_, by simp [LdOk], ?_⟩
  · rintro i j ⟨hi, hj⟩
    interval_cases i <;> interval_cases j <;> decide
  · rintro i j ⟨hi, hj, h3, h4⟩
    interval_cases i <;> interval_cases j <;> first | decide | omega

example : (peek (gecotr (K := Int) .colMajor doTrans 3 3 0 3 exTwo) fun _ m => (m 0, m 1, m 2, m 3, m 5)) =
    .ok (.val 10, .val 13, .val 16, .val 11, .val 17) := by decide

example : (peek (gbcotr (K := Int) .colMajor conjTrans 3 3 1 1 0 3 exTwo) fun _ m => (m 1, m 2, m 3, m 5, m 6)) =
    .ok (.val 11, .val 13, .val 12, .val 16, .val 15) := by decide

end Verif.Blas
