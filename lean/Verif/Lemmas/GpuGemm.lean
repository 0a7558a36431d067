import Verif.Lemmas.GpuKernels

/-! The matrix product kernel: what it computes, whatever the interleaving. -/

namespace Verif.Gpu

variable {K : Type} [Zero K] [Add K] [Mul K]

/-- Entry `(row, j)` of the tile of A. -/
def valA (D : Nat) (p : GemmArgs K) (a : Nat → K) (g : Nat × Nat) (t row j : Nat) : K :=
  if t * D + j < p.k ∧ g.2 * D + row < p.m then a (p.atA (g.2 * D + row) (t * D + j)) else 0

/-- Entry `(j, col)` of the tile of B. -/
def valB (D : Nat) (p : GemmArgs K) (b : Nat → K) (g : Nat × Nat) (t j col : Nat) : K :=
  if t * D + col < p.k ∧ g.1 * D + col < p.n then b (p.atB (g.1 * D + col) (g.2 * D + j) (t * D + col)) else 0

/-- What iterations `j, …, j + r - 1` of the inner loop add. -/
def tileSum (D : Nat) (p : GemmArgs K) (a b : Nat → K) (g l : Nat × Nat) (t r j : Nat) (s : K) : K :=
  (List.range' j r).foldl (fun s j => if t * D + j < p.k then s + valA D p a g t l.2 j * valB D p b g t j l.1 else s) s

/-- The accumulator before tile `t`. -/
def accAt (D : Nat) (p : GemmArgs K) (a b : Nat → K) (g l : Nat × Nat) (t : Nat) : K :=
  (List.range t).foldl (fun s t => tileSum D p a b g l t D 0 s) 0

section
variable {lim D : Nat} {p : GemmArgs K} {a b : Nat → K}

/-- The inputs: `a` and `b` hold the contents; every index the kernel uses is inside. `gy` is the number of groups in the second dimension. -/
structure GemmIn (lim D gy : Nat) (p : GemmArgs K) (a b : Nat → K) (M : Mem GemmLoc K) : Prop where
  a : ∀ i q, i < p.m → q < p.k → p.atA i q < lim ∧ M (.a (p.atA i q)) = some (a (p.atA i q))
  b : ∀ gx t x y, x < D → gx * D + x < p.n → y < gy * D → t * D + x < p.k →
    p.atB (gx * D + x) y (t * D + x) < lim ∧ M (.b (p.atB (gx * D + x) y (t * D + x))) = some (b (p.atB (gx * D + x) y (t * D + x)))

theorem tileLoad_eff {gy : Nat} {M : Mem GemmLoc K} (h : GemmIn lim D gy p a b M) {g : Nat × Nat} {lx ly t : Nat} (hx : lx < D) (hy : g.2 * D + ly < gy * D)
    (h1 : M (.asub g ly lx) ≠ none) (h2 : M (.bsub g ly lx) ≠ none) {q : Prog GemmLoc K} :
    Eff M (gemmLoadA lim D p g (lx, ly) t <| gemmLoadB lim D p g (lx, ly) t <| .barrier q)
      (Function.update (Function.update M (.asub g ly lx) (some (valA D p a g t ly lx))) (.bsub g ly lx) (some (valB D p b g t ly lx)))
      (.barrier q) (fun x => (∃ i, x = .a i) ∨ (∃ i, x = .b i) ∨ x = .asub g ly lx ∨ x = .bsub g ly lx)
      (fun x => x = .asub g ly lx ∨ x = .bsub g ly lx) := by
  have hB : ∀ M' : Mem GemmLoc K, (∀ i, M' (.b i) = M (.b i)) → M' (.bsub g ly lx) ≠ none →
      Eff M' (gemmLoadB lim D p g (lx, ly) t <| .barrier q) (Function.update M' (.bsub g ly lx) (some (valB D p b g t ly lx))) (.barrier q)
        (fun x => (∃ i, x = .b i) ∨ x = .bsub g ly lx) (fun x => x = .bsub g ly lx) := by
    intro M' hb hs
    unfold gemmLoadB valB
    by_cases hc : t * D + lx < p.k ∧ g.1 * D + lx < p.n
    · obtain ⟨b1, b2⟩ := h.b g.1 t lx (g.2 * D + ly) hx hc.2 hy hc.1
      simp only [hc, and_self, if_true]
      rw [within_eq b1]
      refine (Eff.read ((hb _).trans b2) (Eff.write hs Eff.barrier)).congr (fun x hx => ?_) (fun x => by simp)
      rcases hx with hx | hx | hx
      · exact .inl ⟨_, hx⟩
      · exact .inr hx
      · exact hx.elim
    · simp only [hc, if_false]
      refine (Eff.write hs Eff.barrier).congr (fun x hx => ?_) (fun x => by simp)
      rcases hx with hx | hx
      · exact .inr hx
      · exact hx.elim
  have hB' := hB (Function.update M (.asub g ly lx) (some (valA D p a g t ly lx))) (fun i => by simp) (by simpa using h2)
  unfold gemmLoadA
  by_cases hc : t * D + lx < p.k ∧ g.2 * D + ly < p.m
  · obtain ⟨a1, a2⟩ := h.a (g.2 * D + ly) (t * D + lx) hc.2 hc.1
    have hv : valA D p a g t ly lx = a (p.atA (g.2 * D + ly) (t * D + lx)) := if_pos hc
    rw [hv] at hB' ⊢
    simp only [hc, and_self, if_true]
    rw [within_eq a1]
    refine (Eff.read a2 (Eff.write h1 hB')).congr (fun x hx => ?_) (fun x => Iff.rfl)
    rcases hx with hx | hx | hx | hx
    · exact .inl ⟨_, hx⟩
    · exact .inr (.inr (.inl hx))
    · exact .inr (.inl hx)
    · exact .inr (.inr (.inr hx))
  · have hv : valA D p a g t ly lx = 0 := if_neg hc
    rw [hv] at hB' ⊢
    simp only [hc, if_false]
    refine (Eff.write h1 hB').congr (fun x hx => ?_) (fun x => Iff.rfl)
    rcases hx with hx | hx | hx
    · exact .inr (.inr (.inl hx))
    · exact .inr (.inl hx)
    · exact .inr (.inr (.inr hx))

theorem inner_eff {M : Mem GemmLoc K} {g : Nat × Nat} {lx ly t : Nat} (hl : lx < D ∧ ly < D)
    (h1 : ∀ r c, r < D → c < D → M (.asub g r c) = some (valA D p a g t r c)) (h2 : ∀ r c, r < D → c < D → M (.bsub g r c) = some (valB D p b g t r c))
    {k : K → Prog GemmLoc K} : ∀ (r j : Nat) (s : K), j + r ≤ D →
    Eff M (gemmInner p g (lx, ly) (t * D) (fun s => .barrier (k s)) r j s) M (.barrier (k (tileSum D p a b g (lx, ly) t r j s)))
      (fun x => (∃ r c, x = .asub g r c) ∨ ∃ r c, x = .bsub g r c) (fun _ => False)
  | 0, j, s, _ => Eff.barrier.mono fun _ h => h.elim
  | r + 1, j, s, hj => by
    rw [gemmInner]
    have hs : tileSum D p a b g (lx, ly) t (r + 1) j s =
        tileSum D p a b g (lx, ly) t r (j + 1) (if t * D + j < p.k then s + valA D p a g t ly j * valB D p b g t j lx else s) := by
      simp [tileSum, List.range'_succ]
    rw [hs]
    by_cases hc : t * D + j < p.k
    · simp only [hc, if_true]
      have ih := inner_eff (k := k) hl h1 h2 r (j + 1) (s + valA D p a g t ly j * valB D p b g t j lx) (by omega)
      refine (Eff.read (h1 ly j hl.2 (by omega)) (Eff.read (h2 j lx (by omega) hl.1) ih)).mono fun x hx => ?_
      rcases hx with hx | hx | hx
      · exact .inl ⟨_, _, hx⟩
      · exact .inr ⟨_, _, hx⟩
      · exact hx
    · simp only [hc, if_false]
      exact inner_eff hl h1 h2 r (j + 1) s (by omega)

theorem finish_eff {M : Mem GemmLoc K} {c : Nat → K} {inx iny : Nat} {s : K}
    (h : iny < p.m → inx < p.n → iny * p.ldc + inx < lim ∧ M (.c (iny * p.ldc + inx)) = some (c (iny * p.ldc + inx))) :
    Eff M (gemmFinish lim p inx iny s)
      (if iny < p.m ∧ inx < p.n then Function.update M (.c (iny * p.ldc + inx)) (some (p.alpha * s + p.beta * c (iny * p.ldc + inx))) else M) .ret
      (fun x => (iny < p.m ∧ inx < p.n) ∧ x = .c (iny * p.ldc + inx)) (fun x => (iny < p.m ∧ inx < p.n) ∧ x = .c (iny * p.ldc + inx)) := by
  unfold gemmFinish
  by_cases hc : iny < p.m ∧ inx < p.n
  · obtain ⟨c1, c2⟩ := h hc.1 hc.2
    simp only [hc, and_self, if_true]
    rw [within_eq c1]
    refine (Eff.read c2 (Eff.write (by rw [c2]; simp) Eff.ret)).congr (fun x hx => ?_) (fun x => by simp)
    rcases hx with hx | hx | hx
    · exact ⟨trivial, hx⟩
    · exact ⟨trivial, hx⟩
    · exact hx.elim
  · simp only [hc, if_false]
    exact Eff.ret.congr (fun _ h => h.elim) (fun x => by simp)
end

section
variable {gx gy D lim tiles : Nat} {p : GemmArgs K} {a b c : Nat → K}

/-- What a group writes: its tiles and its block of C. -/
def GmOwn (gx gy D : Nat) (p : GemmArgs K) (g : Fin gx × Fin gy) : GemmLoc → Prop
  | .a _ => False
  | .b _ => False
  | .c i => ∃ x y, x < D ∧ y < D ∧ g.2 * D + y < p.m ∧ g.1 * D + x < p.n ∧ i = (g.2 * D + y) * p.ldc + (g.1 * D + x)
  | .asub g' _ _ => g' = ((g.1 : Nat), (g.2 : Nat))
  | .bsub g' _ _ => g' = ((g.1 : Nat), (g.2 : Nat))

def GmDom (gx gy D : Nat) (p : GemmArgs K) (g : Fin gx × Fin gy) (x : GemmLoc) : Prop := GmOwn gx gy D p g x ∨ (∃ i, x = .a i) ∨ ∃ i, x = .b i

/-- What holds of the memory while the group runs, until it writes its results. -/
structure GmMem (lim gx gy D : Nat) (p : GemmArgs K) (a b c : Nat → K) (g : Fin gx × Fin gy) (M : Mem GemmLoc K) : Prop where
  inp : GemmIn lim D gy p a b M
  sub : ∀ x y, x < D → y < D → M (.asub (g.1, g.2) y x) ≠ none ∧ M (.bsub (g.1, g.2) y x) ≠ none
  out : ∀ i, GmOwn gx gy D p g (.c i) → i < lim ∧ M (.c i) = some (c i)

/-- The stages of a group: before a tile (or the end), and between the two barriers of a tile. -/
inductive GmQ (lim gx gy D tiles : Nat) (p : GemmArgs K) (a b c : Nat → K) : Fin gx × Fin gy → (Item gx gy D → Prog GemmLoc K) → Mem GemmLoc K → Prop
  | load {g P M} (t r : Nat) (ht : t + r = tiles)
    (hp : ∀ i : Item gx gy D, i.1 = g → P i = gemmTiles lim D p i.group i.local r t (accAt D p a b i.group i.local t)) (hm : GmMem lim gx gy D p a b c g M) :
    GmQ lim gx gy D tiles p a b c g P M
  | inner {g P M} (t r : Nat) (ht : t + (r + 1) = tiles)
    (hp : ∀ i : Item gx gy D, i.1 = g → P i = gemmInner p i.group i.local (t * D) (fun s => .barrier (gemmTiles lim D p i.group i.local r (t + 1) s)) D 0
      (accAt D p a b i.group i.local t)) (hm : GmMem lim gx gy D p a b c g M)
    (ha : ∀ y x, y < D → x < D → M (.asub (g.1, g.2) y x) = some (valA D p a (g.1, g.2) t y x))
    (hb : ∀ y x, y < D → x < D → M (.bsub (g.1, g.2) y x) = some (valB D p b (g.1, g.2) t y x)) : GmQ lim gx gy D tiles p a b c g P M

/-- What a group leaves. -/
def GmR (gx gy D tiles : Nat) (p : GemmArgs K) (a b c : Nat → K) (g : Fin gx × Fin gy) (m : Mem GemmLoc K) : Prop :=
  ∀ x y, x < D → y < D → g.2 * D + y < p.m → g.1 * D + x < p.n →
    m (.c ((g.2 * D + y) * p.ldc + (g.1 * D + x))) =
      some (p.alpha * accAt D p a b (g.1, g.2) (x, y) tiles + p.beta * c ((g.2 * D + y) * p.ldc + (g.1 * D + x)))

/-- The three kinds of stage, with what a work item does in each. -/
theorem GmQ.cases' {g : Fin gx × Fin gy} {P : Item gx gy D → Prog GemmLoc K} {M : Mem GemmLoc K} (hq : GmQ lim gx gy D tiles p a b c g P M) :
    (∀ l : Fin D × Fin D, Eff M (P (g, l))
      (if g.2 * D + l.2 < p.m ∧ g.1 * D + l.1 < p.n then Function.update M (.c ((g.2 * D + l.2) * p.ldc + (g.1 * D + l.1)))
        (some (p.alpha * accAt D p a b (g.1, g.2) (l.1, l.2) tiles + p.beta * c ((g.2 * D + l.2) * p.ldc + (g.1 * D + l.1)))) else M) .ret
      (fun x => (g.2 * D + l.2 < p.m ∧ g.1 * D + l.1 < p.n) ∧ x = .c ((g.2 * D + l.2) * p.ldc + (g.1 * D + l.1)))
      (fun x => (g.2 * D + l.2 < p.m ∧ g.1 * D + l.1 < p.n) ∧ x = .c ((g.2 * D + l.2) * p.ldc + (g.1 * D + l.1)))) ∨
    (GmMem lim gx gy D p a b c g M ∧ ∃ t r, t + (r + 1) = tiles ∧ ∀ l : Fin D × Fin D, Eff M (P (g, l))
      (Function.update (Function.update M (.asub (g.1, g.2) l.2 l.1) (some (valA D p a (g.1, g.2) t l.2 l.1))) (.bsub (g.1, g.2) l.2 l.1) (some (valB D p b (g.1, g.2) t l.2 l.1)))
      (.barrier (gemmInner p ((g.1 : Nat), (g.2 : Nat)) ((l.1 : Nat), (l.2 : Nat)) (t * D)
        (fun s => .barrier (gemmTiles lim D p ((g.1 : Nat), (g.2 : Nat)) ((l.1 : Nat), (l.2 : Nat)) r (t + 1) s)) D 0 (accAt D p a b (g.1, g.2) (l.1, l.2) t)))
      (fun x => (∃ i, x = .a i) ∨ (∃ i, x = .b i) ∨ x = .asub (g.1, g.2) l.2 l.1 ∨ x = .bsub (g.1, g.2) l.2 l.1)
      (fun x => x = .asub (g.1, g.2) l.2 l.1 ∨ x = .bsub (g.1, g.2) l.2 l.1)) ∨
    (GmMem lim gx gy D p a b c g M ∧ ∃ t r, t + (r + 1) = tiles ∧ ∀ l : Fin D × Fin D, Eff M (P (g, l)) M
      (.barrier (gemmTiles lim D p ((g.1 : Nat), (g.2 : Nat)) ((l.1 : Nat), (l.2 : Nat)) r (t + 1) (accAt D p a b (g.1, g.2) (l.1, l.2) (t + 1))))
      (fun x => (∃ r c, x = .asub (g.1, g.2) r c) ∨ ∃ r c, x = .bsub (g.1, g.2) r c) (fun _ => False)) := by
  cases hq with
  | load t r ht hp hm =>
    cases r with
    | zero =>
      refine .inl fun l => ?_
      have ht : t = tiles := by omega
      subst ht
      rw [hp (g, l) rfl, gemmTiles]
      exact finish_eff fun h1 h2 => hm.out _ ⟨_, _, l.1.2, l.2.2, h1, h2, rfl⟩
    | succ r =>
      refine .inr (.inl ⟨hm, t, r, ht, fun l => ?_⟩)
      rw [hp (g, l) rfl, gemmTiles]
      exact tileLoad_eff hm.inp l.1.2 (cell_lt g.2.2 l.2.2) (hm.sub _ _ l.1.2 l.2.2).1 (hm.sub _ _ l.1.2 l.2.2).2
  | inner t r ht hp hm ha hb =>
    refine .inr (.inr ⟨hm, t, r, ht, fun l => ?_⟩)
    rw [hp (g, l) rfl]
    have h1 : accAt D p a b ((g.1 : Nat), (g.2 : Nat)) ((l.1 : Nat), (l.2 : Nat)) (t + 1) =
        tileSum D p a b ((g.1 : Nat), (g.2 : Nat)) ((l.1 : Nat), (l.2 : Nat)) t D 0 (accAt D p a b ((g.1 : Nat), (g.2 : Nat)) ((l.1 : Nat), (l.2 : Nat)) t) := by
      simp [accAt, List.range_succ]
    rw [h1]
    exact inner_eff ⟨l.1.2, l.2.2⟩ ha hb D 0 _ (by omega)

/-- Memory after a stage in which only tiles were written. -/
theorem GmMem.keep {g : Fin gx × Fin gy} {M m : Mem GemmLoc K} (h : GmMem lim gx gy D p a b c g M)
    (ha : ∀ i, m (.a i) = M (.a i)) (hb : ∀ i, m (.b i) = M (.b i)) (hc : ∀ i, GmOwn gx gy D p g (.c i) → m (.c i) = M (.c i))
    (hs : ∀ x y, x < D → y < D → m (.asub (g.1, g.2) y x) ≠ none ∧ m (.bsub (g.1, g.2) y x) ≠ none) : GmMem lim gx gy D p a b c g m :=
  ⟨⟨fun i q h1 h2 => by rw [ha]; exact h.inp.a i q h1 h2, fun gx t x y h1 h2 h3 h4 => by rw [hb]; exact h.inp.b gx t x y h1 h2 h3 h4⟩, hs,
    fun i hi => by rw [hc i hi]; exact h.out i hi⟩

theorem gemm_rule (hld : p.n ≤ p.ldc) :
    Rule (fun t : Item gx gy D => t.1) (GmQ lim gx gy D tiles p a b c) (GmR gx gy D tiles p a b c) (GmDom gx gy D p) (GmOwn gx gy D p) where
  own_dom g x h := .inl h
  disjoint g g' x h h' := by
    rcases h' with h' | ⟨i, rfl⟩ | ⟨i, rfl⟩
    · cases x with
      | a i => exact h.elim
      | b i => exact h.elim
      | c i =>
        obtain ⟨x, y, hx, hy, h1, h2, rfl⟩ := h
        obtain ⟨x', y', hx', hy', h1', h2', he⟩ := h'
        obtain ⟨e1, e2⟩ := cell_inj (by omega) (by omega) he
        exact Prod.ext (Fin.ext (cell_inj hx hx' e2).1) (Fin.ext (cell_inj hy hy' e1).1)
      | asub g₀ r c =>
        have h : g₀ = ((g.1 : Nat), (g.2 : Nat)) := h
        have h' : g₀ = ((g'.1 : Nat), (g'.2 : Nat)) := h'
        rw [h] at h'
        injection h' with e1 e2
        exact Prod.ext (Fin.ext e1) (Fin.ext e2)
      | bsub g₀ r c =>
        have h : g₀ = ((g.1 : Nat), (g.2 : Nat)) := h
        have h' : g₀ = ((g'.1 : Nat), (g'.2 : Nat)) := h'
        rw [h] at h'
        injection h' with e1 e2
        exact Prod.ext (Fin.ext e1) (Fin.ext e2)
    · exact h.elim
    · exact h.elim
  acc_dom := by
    rintro g P M hq ⟨_, l⟩ rfl x hx
    rcases hq.cases' with e | ⟨-, t, r, -, e⟩ | ⟨-, t, r, -, e⟩
    · obtain ⟨h, rfl⟩ := (e l).acc x hx
      exact .inl ⟨_, _, l.1.2, l.2.2, h.1, h.2, rfl⟩
    · rcases (e l).acc x hx with h | h | rfl | rfl
      · exact .inr (.inl h)
      · exact .inr (.inr h)
      · exact .inl rfl
      · exact .inl rfl
    · rcases (e l).acc x hx with ⟨_, _, rfl⟩ | ⟨_, _, rfl⟩
      · exact .inl rfl
      · exact .inl rfl
  wr_own := by
    rintro g P M hq ⟨_, l⟩ rfl x hx
    rcases hq.cases' with e | ⟨-, t, r, -, e⟩ | ⟨-, t, r, -, e⟩
    · obtain ⟨h, rfl⟩ := ((e l).wr x).1 hx
      exact ⟨_, _, l.1.2, l.2.2, h.1, h.2, rfl⟩
    · rcases ((e l).wr x).1 hx with rfl | rfl
      · rfl
      · rfl
    · exact (((e l).wr x).1 hx).elim
  safe := by
    rintro g P M hq ⟨_, l⟩ rfl
    rcases hq.cases' with e | ⟨-, t, r, -, e⟩ | ⟨-, t, r, -, e⟩
    · exact (e l).safe
    · exact (e l).safe
    · exact (e l).safe
  race := by
    rintro g P M hq ⟨_, l⟩ ⟨g', l'⟩ rfl hg x h1 h2
    have hg : g' = _ := hg
    subst hg
    rcases hq.cases' with e | ⟨-, t, r, -, e⟩ | ⟨-, t, r, -, e⟩
    · obtain ⟨h, rfl⟩ := ((e l).wr x).1 h1
      obtain ⟨h', he⟩ := (e l').acc _ h2
      injection he with he
      obtain ⟨e1, e2⟩ := cell_inj (by omega) (by omega) he
      exact Prod.ext rfl (Prod.ext (Fin.ext (Nat.add_left_cancel e2)) (Fin.ext (Nat.add_left_cancel e1)))
    · rcases ((e l).wr x).1 h1 with rfl | rfl
      · rcases (e l').acc _ h2 with ⟨_, h⟩ | ⟨_, h⟩ | h | h
        · cases h
        · cases h
        · injection h with _ e1 e2
          exact Prod.ext rfl (Prod.ext (Fin.ext e2) (Fin.ext e1))
        · cases h
      · rcases (e l').acc _ h2 with ⟨_, h⟩ | ⟨_, h⟩ | h | h
        · cases h
        · cases h
        · cases h
        · injection h with _ e1 e2
          exact Prod.ext rfl (Prod.ext (Fin.ext e2) (Fin.ext e1))
    · exact (((e l).wr x).1 h1).elim
  next g P M hq := by
    rcases hq.cases' with e | ⟨-, t, r, -, e⟩ | ⟨-, t, r, -, e⟩
    · refine .inl ?_
      rintro ⟨_, l⟩ rfl
      rw [(e l).solo]
    · refine .inr ⟨fun i => gemmInner p i.group i.local (t * D)
        (fun s => .barrier (gemmTiles lim D p i.group i.local r (t + 1) s)) D 0 (accAt D p a b i.group i.local t), ?_⟩
      rintro ⟨_, l⟩ rfl
      rw [(e l).solo]; rfl
    · refine .inr ⟨fun i => gemmTiles lim D p i.group i.local r (t + 1) (accAt D p a b i.group i.local (t + 1)), ?_⟩
      rintro ⟨_, l⟩ rfl
      rw [(e l).solo]; rfl
  step := by
    rintro g P M hq ⟨⟨g', l⟩, hg⟩ k m hk hm
    have hg : g' = g := hg
    subst g'
    rcases hq.cases' with e | ⟨hM, t, r, ht, e⟩ | ⟨hM, t, r, ht, e⟩
    · have := hk (g, l) rfl
      rw [(e l).solo] at this
      cases this
    · have hA : ∀ (y x : Nat) (hy : y < D) (hx : x < D), m (.asub ((g.1 : Nat), (g.2 : Nat)) y x) = some (valA D p a ((g.1 : Nat), (g.2 : Nat)) t y x) := by
        intro y x hy hx
        have e' := e (⟨x, hx⟩, ⟨y, hy⟩)
        rw [hm.1 (g, (⟨x, hx⟩, ⟨y, hy⟩)) rfl (.asub (g.1, g.2) y x) ((e'.wr _).2 (.inl rfl)), e'.solo]
        simp
      have hB : ∀ (y x : Nat) (hy : y < D) (hx : x < D), m (.bsub ((g.1 : Nat), (g.2 : Nat)) y x) = some (valB D p b ((g.1 : Nat), (g.2 : Nat)) t y x) := by
        intro y x hy hx
        have e' := e (⟨x, hx⟩, ⟨y, hy⟩)
        rw [hm.1 (g, (⟨x, hx⟩, ⟨y, hy⟩)) rfl (.bsub (g.1, g.2) y x) ((e'.wr _).2 (.inr rfl)), e'.solo]
        simp
      refine .inner t r ht ?_ (hM.keep (fun i => ?_) (fun i => ?_) (fun i hi => ?_) fun x y hx hy => ?_) (fun y x hy hx => hA y x hy hx) (fun y x hy hx => hB y x hy hx)
      · rintro ⟨_, l'⟩ rfl
        have := hk (_, l') rfl
        rw [(e l').solo] at this
        injection this with e
        exact e.symm
      · refine hm.2 _ (.inr (.inl ⟨_, rfl⟩)) ?_
        rintro ⟨_, l'⟩ rfl hw
        rcases ((e l').wr _).1 hw with h | h <;> cases h
      · refine hm.2 _ (.inr (.inr ⟨_, rfl⟩)) ?_
        rintro ⟨_, l'⟩ rfl hw
        rcases ((e l').wr _).1 hw with h | h <;> cases h
      · refine hm.2 _ (.inl hi) ?_
        rintro ⟨_, l'⟩ rfl hw
        rcases ((e l').wr _).1 hw with h | h <;> cases h
      · rw [hA y x hy hx, hB y x hy hx]; simp
    · have hsame : ∀ x, GmDom gx gy D p g x → m x = M x := by
        intro x hx
        refine hm.2 x hx ?_
        rintro ⟨_, l'⟩ rfl hw
        exact (((e l').wr _).1 hw).elim
      refine .load (t + 1) r (by omega) ?_ (hM.keep (fun i => hsame _ (.inr (.inl ⟨_, rfl⟩))) (fun i => hsame _ (.inr (.inr ⟨_, rfl⟩)))
        (fun i hi => hsame _ (.inl hi)) fun x y hx hy => ?_)
      · rintro ⟨_, l'⟩ rfl
        have := hk (_, l') rfl
        rw [(e l').solo] at this
        injection this with e
        exact e.symm
      · rw [hsame (.asub (g.1, g.2) y x) (.inl rfl), hsame (.bsub (g.1, g.2) y x) (.inl rfl)]
        exact hM.sub x y hx hy
  finish := by
    intro g P M hq hret m hm x y hx hy h1 h2
    rcases hq.cases' with e | ⟨-, t, r, -, e⟩ | ⟨-, t, r, -, e⟩
    · have e' := e (⟨x, hx⟩, ⟨y, hy⟩)
      rw [hm.1 (g, (⟨x, hx⟩, ⟨y, hy⟩)) rfl _ ((e'.wr _).2 ⟨⟨h1, h2⟩, rfl⟩), e'.solo]
      simp [h1, h2]
    · have := hret (g, (⟨x, hx⟩, ⟨y, hy⟩)) rfl
      rw [(e _).solo] at this
      cases this
    · have := hret (g, (⟨x, hx⟩, ⟨y, hy⟩)) rfl
      rw [(e _).solo] at this
      cases this
end

end Verif.Gpu
