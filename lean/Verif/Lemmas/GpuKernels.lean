import Verif.Model.GpuKernels
import Verif.Lemmas.Gpu

/-! What the kernels' work items do alone. -/

namespace Verif.Gpu

section
variable {L V : Type} [DecidableEq L] {m : Mem L V} {l : L} {v : V} {k : V → Prog L V} {q : Prog L V}

/-- A summary of what a work item does up to the next barrier: the memory and the program it leaves, a bound on the locations it uses, and the
locations it writes. -/
structure Eff (m : Mem L V) (p : Prog L V) (m' : Mem L V) (q : Prog L V) (ac wt : L → Prop) : Prop where
  solo : solo m p = (m', q)
  safe : safe m p
  acc : ∀ x, acc m p x → ac x
  wr : ∀ x, wr m p x ↔ wt x

theorem Eff.ret : Eff m .ret m .ret (fun _ => False) (fun _ => False) := ⟨rfl, trivial, fun _ h => h, fun _ => Iff.rfl⟩

theorem Eff.barrier : Eff m (.barrier q) m (.barrier q) (fun _ => False) (fun _ => False) := ⟨rfl, trivial, fun _ h => h, fun _ => Iff.rfl⟩

theorem Eff.read {m' : Mem L V} {ac wt : L → Prop} (h : m l = some v) (e : Eff m (k v) m' q ac wt) : Eff m (.read l k) m' q (fun x => x = l ∨ ac x) wt where
  solo := by simp only [Gpu.solo, h]; exact e.solo
  safe := by simp only [Gpu.safe, h]; exact e.safe
  acc x hx := by simp only [Gpu.acc, h] at hx; exact hx.imp id (e.acc x)
  wr x := by simp only [Gpu.wr, h]; exact e.wr x

theorem Eff.write {m' : Mem L V} {q' : Prog L V} {ac wt : L → Prop} (h : m l ≠ none) (e : Eff (Function.update m l (some v)) q' m' q ac wt) :
    Eff m (.write l v q') m' q (fun x => x = l ∨ ac x) (fun x => x = l ∨ wt x) where
  solo := by simp only [Gpu.solo, h, if_false]; exact e.solo
  safe := ⟨h, e.safe⟩
  acc x hx := by simp only [Gpu.acc] at hx; exact hx.imp id (e.acc x)
  wr x := by simp only [Gpu.wr]; exact or_congr Iff.rfl (e.wr x)

theorem Eff.mono {p : Prog L V} {m' : Mem L V} {ac ac' wt : L → Prop} (e : Eff m p m' q ac wt) (h : ∀ x, ac x → ac' x) : Eff m p m' q ac' wt :=
  ⟨e.solo, e.safe, fun x hx => h x (e.acc x hx), e.wr⟩

theorem Eff.congr {p : Prog L V} {m' : Mem L V} {ac ac' wt wt' : L → Prop} (e : Eff m p m' q ac wt) (h : ∀ x, ac x → ac' x) (hw : ∀ x, wt x ↔ wt' x) :
    Eff m p m' q ac' wt' :=
  ⟨e.solo, e.safe, fun x hx => h x (e.acc x hx), fun x => (e.wr x).trans (hw x)⟩

omit [DecidableEq L] in
theorem within_eq {lim i : Nat} (h : i < lim) : within lim i q = q := by simp [within, h]
end

variable {K : Type} [Zero K] [Add K] [Mul K]

/-- The data gemv works on: `A`, `X`, `Y` are the entries it uses. -/
structure GemvData (lim : Nat) (g : GemvArgs K) (A : Nat → Nat → K) (X Y : Nat → K) (M : Mem GemvLoc K) : Prop where
  a : ∀ i j, i < g.m → j < g.n → g.at i j < lim ∧ M (.a (g.at i j)) = some (A i j)
  x : ∀ j, j < g.n → j * g.incX < lim ∧ M (.x (j * g.incX)) = some (X j)
  y : ∀ i, i < g.m → i * g.incY < lim ∧ M (.y (i * g.incY)) = some (Y i)

/-- The sum from `j` on, added to `acc`. -/
def dotFrom (A X : Nat → K) (r j : Nat) (acc : K) : K := (List.range' j r).foldl (fun s j => s + A j * X j) acc

theorem gemvLoop_eff {lim : Nat} {g : GemvArgs K} {A : Nat → Nat → K} {X Y : Nat → K} {M : Mem GemvLoc K} (h : GemvData lim g A X Y M) {idx : Nat} (hi : idx < g.m)
    {k : K → Prog GemvLoc K} {m' : Mem GemvLoc K} {q : Prog GemvLoc K} {ac wt : GemvLoc → Prop} : ∀ (r j : Nat) (s : K), j + r ≤ g.n →
    Eff M (k (dotFrom (A idx) X r j s)) m' q ac wt → Eff M (gemvLoop lim g idx k r j s) m' q (fun x => (∃ i, x = .a i) ∨ (∃ i, x = .x i) ∨ ac x) wt
  | 0, j, s, _, e => e.mono fun x hx => .inr (.inr hx)
  | r + 1, j, s, hj, e => by
    obtain ⟨a1, a2⟩ := h.a idx j hi (by omega)
    obtain ⟨x1, x2⟩ := h.x j (by omega)
    have hd : dotFrom (A idx) X (r + 1) j s = dotFrom (A idx) X r (j + 1) (s + A idx j * X j) := by simp [dotFrom, List.range'_succ]
    rw [hd] at e
    rw [gemvLoop, within_eq a1]
    refine (Eff.read a2 ?_).mono (ac := fun x => x = .a (g.at idx j) ∨ x = .x (j * g.incX) ∨ (∃ i, x = .a i) ∨ (∃ i, x = .x i) ∨ ac x) ?_
    · rw [within_eq x1]
      exact Eff.read x2 (gemvLoop_eff h hi r (j + 1) _ (by omega) e)
    · rintro x (h1 | h1 | h1)
      · exact .inl ⟨_, h1⟩
      · exact .inr (.inl ⟨_, h1⟩)
      · exact h1

/-- One work item of gemv. -/
theorem gemv_eff {lim : Nat} {g : GemvArgs K} {A : Nat → Nat → K} {X Y : Nat → K} {M : Mem GemvLoc K} (h : GemvData lim g A X Y M) {idx : Nat} (hi : idx < g.m) :
    Eff M (gemv lim g idx) (Function.update M (.y (idx * g.incY)) (some (g.alpha * dotFrom (A idx) X g.n 0 0 + g.beta * Y idx))) .ret
      (fun x => (∃ i, x = .a i) ∨ (∃ i, x = .x i) ∨ x = .y (idx * g.incY)) (fun x => x = .y (idx * g.incY)) := by
  obtain ⟨y1, y2⟩ := h.y idx hi
  have y3 : M (.y (idx * g.incY)) ≠ none := by rw [y2]; simp
  rw [gemv, if_pos hi]
  refine gemvLoop_eff h hi g.n 0 0 (by omega) ?_
  rw [within_eq y1]
  refine (Eff.read y2 (Eff.write y3 Eff.ret)).congr (fun x hx => ?_) (fun x => ?_)
  · rcases hx with hx | hx | hx
    · exact hx
    · exact hx
    · exact hx.elim
  · simp

/-! ### Transpose -/

theorem cell_lt {a b n m : Nat} (ha : a < n) (hb : b < m) : a * m + b < n * m := by
  have : (a + 1) * m ≤ n * m := Nat.mul_le_mul_right _ ha
  rw [Nat.add_mul, Nat.one_mul] at this
  omega

theorem cell_inj {a b a' b' m : Nat} (hb : b < m) (hb' : b' < m) (h : a * m + b = a' * m + b') : a = a' ∧ b = b' := by
  have hm : 0 < m := by omega
  have h1 : (a * m + b) / m = a := by
    rw [Nat.mul_comm, Nat.mul_add_div hm, Nat.div_eq_of_lt hb, Nat.add_zero]
  have h2 : (a' * m + b') / m = a' := by
    rw [Nat.mul_comm, Nat.mul_add_div hm, Nat.div_eq_of_lt hb', Nat.add_zero]
  have h3 : a = a' := by rw [← h1, ← h2, h]
  subst h3
  exact ⟨rfl, by omega⟩

section
variable {gx gy D rows cols lim : Nat} {alpha : K} {A : Nat → Nat → K} {M₀ : Mem TrLoc K}

/-- What a group writes: its tile and its block of the output. -/
def TrOwn (gx gy D rows cols : Nat) (g : Fin gx × Fin gy) : TrLoc → Prop
  | .inp _ => False
  | .out i => ∃ r c, r < D ∧ c < D ∧ g.2 * D + r < rows ∧ g.1 * D + c < cols ∧ i = (g.1 * D + c) * rows + (g.2 * D + r)
  | .tile g' _ _ => g' = ((g.1 : Nat), (g.2 : Nat))

/-- The two stages of a group. -/
inductive TrQ (gx gy D rows cols lim : Nat) (alpha : K) (A : Nat → Nat → K) : Fin gx × Fin gy → (Item gx gy D → Prog TrLoc K) → Mem TrLoc K → Prop
  | load {g p M} (hp : ∀ t : Item gx gy D, t.1 = g → p t = transpose lim rows cols D alpha t.group t.local)
    (hin : ∀ i j, i < rows → j < cols → M (.inp (i * cols + j)) = some (A i j))
    (hout : ∀ i, TrOwn gx gy D rows cols g (.out i) → M (.out i) ≠ none)
    (htile : ∀ r c, r < D → c < D → M (.tile (g.1, g.2) r c) ≠ none) : TrQ gx gy D rows cols lim alpha A g p M
  | store {g p M} (hp : ∀ t : Item gx gy D, t.1 = g → p t = transposeTail lim rows cols D alpha t.group t.local)
    (hout : ∀ i, TrOwn gx gy D rows cols g (.out i) → M (.out i) ≠ none)
    (htile : ∀ r c, r < D → c < D → g.2 * D + r < rows → g.1 * D + c < cols → M (.tile (g.1, g.2) r c) = some (A (g.2 * D + r) (g.1 * D + c))) :
    TrQ gx gy D rows cols lim alpha A g p M

/-- What a group leaves: its block of the transposed matrix. -/
def TrR (gx gy D rows cols : Nat) (alpha : K) (A : Nat → Nat → K) (g : Fin gx × Fin gy) (m : Mem TrLoc K) : Prop :=
  ∀ r c, r < D → c < D → g.2 * D + r < rows → g.1 * D + c < cols → m (.out ((g.1 * D + c) * rows + (g.2 * D + r))) = some (A (g.2 * D + r) (g.1 * D + c) * alpha)

def TrDom (gx gy D rows cols : Nat) (g : Fin gx × Fin gy) (x : TrLoc) : Prop := TrOwn gx gy D rows cols g x ∨ ∃ i, x = .inp i

theorem load_eff {g : Nat × Nat} {lx ly : Nat} {M : Mem TrLoc K} (hs : rows * cols ≤ lim)
    (hin : ∀ i j, i < rows → j < cols → M (.inp (i * cols + j)) = some (A i j)) (htile : M (.tile g ly lx) ≠ none) :
    Eff M (transpose lim rows cols D alpha g (lx, ly))
      (if g.1 * D + lx < cols ∧ g.2 * D + ly < rows then Function.update M (.tile g ly lx) (some (A (g.2 * D + ly) (g.1 * D + lx))) else M)
      (.barrier (transposeTail lim rows cols D alpha g (lx, ly)))
      (fun x => (∃ i, x = .inp i) ∨ x = .tile g ly lx) (fun x => (g.1 * D + lx < cols ∧ g.2 * D + ly < rows) ∧ x = .tile g ly lx) := by
  unfold transpose
  by_cases h : g.1 * D + lx < cols ∧ g.2 * D + ly < rows
  · have hlt := cell_lt h.2 h.1
    simp only [h, and_self, if_true]
    rw [within_eq (by omega)]
    refine (Eff.read (hin _ _ h.2 h.1) (Eff.write htile Eff.barrier)).congr (fun x hx => ?_) (fun x => by simp)
    rcases hx with hx | hx | hx
    · exact .inl ⟨_, hx⟩
    · exact .inr hx
    · exact hx.elim
  · simp only [h, if_false]
    exact Eff.barrier.congr (fun _ hx => hx.elim) (fun x => by simp)

theorem store_eff {g : Nat × Nat} {lx ly : Nat} {M : Mem TrLoc K} (hs : rows * cols ≤ lim)
    (hout : g.2 * D + lx < rows → g.1 * D + ly < cols → M (.out ((g.1 * D + ly) * rows + (g.2 * D + lx))) ≠ none)
    (htile : g.2 * D + lx < rows → g.1 * D + ly < cols → M (.tile g lx ly) = some (A (g.2 * D + lx) (g.1 * D + ly))) :
    Eff M (transposeTail lim rows cols D alpha g (lx, ly))
      (if g.2 * D + lx < rows ∧ g.1 * D + ly < cols then
        Function.update M (.out ((g.1 * D + ly) * rows + (g.2 * D + lx))) (some (A (g.2 * D + lx) (g.1 * D + ly) * alpha)) else M) .ret
      (fun x => x = .tile g lx ly ∨ (g.2 * D + lx < rows ∧ g.1 * D + ly < cols) ∧ x = .out ((g.1 * D + ly) * rows + (g.2 * D + lx)))
      (fun x => (g.2 * D + lx < rows ∧ g.1 * D + ly < cols) ∧ x = .out ((g.1 * D + ly) * rows + (g.2 * D + lx))) := by
  unfold transposeTail
  by_cases h : g.2 * D + lx < rows ∧ g.1 * D + ly < cols
  · have hlt := cell_lt h.2 h.1
    rw [Nat.mul_comm cols] at hlt
    simp only [h, and_self, if_true]
    rw [within_eq (by omega)]
    refine (Eff.read (htile h.1 h.2) (Eff.write (hout h.1 h.2) Eff.ret)).congr (fun x hx => ?_) (fun x => by simp)
    rcases hx with hx | hx | hx
    · exact .inl hx
    · exact .inr ⟨trivial, hx⟩
    · exact hx.elim
  · simp only [h, if_false]
    exact Eff.ret.congr (fun _ hx => hx.elim) (fun x => by simp)

theorem TrQ.load_eff' (hs : rows * cols ≤ lim) {g : Fin gx × Fin gy} {p : Item gx gy D → Prog TrLoc K} {M : Mem TrLoc K}
    (hp : ∀ t : Item gx gy D, t.1 = g → p t = transpose lim rows cols D alpha t.group t.local)
    (hin : ∀ i j, i < rows → j < cols → M (.inp (i * cols + j)) = some (A i j))
    (htile : ∀ r c, r < D → c < D → M (.tile (g.1, g.2) r c) ≠ none) (l : Fin D × Fin D) :
    Eff M (p (g, l))
      (if g.1 * D + l.1 < cols ∧ g.2 * D + l.2 < rows then Function.update M (.tile (g.1, g.2) l.2 l.1) (some (A (g.2 * D + l.2) (g.1 * D + l.1))) else M)
      (.barrier (transposeTail lim rows cols D alpha ((g.1 : Nat), (g.2 : Nat)) ((l.1 : Nat), (l.2 : Nat))))
      (fun x => (∃ i, x = .inp i) ∨ x = .tile (g.1, g.2) l.2 l.1) (fun x => (g.1 * D + l.1 < cols ∧ g.2 * D + l.2 < rows) ∧ x = .tile (g.1, g.2) l.2 l.1) := by
  rw [hp (g, l) rfl]
  exact load_eff hs hin (htile _ _ l.2.2 l.1.2)

theorem TrQ.store_eff' (hs : rows * cols ≤ lim) {g : Fin gx × Fin gy} {p : Item gx gy D → Prog TrLoc K} {M : Mem TrLoc K}
    (hp : ∀ t : Item gx gy D, t.1 = g → p t = transposeTail lim rows cols D alpha t.group t.local)
    (hout : ∀ i, TrOwn gx gy D rows cols g (.out i) → M (.out i) ≠ none)
    (htile : ∀ r c, r < D → c < D → g.2 * D + r < rows → g.1 * D + c < cols → M (.tile (g.1, g.2) r c) = some (A (g.2 * D + r) (g.1 * D + c)))
    (l : Fin D × Fin D) :
    Eff M (p (g, l))
      (if g.2 * D + l.1 < rows ∧ g.1 * D + l.2 < cols then
        Function.update M (.out ((g.1 * D + l.2) * rows + (g.2 * D + l.1))) (some (A (g.2 * D + l.1) (g.1 * D + l.2) * alpha)) else M) .ret
      (fun x => x = .tile (g.1, g.2) l.1 l.2 ∨ (g.2 * D + l.1 < rows ∧ g.1 * D + l.2 < cols) ∧ x = .out ((g.1 * D + l.2) * rows + (g.2 * D + l.1)))
      (fun x => (g.2 * D + l.1 < rows ∧ g.1 * D + l.2 < cols) ∧ x = .out ((g.1 * D + l.2) * rows + (g.2 * D + l.1))) := by
  rw [hp (g, l) rfl]
  exact store_eff hs (fun h1 h2 => hout _ ⟨_, _, l.1.2, l.2.2, h1, h2, rfl⟩) (htile _ _ l.1.2 l.2.2)

theorem transpose_rule (hs : rows * cols ≤ lim) :
    Rule (fun t : Item gx gy D => t.1) (TrQ gx gy D rows cols lim alpha A) (TrR gx gy D rows cols alpha A) (TrDom gx gy D rows cols) (TrOwn gx gy D rows cols) where
  own_dom g x h := .inl h
  disjoint g g' x h h' := by
    rcases h' with h' | ⟨i, rfl⟩
    · cases x with
      | inp i => exact h.elim
      | out i =>
        obtain ⟨r, c, hr, hc, h1, h2, rfl⟩ := h
        obtain ⟨r', c', hr', hc', h1', h2', he⟩ := h'
        obtain ⟨e1, e2⟩ := cell_inj h1 h1' he
        exact Prod.ext (Fin.ext (cell_inj hc hc' e1).1) (Fin.ext (cell_inj hr hr' e2).1)
      | tile g₀ r c =>
        have h : g₀ = ((g.1 : Nat), (g.2 : Nat)) := h
        have h' : g₀ = ((g'.1 : Nat), (g'.2 : Nat)) := h'
        rw [h] at h'
        injection h' with e1 e2
        exact Prod.ext (Fin.ext e1) (Fin.ext e2)
    · exact h.elim
  acc_dom := by
    rintro g p M hq ⟨_, l⟩ rfl x hx
    cases hq with
    | load hp hin hout htile =>
      rcases (TrQ.load_eff' hs hp hin htile l).acc x hx with h | h
      · exact .inr h
      · subst h; exact .inl rfl
    | store hp hout htile =>
      rcases (TrQ.store_eff' hs hp hout htile l).acc x hx with h | ⟨h1, h⟩
      · subst h; exact .inl rfl
      · subst h; exact .inl ⟨_, _, l.1.2, l.2.2, h1.1, h1.2, rfl⟩
  wr_own := by
    rintro g p M hq ⟨_, l⟩ rfl x hx
    cases hq with
    | load hp hin hout htile =>
      obtain ⟨-, h⟩ := ((TrQ.load_eff' hs hp hin htile l).wr x).1 hx
      subst h; rfl
    | store hp hout htile =>
      obtain ⟨h1, h⟩ := ((TrQ.store_eff' hs hp hout htile l).wr x).1 hx
      subst h; exact ⟨_, _, l.1.2, l.2.2, h1.1, h1.2, rfl⟩
  safe := by
    rintro g p M hq ⟨_, l⟩ rfl
    cases hq with
    | load hp hin hout htile => exact (TrQ.load_eff' hs hp hin htile l).safe
    | store hp hout htile => exact (TrQ.store_eff' hs hp hout htile l).safe
  race := by
    rintro g p M hq ⟨_, l⟩ ⟨g', l'⟩ rfl hg x h1 h2
    have hg : g' = _ := hg
    subst hg
    cases hq with
    | load hp hin hout htile =>
      obtain ⟨-, h⟩ := ((TrQ.load_eff' hs hp hin htile l).wr x).1 h1
      subst h
      rcases (TrQ.load_eff' hs hp hin htile l').acc _ h2 with ⟨i, h⟩ | h
      · cases h
      · injection h with _ e1 e2
        exact Prod.ext rfl (Prod.ext (Fin.ext e2) (Fin.ext e1))
    | store hp hout htile =>
      obtain ⟨h0, h⟩ := ((TrQ.store_eff' hs hp hout htile l).wr x).1 h1
      subst h
      rcases (TrQ.store_eff' hs hp hout htile l').acc _ h2 with h | ⟨h0', h⟩
      · cases h
      · injection h with e
        obtain ⟨e1, e2⟩ := cell_inj h0.1 h0'.1 e
        exact Prod.ext rfl (Prod.ext (Fin.ext (Nat.add_left_cancel e2)) (Fin.ext (Nat.add_left_cancel e1)))
  next g p M hq := by
    cases hq with
    | load hp hin hout htile =>
      refine .inr ⟨fun t => transposeTail lim rows cols D alpha t.group t.local, ?_⟩
      rintro ⟨_, l⟩ rfl
      rw [(TrQ.load_eff' hs hp hin htile l).solo]; rfl
    | store hp hout htile =>
      refine .inl ?_
      rintro ⟨_, l⟩ rfl
      rw [(TrQ.store_eff' hs hp hout htile l).solo]
  step := by
    rintro g p M hq ⟨⟨_, l⟩, rfl⟩ k m hk hm
    cases hq with
    | store hp hout htile =>
      have := hk (_, l) rfl
      rw [(TrQ.store_eff' hs hp hout htile l).solo] at this
      cases this
    | load hp hin hout htile =>
      refine .store ?_ (fun i hi => ?_) (fun r c hr hc h1 h2 => ?_)
      · rintro ⟨_, l'⟩ rfl
        have := hk (_, l') rfl
        rw [(TrQ.load_eff' hs hp hin htile l').solo] at this
        injection this with e
        exact e.symm
      · rw [hm.2 (.out i) (.inl hi)]
        · exact hout i hi
        · rintro ⟨_, l'⟩ rfl hw
          obtain ⟨-, h⟩ := ((TrQ.load_eff' hs hp hin htile l').wr _).1 hw
          cases h
      · have e := TrQ.load_eff' hs hp hin htile (⟨c, hc⟩, ⟨r, hr⟩)
        rw [hm.1 (_, (⟨c, hc⟩, ⟨r, hr⟩)) rfl (.tile (_, _) r c) ((e.wr _).2 ⟨⟨h2, h1⟩, rfl⟩), e.solo]
        simp [h1, h2]
  finish := by
    intro g p M hq hret m hm r c hr hc h1 h2
    cases hq with
    | load hp hin hout htile =>
      have := hret (g, (⟨r, hr⟩, ⟨c, hc⟩)) rfl
      rw [(TrQ.load_eff' hs hp hin htile _).solo] at this
      cases this
    | store hp hout htile =>
      have e := TrQ.store_eff' hs hp hout htile (⟨r, hr⟩, ⟨c, hc⟩)
      rw [hm.1 (g, (⟨r, hr⟩, ⟨c, hc⟩)) rfl _ ((e.wr _).2 ⟨⟨h1, h2⟩, rfl⟩), e.solo]
      simp [h1, h2]
end

end Verif.Gpu
