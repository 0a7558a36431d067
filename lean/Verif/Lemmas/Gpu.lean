import Verif.Model.Gpu

/-! A rule for kernels without data races: if the accesses between two barriers do not conflict, every interleaving does what running the work
items one after another does. -/

namespace Verif.Gpu

variable {T G L V : Type} [DecidableEq T] [DecidableEq L]

/-- Run one work item alone up to the next barrier. -/
def solo : Mem L V → Prog L V → Mem L V × Prog L V
  | m, .read l k => match m l with
    | some v => solo m (k v)
    | none => (m, .read l k)
  | m, .write l v k => if m l = none then (m, .write l v k) else solo (Function.update m l (some v)) k
  | m, .ret => (m, .ret)
  | m, .fail => (m, .fail)
  | m, .barrier k => (m, .barrier k)

/-- Where it reads or writes. -/
def acc : Mem L V → Prog L V → L → Prop
  | m, .read l k, x => x = l ∨ match m l with
    | some v => acc m (k v) x
    | none => False
  | m, .write l v k, x => x = l ∨ acc (Function.update m l (some v)) k x
  | _, _, _ => False

/-- Where it writes. -/
def wr : Mem L V → Prog L V → L → Prop
  | m, .read l k, x => match m l with
    | some v => wr m (k v) x
    | none => False
  | m, .write l v k, x => x = l ∨ wr (Function.update m l (some v)) k x
  | _, _, _ => False

/-- It reaches a barrier or its end. -/
def safe : Mem L V → Prog L V → Prop
  | m, .read l k => match m l with
    | some v => safe m (k v)
    | none => False
  | m, .write l v k => m l ≠ none ∧ safe (Function.update m l (some v)) k
  | _, .ret => True
  | _, .fail => False
  | _, .barrier _ => True

theorem wr_acc : ∀ {p : Prog L V} {m : Mem L V} {x : L}, wr m p x → acc m p x
  | .read l k, m, x, h => by
    simp only [wr] at h
    simp only [acc]
    cases hl : m l with
    | none => rw [hl] at h; exact h.elim
    | some v => rw [hl] at h; exact .inr (wr_acc h)
  | .write l v k, m, x, h => by
    simp only [wr] at h
    simp only [acc]
    exact h.imp id wr_acc
  | .ret, _, _, h => h.elim
  | .fail, _, _, h => h.elim
  | .barrier _, _, _, h => h.elim

/-- Only the accessed part of the memory matters. -/
theorem solo_congr : ∀ {p : Prog L V} {m m' : Mem L V}, (∀ x, acc m p x → m x = m' x) →
    (solo m' p).2 = (solo m p).2 ∧ (∀ x, acc m' p x ↔ acc m p x) ∧ (∀ x, wr m' p x ↔ wr m p x) ∧ (safe m' p ↔ safe m p) ∧
      ∀ x, m x = m' x → (solo m' p).1 x = (solo m p).1 x
  | .read l k, m, m', h => by
    have hl : m l = m' l := h l (by simp [acc])
    cases hv : m l with
    | none =>
      have hv' : m' l = none := by rw [← hl, hv]
      simp only [solo, acc, wr, safe, hv, hv']
      exact ⟨trivial, fun _ => trivial, fun _ => trivial, trivial, fun x hx => hx.symm⟩
    | some v =>
      have hv' : m' l = some v := by rw [← hl, hv]
      obtain ⟨h1, h2, h3, h4, h5⟩ := solo_congr (p := k v) (m := m) (m' := m') (fun x hx => h x (by simp only [acc, hv]; exact .inr hx))
      simp only [solo, acc, wr, safe, hv, hv']
      exact ⟨h1, fun x => or_congr Iff.rfl (h2 x), h3, h4, h5⟩
  | .write l v k, m, m', h => by
    have hl : m l = m' l := h l (by simp [acc])
    have hag : ∀ x, m x = m' x → Function.update m l (some v) x = Function.update m' l (some v) x := by
      intro x hx
      by_cases hxl : x = l
      · subst hxl; simp
      · simp [hxl, hx]
    obtain ⟨h1, h2, h3, h4, h5⟩ := solo_congr (p := k) (m := Function.update m l (some v)) (m' := Function.update m' l (some v)) (fun x hx => by
      by_cases hxl : x = l
      · subst hxl; simp
      · exact hag x (h x (by simp only [acc]; exact .inr hx)))
    simp only [acc, wr, safe]
    refine ⟨?_, fun x => or_congr Iff.rfl (h2 x), fun x => or_congr Iff.rfl (h3 x), by rw [h4, hl], fun x hx => ?_⟩
    · by_cases hn : m l = none
      · have hn' : m' l = none := by rw [← hl, hn]
        simp only [solo, hn, hn', if_true]
      · have hn' : m' l ≠ none := by rw [← hl]; exact hn
        simp only [solo, hn, hn', if_false]; exact h1
    · by_cases hn : m l = none
      · have hn' : m' l = none := by rw [← hl, hn]
        simp only [solo, hn, hn', if_true]; exact hx.symm
      · have hn' : m' l ≠ none := by rw [← hl]; exact hn
        simp only [solo, hn, hn', if_false]; exact h5 x (hag x hx)
  | .ret, _, _, _ => ⟨rfl, fun _ => Iff.rfl, fun _ => Iff.rfl, Iff.rfl, fun _ hx => hx.symm⟩
  | .fail, _, _, _ => ⟨rfl, fun _ => Iff.rfl, fun _ => Iff.rfl, Iff.rfl, fun _ hx => hx.symm⟩
  | .barrier _, _, _, _ => ⟨rfl, fun _ => Iff.rfl, fun _ => Iff.rfl, Iff.rfl, fun _ hx => hx.symm⟩

/-- Memory that is not written keeps its value. -/
theorem solo_frame : ∀ {p : Prog L V} {m : Mem L V} {x : L}, ¬ wr m p x → (solo m p).1 x = m x
  | .read l k, m, x, h => by
    cases hv : m l with
    | none => simp only [solo, hv]
    | some v =>
      simp only [wr, hv] at h
      simp only [solo, hv]; exact solo_frame h
  | .write l v k, m, x, h => by
    simp only [wr, not_or] at h
    by_cases hn : m l = none
    · simp only [solo, hn, if_true]
    · simp only [solo, hn, if_false]
      rw [solo_frame h.2]; simp [h.1]
  | .ret, _, _, _ => rfl
  | .fail, _, _, _ => rfl
  | .barrier _, _, _, _ => rfl

/-- The memory a group leaves at its next barrier, if the work items do not disturb each other. -/
def Merged (grp : T → G) (g : G) (p : T → Prog L V) (M m : Mem L V) (dom : L → Prop) : Prop :=
  (∀ t, grp t = g → ∀ x, wr M (p t) x → m x = (solo M (p t)).1 x) ∧
  ∀ x, dom x → (∀ t, grp t = g → ¬ wr M (p t) x) → m x = M x

/-- What has to be shown of a kernel. `Q g p M`: group `g` may be about to run the programs `p` with the memory `M`, nobody in the group being
ahead. `dom g`: the locations group `g` uses. `own g`: the locations it may write. -/
structure Rule (grp : T → G) (Q : G → (T → Prog L V) → Mem L V → Prop) (R : G → Mem L V → Prop) (dom own : G → L → Prop) : Prop where
  own_dom : ∀ g x, own g x → dom g x
  disjoint : ∀ g g' x, own g x → dom g' x → g = g'
  acc_dom : ∀ g p M, Q g p M → ∀ t, grp t = g → ∀ x, acc M (p t) x → dom g x
  wr_own : ∀ g p M, Q g p M → ∀ t, grp t = g → ∀ x, wr M (p t) x → own g x
  safe : ∀ g p M, Q g p M → ∀ t, grp t = g → safe M (p t)
  race : ∀ g p M, Q g p M → ∀ t t', grp t = g → grp t' = g → ∀ x, wr M (p t) x → acc M (p t') x → t = t'
  next : ∀ g p M, Q g p M → (∀ t, grp t = g → (solo M (p t)).2 = .ret) ∨ ∃ k : T → Prog L V, (∀ t, grp t = g → (solo M (p t)).2 = .barrier (k t))
  step : ∀ g p M, Q g p M → (∃ t, grp t = g) → ∀ k m : _, (∀ t, grp t = g → (solo M (p t)).2 = .barrier (k t)) → Merged grp g p M m (dom g) → Q g k m
  finish : ∀ g p M, Q g p M → (∀ t, grp t = g → (solo M (p t)).2 = .ret) → ∀ m, Merged grp g p M m (dom g) → R g m

/-- The invariant of executions: each work item is somewhere between its group's last barrier and the next one. -/
def Between (grp : T → G) (Q : G → (T → Prog L V) → Mem L V → Prop) (dom : G → L → Prop) (c : Cfg T L V) (g : G) : Prop :=
  ∃ p M, Q g p M ∧
    (∀ t, grp t = g → (solo c.mem (c.prog t)).2 = (solo M (p t)).2 ∧ (∀ x, wr M (p t) x → (solo c.mem (c.prog t)).1 x = (solo M (p t)).1 x) ∧
      (∀ x, acc c.mem (c.prog t) x → acc M (p t) x) ∧ (∀ x, wr c.mem (c.prog t) x → wr M (p t) x) ∧ safe c.mem (c.prog t)) ∧
    ∀ x, dom g x → (∀ t, grp t = g → ¬ wr M (p t) x) → c.mem x = M x

section
variable {grp : T → G} {Q : G → (T → Prog L V) → Mem L V → Prop} {R : G → Mem L V → Prop} {dom own : G → L → Prop}

theorem between_start {p : T → Prog L V} {M : Mem L V} {g : G} (r : Rule grp Q R dom own) (h : Q g p M) : Between grp Q dom ⟨p, M⟩ g :=
  ⟨p, M, h, fun t ht => ⟨rfl, fun _ _ => rfl, fun _ h => h, fun _ h => h, r.safe g p M h t ht⟩, fun _ _ _ => rfl⟩

/-- Once every work item of the group waits or has finished, the memory is the merged one. -/
theorem between_merged {c : Cfg T L V} {g : G} {p : T → Prog L V} {M : Mem L V}
    (h : ∀ t, grp t = g → (solo c.mem (c.prog t)).2 = (solo M (p t)).2 ∧ (∀ x, wr M (p t) x → (solo c.mem (c.prog t)).1 x = (solo M (p t)).1 x) ∧
      (∀ x, acc c.mem (c.prog t) x → acc M (p t) x) ∧ (∀ x, wr c.mem (c.prog t) x → wr M (p t) x) ∧ safe c.mem (c.prog t))
    (hf : ∀ x, dom g x → (∀ t, grp t = g → ¬ wr M (p t) x) → c.mem x = M x)
    (hs : ∀ t, grp t = g → solo c.mem (c.prog t) = (c.mem, c.prog t)) : Merged grp g p M c.mem (dom g) := by
  refine ⟨fun t ht x hx => ?_, hf⟩
  have := (h t ht).2.1 x hx
  rw [hs t ht] at this
  exact this

/-- A step of one work item, as an access to one location. -/
theorem between_access {c : Cfg T L V} {t₀ : T} {q : Prog L V} {m' : Mem L V} {l : L} (r : Rule grp Q R dom own)
    (hb : ∀ g, Between grp Q dom c g)
    (hsolo : solo c.mem (c.prog t₀) = solo m' q) (hacc : ∀ x, acc m' q x → acc c.mem (c.prog t₀) x)
    (hwr : ∀ x, wr m' q x → wr c.mem (c.prog t₀) x) (hsafe : Gpu.safe c.mem (c.prog t₀) → Gpu.safe m' q)
    (hm : ∀ x, x ≠ l → m' x = c.mem x) (hl : m' l ≠ c.mem l → wr c.mem (c.prog t₀) l) :
    ∀ g, Between grp Q dom ⟨Function.update c.prog t₀ q, m'⟩ g := by
  intro g
  obtain ⟨p₀, M₀, hq₀, hi₀, -⟩ := hb (grp t₀)
  obtain ⟨p, M, hq, hi, hf⟩ := hb g
  have hch : ∀ x, m' x ≠ c.mem x → wr c.mem (c.prog t₀) x := by
    intro x hx
    by_cases hxl : x = l
    · subst hxl; exact hl hx
    · exact absurd (hm x hxl) hx
  have hch₀ : ∀ x, m' x ≠ c.mem x → wr M₀ (p₀ t₀) x := fun x hx => (hi₀ t₀ rfl).2.2.2.1 x (hch x hx)
  refine ⟨p, M, hq, fun t ht => ?_, fun x hx hw => ?_⟩
  · by_cases htt : t = t₀
    · subst htt
      obtain ⟨i1, i2, i3, i4, i5⟩ := hi t ht
      simp only [Function.update_self]
      rw [← hsolo]
      exact ⟨i1, i2, fun x hx => i3 x (hacc x hx), fun x hx => i4 x (hwr x hx), hsafe i5⟩
    · obtain ⟨i1, i2, i3, i4, i5⟩ := hi t ht
      simp only [Function.update_of_ne htt]
      have hag : ∀ x, acc c.mem (c.prog t) x → c.mem x = m' x := by
        intro x hx
        by_contra hne
        have hw := hch₀ x (fun h => hne h.symm)
        have ho := r.wr_own _ _ _ hq₀ t₀ rfl x hw
        have hd := r.acc_dom _ _ _ hq t ht x (i3 x hx)
        have hg := r.disjoint _ _ x ho hd
        -- same group: a race
        have hw' : wr M (p t₀) x := (hi t₀ hg).2.2.2.1 x (hch x (fun h => hne h.symm))
        exact htt (r.race _ _ _ hq t₀ t hg ht x hw' (i3 x hx)).symm
      obtain ⟨s1, s2, s3, s4, s5⟩ := solo_congr hag
      refine ⟨s1.trans i1, fun x hx => ?_, fun x hx => i3 x ((s2 x).1 hx), fun x hx => i4 x ((s3 x).1 hx), s4.2 i5⟩
      have hxm : c.mem x = m' x := by
        by_contra hne
        have hw := hch₀ x (fun h => hne h.symm)
        have ho := r.wr_own _ _ _ hq₀ t₀ rfl x hw
        have hd := r.own_dom _ _ (r.wr_own _ _ _ hq t ht x hx)
        have hg := r.disjoint _ _ x ho hd
        have hw' : wr M (p t₀) x := (hi t₀ hg).2.2.2.1 x (hch x (fun h => hne h.symm))
        exact htt (r.race _ _ _ hq t₀ t hg ht x hw' (wr_acc hx)).symm
      rw [s5 x hxm]; exact i2 x hx
  · by_cases hxm : m' x = c.mem x
    · exact hxm.trans (hf x hx hw)
    · have ho := r.wr_own _ _ _ hq₀ t₀ rfl x (hch₀ x hxm)
      have hg := r.disjoint _ _ x ho hx
      exact absurd ((hi t₀ hg).2.2.2.1 x (hch x hxm)) (hw t₀ hg)

theorem between_step {c d : Cfg T L V} (r : Rule grp Q R dom own) (hb : ∀ g, Between grp Q dom c g) (hs : Step grp c d) : ∀ g, Between grp Q dom d g := by
  cases hs with
  | @read t l k v h hm =>
    refine between_access (l := l) r hb ?_ ?_ ?_ ?_ (fun _ _ => rfl) (fun h => absurd rfl h)
    · rw [h]; simp only [solo, hm]
    · rw [h]; intro x hx; simp only [acc, hm]; exact .inr hx
    · rw [h]; intro x hx; simp only [wr, hm]; exact hx
    · rw [h]; intro hx; simp only [safe, hm] at hx; exact hx
  | @write t l v k w h hm =>
    refine between_access (l := l) r hb ?_ ?_ ?_ ?_ (fun x hx => by simp [hx]) (fun _ => by rw [h]; simp [wr])
    · rw [h]; simp only [solo, hm]; simp
    · rw [h]; intro x hx; simp only [acc]; exact .inr hx
    · rw [h]; intro x hx; simp only [wr]; exact .inr hx
    · rw [h]; intro hx; simp only [safe] at hx; exact hx.2
  | barrier g k hne h h' =>
    intro g'
    obtain ⟨p, M, hq, hi, hf⟩ := hb g'
    by_cases hg : g' = g
    · subst hg
      have hst : ∀ t, grp t = g' → solo c.mem (c.prog t) = (c.mem, c.prog t) := fun t ht => by rw [h t ht]; rfl
      have hmer := between_merged (dom := dom) hi hf hst
      have hk : ∀ t, grp t = g' → (solo M (p t)).2 = .barrier (k t) := fun t ht => by
        rw [← (hi t ht).1, hst t ht]; exact h t ht
      exact between_start r (r.step _ _ _ hq hne k c.mem hk hmer)
    · refine ⟨p, M, hq, fun t ht => ?_, hf⟩
      have : k t = c.prog t := h' t (by rw [ht]; exact hg)
      simp only [this]; exact hi t ht

theorem between_steps {c d : Cfg T L V} {n : Nat} (r : Rule grp Q R dom own) (hb : ∀ g, Between grp Q dom c g) (hs : Steps grp c n d) :
    ∀ g, Between grp Q dom d g := by
  induction hs with
  | refl => exact hb
  | step _ s ih => exact between_step r ih s

/-- Nothing is written that no group owns. -/
theorem Rule.frame {p : T → Prog L V} {M : Mem L V} {n : Nat} {c : Cfg T L V} (r : Rule grp Q R dom own) (h : ∀ g, Q g p M)
    (hs : Steps grp ⟨p, M⟩ n c) {x : L} (hx : ∀ g, ¬ own g x) : c.mem x = M x := by
  induction hs with
  | refl => rfl
  | step hs s ih =>
    have hb := between_steps r (fun g => between_start r (h g)) hs
    cases s with
    | read => exact ih
    | @write t l v k w hp hm =>
      obtain ⟨p', M', hq, hi, -⟩ := hb (grp t)
      have hw := (hi t rfl).2.2.2.1 l (by rw [hp]; simp [wr])
      have hne : x ≠ l := fun e => hx _ (e ▸ r.wr_own _ _ _ hq t rfl _ hw)
      simpa [Function.update_of_ne hne] using ih
    | barrier => exact ih

/-- A work item that is not waiting can step. -/
theorem can_step {c : Cfg T L V} {t : T} (h : safe c.mem (c.prog t)) (hs : Stuck grp c) : c.prog t = .ret ∨ ∃ k, c.prog t = .barrier k := by
  cases hp : c.prog t with
  | ret => exact .inl rfl
  | fail => rw [hp] at h; exact h.elim
  | barrier k => exact .inr ⟨k, rfl⟩
  | read l k =>
    rw [hp] at h
    cases hv : c.mem l with
    | none => simp only [safe, hv] at h
    | some v => exact absurd (Step.read hp hv) (hs _)
  | write l v k =>
    rw [hp] at h
    cases hv : c.mem l with
    | none => exact absurd hv h.1
    | some w => exact absurd (Step.write hp hv) (hs _)

/-- **The rule**: from a start where every group is ready, every execution that cannot go on is finished, and has done what is claimed. -/
theorem Rule.sound {p : T → Prog L V} {M : Mem L V} {n : Nat} {c : Cfg T L V} (r : Rule grp Q R dom own) (h : ∀ g, Q g p M)
    (hs : Steps grp ⟨p, M⟩ n c) (hst : Stuck grp c) : Done c ∧ ∀ g, R g c.mem := by
  have hb := between_steps r (fun g => between_start r (h g)) hs
  have key : ∀ g, (∀ t, grp t = g → c.prog t = .ret) ∧ R g c.mem := by
    intro g
    obtain ⟨p', M', hq, hi, hf⟩ := hb g
    have hw : ∀ t, grp t = g → c.prog t = .ret ∨ ∃ k, c.prog t = .barrier k := fun t ht => can_step (hi t ht).2.2.2.2 hst
    have hso : ∀ t, grp t = g → solo c.mem (c.prog t) = (c.mem, c.prog t) := by
      intro t ht
      rcases hw t ht with h1 | ⟨k, h1⟩ <;> rw [h1] <;> rfl
    have hend : ∀ t, grp t = g → c.prog t = (solo M' (p' t)).2 := fun t ht => by
      rw [← (hi t ht).1, hso t ht]
    have hmer := between_merged (dom := dom) hi hf hso
    rcases r.next _ _ _ hq with hr | ⟨k, hk⟩
    · exact ⟨fun t ht => (hend t ht).trans (hr t ht), r.finish _ _ _ hq hr _ hmer⟩
    · by_cases hne : ∃ t, grp t = g
      · exfalso
        have : DecidableEq G := fun _ _ => Classical.propDecidable _
        refine hst ⟨fun t => if grp t = g then k t else c.prog t, c.mem⟩ (Step.barrier g _ hne (fun t ht => ?_) fun t ht => ?_)
        · rw [if_pos ht, hend t ht, hk t ht]
        · rw [if_neg ht]
      · have hno : ∀ t, grp t = g → False := fun t ht => hne ⟨t, ht⟩
        exact ⟨fun t ht => (hno t ht).elim, r.finish _ _ _ hq (fun t ht => (hno t ht).elim) _ hmer⟩
  exact ⟨fun t => (key (grp t)).1 t rfl, fun g => (key g).2⟩

end

/-! ### Termination -/

/-- No execution is longer than the bounds of the work items together: every execution comes to an end. -/
theorem steps_bounded {grp : T → G} {c d : Cfg T L V} {n : Nat} (ts : List T) (hall : ∀ t, t ∈ ts) (b : T → Nat)
    (hb : ∀ t, (c.prog t).AtMost (b t)) (hs : Steps grp c n d) : ∃ b' : T → Nat, (∀ t, (d.prog t).AtMost (b' t)) ∧ (ts.map b').sum + n ≤ (ts.map b).sum := by
  have dec : ∀ (ts : List T) (b b' : T → Nat) (t₀ : T), (∀ t, b' t ≤ b t) → b' t₀ < b t₀ → t₀ ∈ ts → (ts.map b').sum + 1 ≤ (ts.map b).sum := by
    intro ts
    induction ts with
    | nil => intro b b' t₀ _ _ hm; simp at hm
    | cons a ts ih =>
      intro b b' t₀ hle hlt hm
      have hsum : (ts.map b').sum ≤ (ts.map b).sum := by
        clear ih hm
        induction ts with
        | nil => simp
        | cons x ts ih2 => have := hle x; simp only [List.map_cons, List.sum_cons]; omega
      simp only [List.map_cons, List.sum_cons]
      have := hle a
      rcases List.mem_cons.1 hm with h | h
      · subst h; omega
      · have := ih b b' t₀ hle hlt h; omega
  induction hs with
  | refl => exact ⟨b, hb, by omega⟩
  | step h s ih =>
    obtain ⟨b₁, h1, h2⟩ := ih
    cases s with
    | @read t l k v hp hm =>
      have ht := h1 t
      rw [hp] at ht
      cases hbt : b₁ t with
      | zero => rw [hbt] at ht; exact ht.elim
      | succ m =>
        rw [hbt] at ht
        refine ⟨Function.update b₁ t m, fun t' => ?_, ?_⟩
        · by_cases htt : t' = t
          · subst htt; simpa using ht v
          · simpa [htt] using h1 t'
        · have := dec ts b₁ (Function.update b₁ t m) t (fun t' => by
            by_cases htt : t' = t
            · subst htt; simp; omega
            · simp [htt]) (by simp [hbt]) (hall t)
          omega
    | @write t l v k w hp hm =>
      have ht := h1 t
      rw [hp] at ht
      cases hbt : b₁ t with
      | zero => rw [hbt] at ht; exact ht.elim
      | succ m =>
        rw [hbt] at ht
        refine ⟨Function.update b₁ t m, fun t' => ?_, ?_⟩
        · by_cases htt : t' = t
          · subst htt; simpa [Prog.AtMost] using ht
          · simpa [htt] using h1 t'
        · have := dec ts b₁ (Function.update b₁ t m) t (fun t' => by
            by_cases htt : t' = t
            · subst htt; simp; omega
            · simp [htt]) (by simp [hbt]) (hall t)
          omega
    | barrier g k hne hp hp' =>
      have : DecidableEq G := fun _ _ => Classical.propDecidable _
      refine ⟨fun t => if grp t = g then b₁ t - 1 else b₁ t, fun t => ?_, ?_⟩
      · by_cases hg : grp t = g
        · have ht := h1 t
          rw [hp t hg] at ht
          simp only [hg, if_true]
          cases hbt : b₁ t with
          | zero => rw [hbt] at ht; exact ht.elim
          | succ m => rw [hbt] at ht; exact ht
        · simp only [hg, if_false]; rw [hp' t hg]; exact h1 t
      · obtain ⟨t₀, ht₀⟩ := hne
        have hpos : 0 < b₁ t₀ := by
          have ht := h1 t₀
          rw [hp t₀ ht₀] at ht
          cases hbt : b₁ t₀ with
          | zero => rw [hbt] at ht; exact ht.elim
          | succ m => omega
        have := dec ts b₁ (fun t => if grp t = g then b₁ t - 1 else b₁ t) t₀ (fun t => by split <;> omega) (by simp [ht₀]; omega) (hall t₀)
        omega

/-- Every launch has a complete execution. -/
theorem exists_complete {grp : T → G} {c : Cfg T L V} (ts : List T) (hall : ∀ t, t ∈ ts) (b : T → Nat) (hb : ∀ t, (c.prog t).AtMost (b t)) :
    ∃ n d, Steps grp c n d ∧ Stuck grp d := by
  by_contra hno
  have hno : ∀ n d, Steps grp c n d → ¬ Stuck grp d := fun n d h1 h2 => hno ⟨n, d, h1, h2⟩
  have long : ∀ n, ∃ d, Steps grp c n d := by
    intro n
    induction n with
    | zero => exact ⟨c, .refl⟩
    | succ n ih =>
      obtain ⟨d, hd⟩ := ih
      have h := hno n d hd
      unfold Stuck at h
      have : ∃ e, Step grp d e := by
        by_contra hne
        exact h fun e he => hne ⟨e, he⟩
      obtain ⟨e, he⟩ := this
      exact ⟨e, .step hd he⟩
  obtain ⟨d, hd⟩ := long ((ts.map b).sum + 1)
  obtain ⟨b', -, h2⟩ := steps_bounded ts hall b hb hd
  omega

/-! ### Kernels without barriers -/

/-- Work items that do not write what others use: every complete execution does what each of them does alone. -/
theorem indep_sound {grp : T → G} {p : T → Prog L V} {M : Mem L V} (hsafe : ∀ t, safe M (p t)) (hret : ∀ t, (solo M (p t)).2 = .ret)
    (hrace : ∀ t t' x, wr M (p t) x → acc M (p t') x → t = t') {n : Nat} {c : Cfg T L V} (hs : Steps grp ⟨p, M⟩ n c) (hst : Stuck grp c) :
    Done c ∧ (∀ t x, wr M (p t) x → c.mem x = (solo M (p t)).1 x) ∧ ∀ x, (∀ t, ¬ wr M (p t) x) → c.mem x = M x := by
  let Q : G → (T → Prog L V) → Mem L V → Prop := fun _ p' M' => p' = p ∧ M' = M
  let R : G → Mem L V → Prop := fun g m => (∀ t, grp t = g → ∀ x, wr M (p t) x → m x = (solo M (p t)).1 x) ∧ ∀ x, (∀ t, ¬ wr M (p t) x) → m x = M x
  let own : G → L → Prop := fun g x => ∃ t, grp t = g ∧ wr M (p t) x
  let dom : G → L → Prop := fun g x => (∃ t, grp t = g ∧ acc M (p t) x) ∨ ∀ t, ¬ wr M (p t) x
  have r : Rule grp Q R dom own := {
    own_dom := fun g x ⟨t, h1, h2⟩ => .inl ⟨t, h1, wr_acc h2⟩
    disjoint := fun g g' x ⟨t, h1, h2⟩ hd => by
      rcases hd with ⟨t', h3, h4⟩ | h3
      · have := hrace t t' x h2 h4
        rw [← h1, ← h3, this]
      · exact absurd h2 (h3 t)
    acc_dom := fun g p' M' ⟨e1, e2⟩ t ht x hx => by subst e1; subst e2; exact .inl ⟨t, ht, hx⟩
    wr_own := fun g p' M' ⟨e1, e2⟩ t ht x hx => by subst e1; subst e2; exact ⟨t, ht, hx⟩
    safe := fun g p' M' ⟨e1, e2⟩ t _ => by subst e1; subst e2; exact hsafe t
    race := fun g p' M' ⟨e1, e2⟩ t t' _ _ x h1 h2 => by subst e1; subst e2; exact hrace t t' x h1 h2
    next := fun g p' M' ⟨e1, e2⟩ => by subst e1; subst e2; exact .inl fun t _ => hret t
    step := fun g p' M' ⟨e1, e2⟩ ⟨t, ht⟩ k m hk hm => by
      subst e1; subst e2
      have := hk t ht
      rw [hret t] at this; cases this
    finish := fun g p' M' ⟨e1, e2⟩ _ m hm => by
      subst e1; subst e2
      exact ⟨hm.1, fun x hx => hm.2 x (.inr hx) fun t _ => hx t⟩ }
  obtain ⟨h1, h2⟩ := r.sound (fun g => ⟨rfl, rfl⟩) hs hst
  refine ⟨h1, fun t x hx => (h2 (grp t)).1 t rfl x hx, fun x hx => ?_⟩
  by_cases hT : Nonempty T
  · obtain ⟨t⟩ := hT
    exact (h2 (grp t)).2 x hx
  · have : ∀ {n} {d : Cfg T L V}, Steps grp ⟨p, M⟩ n d → d.mem = M := by
      intro n d hd
      induction hd with
      | refl => rfl
      | step _ s ih =>
        cases s with
        | @read t => exact absurd ⟨t⟩ hT
        | @write t => exact absurd ⟨t⟩ hT
        | barrier g k hne => obtain ⟨t, -⟩ := hne; exact absurd ⟨t⟩ hT
    rw [this hs]

end Verif.Gpu
