import Verif.Model.Conc
import Mathlib.Data.List.Nodup
import Mathlib.Tactic.Push
import Mathlib.Tactic.Choose

/-! Lemmas about programs over shared arrays: threads with disjoint footprints give one result under every interleaving. -/

namespace Verif.Conc

variable {α β γ : Type}

@[simp] theorem pure_eq (b : β) : (pure b : Prog α β) = .ret b := rfl
@[simp] theorem ret_bind (b : β) (f : β → Prog α γ) : (Prog.ret b : Prog α β).bind f = f b := rfl
@[simp] theorem bind_eq (p : Prog α β) (f : β → Prog α γ) : (p >>= f) = p.bind f := rfl

theorem get?_set_self {m : Mem α} {a : Addr} {v old : α} (h : m.get? a = some old) : (m.set a v).get? a = some v := by
  simp only [Mem.get?, Mem.set] at *
  rw [List.getElem?_eq_some_iff] at h
  simp [h.1]

theorem get?_set_ne {m : Mem α} {a b : Addr} {v : α} (h : b ≠ a) : (m.set a v).get? b = m.get? b := by
  simp only [Mem.get?, Mem.set]
  split
  · rename_i h1
    have : a.2 ≠ b.2 := by
      intro h2; apply h; exact Prod.ext h1 h2.symm
    rw [List.getElem?_set_ne this]
  · rfl

theorem set_other {m : Mem α} {a : Addr} {v : α} {id : Nat} (h : id ≠ a.1) : (m.set a v) id = m id := by
  simp [Mem.set, h]

theorem length_set {m : Mem α} {a : Addr} {v : α} (id : Nat) : ((m.set a v) id).length = (m id).length := by
  simp only [Mem.set]; split <;> simp

theorem mem_ext {m m' : Mem α} (h : ∀ a, m.get? a = m'.get? a) : m = m' := by
  funext id
  apply List.ext_getElem?
  intro i
  exact h (id, i)

theorem run_bind (p : Prog α β) (f : β → Prog α γ) (m : Mem α) :
    run (p.bind f) m = (run p m >>= fun r => run (f r.1) r.2) := by
  induction p generalizing m with
  | ret b => rfl
  | fail => rfl
  | read a k ih =>
    simp only [Prog.bind, run]
    cases m.get? a with
    | none => rfl
    | some v => exact ih v m
  | write a v k ih =>
    simp only [Prog.bind, run]
    cases m.get? a with
    | none => rfl
    | some _ => exact ih _

/-- All reads of the program are in `R` or `W`, all writes in `W`, and it has no undefined behaviour of its own. -/
def Fits (R W : Addr → Prop) : Prog α β → Prop
  | .ret _ => True
  | .fail => False
  | .read a k => (R a ∨ W a) ∧ ∀ v, Fits R W (k v)
  | .write a _ k => W a ∧ Fits R W k

theorem Fits.mono {R W R' W' : Addr → Prop} {p : Prog α β} (h : Fits R W p) (hR : ∀ a, R a → R' a) (hW : ∀ a, W a → W' a) :
    Fits R' W' p := by
  induction p with
  | ret b => trivial
  | fail => exact h
  | read a k ih => exact ⟨h.1.imp (hR a) (hW a), fun v => ih v (h.2 v)⟩
  | write a v k ih => exact ⟨hW a h.1, ih h.2⟩

theorem Fits.bind {R W : Addr → Prop} {p : Prog α β} {f : β → Prog α γ} (h : Fits R W p) (hf : ∀ b, Fits R W (f b)) :
    Fits R W (p.bind f) := by
  induction p with
  | ret b => exact hf b
  | fail => exact h
  | read a k ih => exact ⟨h.1, fun v => ih v (h.2 v)⟩
  | write a v k ih => exact ⟨h.1, ih h.2⟩

/-- Every result of the program satisfies `Q`, whatever it reads. -/
def Rets (Q : β → Prop) : Prog α β → Prop
  | .ret b => Q b
  | .fail => True
  | .read _ k => ∀ v, Rets Q (k v)
  | .write _ _ k => Rets Q k

theorem Rets.bind {Q : β → Prop} {Q' : γ → Prop} {p : Prog α β} {f : β → Prog α γ} (h : Rets Q p)
    (hf : ∀ b, Q b → Rets Q' (f b)) : Rets Q' (p.bind f) := by
  induction p with
  | ret b => exact hf b h
  | fail => trivial
  | read a k ih => exact fun v => ih v (h v)
  | write a v k ih => exact ih h

theorem Fits.bind' {R W : Addr → Prop} {Q : β → Prop} {p : Prog α β} {f : β → Prog α γ} (h : Fits R W p) (hq : Rets Q p)
    (hf : ∀ b, Q b → Fits R W (f b)) : Fits R W (p.bind f) := by
  induction p with
  | ret b => exact hf b hq
  | fail => exact h
  | read a k ih => exact ⟨h.1, fun v => ih v (h.2 v) (hq v)⟩
  | write a v k ih => exact ⟨h.1, ih h.2 hq⟩

theorem fits_seqAll {R W : Addr → Prop} {body : Nat → Prog α Unit} {is : List Nat}
    (h : ∀ i ∈ is, Fits R W (body i)) : Fits R W (seqAll body is) := by
  induction is with
  | nil => trivial
  | cons i is ih =>
    exact Fits.bind (h i (by simp)) (fun _ => ih (fun j hj => h j (by simp [hj])))

/-- Number of accesses of a program run alone. -/
def steps : Prog α β → Mem α → Nat
  | .ret _, _ => 0
  | .fail, _ => 0
  | .read a k, m =>
    match m.get? a with
    | some v => steps (k v) m + 1
    | none => 0
  | .write a v k, m =>
    match m.get? a with
    | some _ => steps k (m.set a v) + 1
    | none => 0

/-- A program behaves the same in memories that agree on its footprint. -/
theorem run_congr {R W : Addr → Prop} {p : Prog α β} (hf : Fits R W p) {m m' : Mem α}
    (h : ∀ a, R a ∨ W a → m.get? a = m'.get? a) {b : β} {m1 : Mem α} (hr : run p m = .ok (b, m1)) :
    (∃ m1', run p m' = .ok (b, m1') ∧ ∀ a, R a ∨ W a → m1.get? a = m1'.get? a) ∧ steps p m = steps p m' := by
  induction p generalizing m m' with
  | ret c =>
    simp only [run] at hr
    injection hr with hr
    injection hr with h1 h2
    subst h1; subst h2
    exact ⟨⟨m', rfl, h⟩, rfl⟩
  | fail => exact hf.elim
  | read a k ih =>
    have ha := h a hf.1
    simp only [run] at hr
    cases hg : m.get? a with
    | none => simp [hg] at hr
    | some v =>
      rw [hg] at ha
      simp only [hg] at hr
      obtain ⟨⟨m1', e1, h1⟩, h2⟩ := ih v (hf.2 v) h hr
      refine ⟨⟨m1', ?_, h1⟩, ?_⟩
      · simp only [run, ← ha]; exact e1
      · simp only [steps, ← ha, hg, h2]
  | write a v k ih =>
    have ha := h a (Or.inr hf.1)
    simp only [run] at hr
    cases hg : m.get? a with
    | none => simp [hg] at hr
    | some old =>
      rw [hg] at ha
      simp only [hg] at hr
      obtain ⟨⟨m1', e1, h1⟩, h2⟩ := ih hf.2 (m := m.set a v) (m' := m'.set a v) (by
        intro b hb
        by_cases hba : b = a
        · subst hba
          rw [get?_set_self hg, get?_set_self ha.symm]
        · rw [get?_set_ne hba, get?_set_ne hba]; exact h b hb) hr
      refine ⟨⟨m1', ?_, h1⟩, ?_⟩
      · simp only [run, ← ha]; exact e1
      · simp only [steps, ← ha, hg, h2]

/-- A program changes only addresses in its write set. -/
theorem run_frame {R W : Addr → Prop} {p : Prog α β} (hf : Fits R W p) {m : Mem α} {b : β} {m1 : Mem α}
    (hr : run p m = .ok (b, m1)) {a : Addr} (ha : ¬ W a) : m1.get? a = m.get? a := by
  induction p generalizing m with
  | ret c =>
    simp only [run] at hr
    injection hr with hr
    injection hr with h1 h2
    subst h2; rfl
  | fail => exact hf.elim
  | read a' k ih =>
    simp only [run] at hr
    cases hg : m.get? a' with
    | none => simp [hg] at hr
    | some v => simp only [hg] at hr; exact ih v (hf.2 v) hr
  | write a' v k ih =>
    simp only [run] at hr
    cases hg : m.get? a' with
    | none => simp [hg] at hr
    | some old =>
      simp only [hg] at hr
      rw [ih hf.2 hr, get?_set_ne]
      rintro rfl
      exact ha hf.1

/-- Invariant of an interleaved execution of threads with write sets `W t` and read sets `R t`. `fin t` is the memory left by
thread `t` run alone from `m0`. -/
structure Inv (m0 : Mem α) (n : Nat) (R W : Nat → Addr → Prop) (fin : Nat → Mem α) (c : Config α) : Prop where
  len : c.threads.length = n
  thread : ∀ t p, c.threads[t]? = some p → Fits (R t) (W t) p ∧
    ∃ m', run p c.mem = .ok ((), m') ∧ ∀ a, W t a → m'.get? a = (fin t).get? a
  frame : ∀ a, (∀ t, t < n → ¬ W t a) → c.mem.get? a = m0.get? a

theorem inv_start {m0 : Mem α} {ts : List (Prog α Unit)} {R W : Nat → Addr → Prop} {fin : Nat → Mem α}
    (h : ∀ t p, ts[t]? = some p → Fits (R t) (W t) p ∧ run p m0 = .ok ((), fin t)) :
    Inv m0 ts.length R W fin ⟨m0, ts⟩ :=
  ⟨rfl, fun t p hp => ⟨(h t p hp).1, fin t, (h t p hp).2, fun _ _ => rfl⟩, fun _ _ => rfl⟩

theorem set_cases {ts : List (Prog α Unit)} {t u : Nat} {p q : Prog α Unit} (h : (ts.set t p)[u]? = some q) :
    (u = t ∧ q = p) ∨ (u ≠ t ∧ ts[u]? = some q) := by
  by_cases hu : u = t
  · subst hu
    rw [List.getElem?_set] at h
    simp at h
    exact Or.inl ⟨rfl, h.2.symm⟩
  · rw [List.getElem?_set_ne (Ne.symm hu)] at h
    exact Or.inr ⟨hu, h⟩

theorem inv_step {m0 : Mem α} {n : Nat} {R W : Nat → Addr → Prop} {fin : Nat → Mem α}
    (disj : ∀ t u, t < n → u < n → t ≠ u → ∀ a, W t a → ¬ W u a ∧ ¬ R u a)
    {c c' : Config α} (hi : Inv m0 n R W fin c) (hs : Step c c') : Inv m0 n R W fin c' := by
  cases hs with
  | read ht hg =>
    rename_i m ts t a k v
    refine ⟨by simpa using hi.len, ?_, hi.frame⟩
    intro u q hq
    rcases set_cases hq with ⟨rfl, rfl⟩ | ⟨hne, hq⟩
    · obtain ⟨hf, m', hr, hm⟩ := hi.thread _ _ ht
      refine ⟨hf.2 v, m', ?_, hm⟩
      simp only [run, hg] at hr
      exact hr
    · exact hi.thread _ _ hq
  | write ht hg =>
    rename_i m ts t a v old k
    have htn : t < n := by rw [← hi.len]; rw [List.getElem?_eq_some_iff] at ht; exact ht.1
    refine ⟨by simpa using hi.len, ?_, ?_⟩
    · intro u q hq
      rcases set_cases hq with ⟨rfl, rfl⟩ | ⟨hne, hq⟩
      · obtain ⟨hf, m', hr, hm⟩ := hi.thread _ _ ht
        refine ⟨hf.2, m', ?_, hm⟩
        simp only [run, hg] at hr
        exact hr
      · obtain ⟨hf, m', hr, hm⟩ := hi.thread _ _ hq
        have hun : u < n := by
          rw [← hi.len]
          have hq' : ts[u]? = some q := hq
          rw [List.getElem?_eq_some_iff] at hq'; exact hq'.1
        obtain ⟨hft, _⟩ := hi.thread _ _ ht
        have hd := disj t u htn hun (Ne.symm hne) a hft.1
        obtain ⟨⟨m1', e1, h1⟩, _⟩ := run_congr hf (m' := m.set a v) (by
          intro b hb
          rw [get?_set_ne]
          rintro rfl
          rcases hb with hb | hb
          · exact hd.2 hb
          · exact hd.1 hb) hr
        exact ⟨hf, m1', e1, fun b hb => by rw [← h1 b (Or.inr hb)]; exact hm b hb⟩
    · intro b hb
      have hne : b ≠ a := by
        rintro rfl
        exact hb t htn (hi.thread _ _ ht).1.1
      show (m.set a v).get? b = m0.get? b
      rw [get?_set_ne hne]
      exact hi.frame b hb

theorem inv_reach {m0 : Mem α} {n : Nat} {R W : Nat → Addr → Prop} {fin : Nat → Mem α}
    (disj : ∀ t u, t < n → u < n → t ≠ u → ∀ a, W t a → ¬ W u a ∧ ¬ R u a)
    {c c' : Config α} (hi : Inv m0 n R W fin c) (hr : Reach c c') : Inv m0 n R W fin c' := by
  induction hr with
  | refl => exact hi
  | step _ hs ih => exact inv_step disj ih hs

theorem inv_not_bad {m0 : Mem α} {n : Nat} {R W : Nat → Addr → Prop} {fin : Nat → Mem α} {c : Config α}
    (hi : Inv m0 n R W fin c) : ¬ Bad c := by
  rintro ⟨t, p, hp, h⟩
  obtain ⟨hf, m', hr, _⟩ := hi.thread t p hp
  rcases h with rfl | ⟨a, w, hn, hg⟩
  · exact hf.elim
  · cases p with
    | ret b => simp [Prog.next] at hn
    | fail => simp [Prog.next] at hn
    | read a' k =>
      simp only [Prog.next, Option.some.injEq, Prod.mk.injEq] at hn
      obtain ⟨rfl, _⟩ := hn
      simp [run, hg] at hr
    | write a' v k =>
      simp only [Prog.next, Option.some.injEq, Prod.mk.injEq] at hn
      obtain ⟨rfl, _⟩ := hn
      simp [run, hg] at hr

theorem fits_next {R W : Addr → Prop} {p : Prog α β} (hf : Fits R W p) {a : Addr} {w : Bool} (h : p.next = some (a, w)) :
    (R a ∨ W a) ∧ (w = true → W a) := by
  cases p with
  | ret b => simp [Prog.next] at h
  | fail => simp [Prog.next] at h
  | read a' k =>
    simp only [Prog.next, Option.some.injEq, Prod.mk.injEq] at h
    obtain ⟨rfl, rfl⟩ := h
    exact ⟨hf.1, by simp⟩
  | write a' v k =>
    simp only [Prog.next, Option.some.injEq, Prod.mk.injEq] at h
    obtain ⟨rfl, rfl⟩ := h
    exact ⟨Or.inr hf.1, fun _ => hf.1⟩

theorem inv_no_race {m0 : Mem α} {n : Nat} {R W : Nat → Addr → Prop} {fin : Nat → Mem α} {c : Config α}
    (disj : ∀ t u, t < n → u < n → t ≠ u → ∀ a, W t a → ¬ W u a ∧ ¬ R u a) (hi : Inv m0 n R W fin c) : ¬ Race c := by
  rintro ⟨t, u, p, q, a, w, w', hne, hp, hq, hnp, hnq, hw⟩
  have htn : t < n := by
    rw [← hi.len]; rw [List.getElem?_eq_some_iff] at hp; exact hp.1
  have hun : u < n := by
    rw [← hi.len]; rw [List.getElem?_eq_some_iff] at hq; exact hq.1
  have h1 := fits_next (hi.thread t p hp).1 hnp
  have h2 := fits_next (hi.thread u q hq).1 hnq
  cases w with
  | true =>
    have := disj t u htn hun hne a (h1.2 rfl)
    rcases h2.1 with h | h
    · exact this.2 h
    · exact this.1 h
  | false =>
    cases w' with
    | true =>
      have := disj u t hun htn (Ne.symm hne) a (h2.2 rfl)
      rcases h1.1 with h | h
      · exact this.2 h
      · exact this.1 h
    | false => simp at hw

/-- Accesses left in a state. -/
def left (c : Config α) : Nat := (c.threads.map (fun p => steps p c.mem)).sum

theorem sum_map_set_lt {ts : List (Prog α Unit)} {t : Nat} {p q : Prog α Unit} {f g : Prog α Unit → Nat}
    (ht : ts[t]? = some p) (hlt : g q < f p) (heq : ∀ u r, u ≠ t → ts[u]? = some r → g r = f r) :
    ((ts.set t q).map g).sum < (ts.map f).sum := by
  induction ts generalizing t with
  | nil => simp at ht
  | cons a ts ih =>
    cases t with
    | zero =>
      simp only [List.getElem?_cons_zero, Option.some.injEq] at ht
      subst ht
      have hr : ts.map g = ts.map f := by
        apply List.map_congr_left
        intro r hr
        obtain ⟨u, hu⟩ := List.getElem?_of_mem hr
        exact heq (u + 1) r (by omega) (by simpa using hu)
      simp only [List.set_cons_zero, List.map_cons, List.sum_cons, hr]
      omega
    | succ t =>
      simp only [List.getElem?_cons_succ] at ht
      have h0 := heq 0 a (by omega) (by simp)
      have := ih ht (fun u r hu hr => heq (u + 1) r (by omega) (by simpa using hr))
      simp only [List.set_cons_succ, List.map_cons, List.sum_cons, h0]
      omega

theorem inv_left {m0 : Mem α} {n : Nat} {R W : Nat → Addr → Prop} {fin : Nat → Mem α}
    (disj : ∀ t u, t < n → u < n → t ≠ u → ∀ a, W t a → ¬ W u a ∧ ¬ R u a)
    {c c' : Config α} (hi : Inv m0 n R W fin c) (hs : Step c c') : left c' < left c := by
  cases hs with
  | read ht hg =>
    refine sum_map_set_lt ht ?_ (fun u r _ _ => rfl)
    simp only [steps, hg]; omega
  | write ht hg =>
    rename_i m ts t a v old k
    have htn : t < n := by rw [← hi.len]; rw [List.getElem?_eq_some_iff] at ht; exact ht.1
    refine sum_map_set_lt ht ?_ ?_
    · simp only [steps, hg]; omega
    · intro u r hne hr
      obtain ⟨hf, m', hrun, _⟩ := hi.thread _ _ hr
      have hun : u < n := by
        rw [← hi.len]
        have hq' : ts[u]? = some r := hr
        rw [List.getElem?_eq_some_iff] at hq'; exact hq'.1
      have hd := disj t u htn hun (Ne.symm hne) a (hi.thread _ _ ht).1.1
      refine ((run_congr hf (m' := m.set a v) ?_ hrun).2).symm
      intro b hb
      rw [get?_set_ne]
      rintro rfl
      rcases hb with hb | hb
      · exact hd.2 hb
      · exact hd.1 hb

theorem progress {c : Config α} (hb : ¬ Bad c) (hf : ¬ Final c) : ∃ c', Step c c' := by
  unfold Final at hf
  push Not at hf
  obtain ⟨p, hp, hne⟩ := hf
  obtain ⟨t, ht⟩ := List.getElem?_of_mem hp
  obtain ⟨m, ts⟩ := c
  cases p with
  | ret b => exact absurd rfl hne
  | fail => exact absurd ⟨t, _, ht, Or.inl rfl⟩ hb
  | read a k =>
    cases hg : m.get? a with
    | none => exact absurd ⟨t, _, ht, Or.inr ⟨a, false, rfl, hg⟩⟩ hb
    | some v => exact ⟨_, Step.read ht hg⟩
  | write a v k =>
    cases hg : m.get? a with
    | none => exact absurd ⟨t, _, ht, Or.inr ⟨a, true, rfl, hg⟩⟩ hb
    | some v => exact ⟨_, Step.write ht hg⟩

/-! ### Loops whose iterations have disjoint footprints -/

/-- A loop whose iteration `i` reads within `R i`, writes within `W i`, and, from any memory that agrees with `m0` there,
leaves the elements of `W i` as in `res`. -/
structure LoopOK (body : Nat → Prog α Unit) (its : List Nat) (R W : Nat → Addr → Prop) (m0 res : Mem α) : Prop where
  nodup : its.Nodup
  fits : ∀ i ∈ its, Fits (R i) (W i) (body i)
  disj : ∀ i ∈ its, ∀ j ∈ its, i ≠ j → ∀ a, W i a → ¬ W j a ∧ ¬ R j a
  runs : ∀ i ∈ its, ∃ m', run (body i) m0 = .ok ((), m') ∧ ∀ a, W i a → m'.get? a = res.get? a
  rest : ∀ a, (∀ i ∈ its, ¬ W i a) → res.get? a = m0.get? a

theorem run_seqAll {body : Nat → Prog α Unit} {its : List Nat} {R W : Nat → Addr → Prop} {m0 res : Mem α}
    (hl : LoopOK body its R W m0 res) (L : List Nat) (hL : ∀ i ∈ L, i ∈ its) (hn : L.Nodup) (m : Mem α)
    (hm : ∀ i ∈ L, ∀ a, R i a ∨ W i a → m.get? a = m0.get? a) :
    ∃ m', run (seqAll body L) m = .ok ((), m') ∧ (∀ i ∈ L, ∀ a, W i a → m'.get? a = res.get? a) ∧
      ∀ a, (∀ i ∈ L, ¬ W i a) → m'.get? a = m.get? a := by
  induction L generalizing m with
  | nil => exact ⟨m, rfl, by simp, fun _ _ => rfl⟩
  | cons i L ih =>
    obtain ⟨hiL, hn'⟩ := List.nodup_cons.1 hn
    have hi : i ∈ its := hL i (by simp)
    obtain ⟨mi, ri, hri⟩ := hl.runs i hi
    obtain ⟨⟨m1, r1, h1⟩, _⟩ := run_congr (hl.fits i hi) (m' := m) (fun a ha => (hm i (by simp) a ha).symm) ri
    have fr1 : ∀ a, ¬ W i a → m1.get? a = m.get? a := fun a ha => run_frame (hl.fits i hi) r1 ha
    obtain ⟨m2, r2, h2, f2⟩ := ih (fun j hj => hL j (by simp [hj])) hn' m1 (by
      intro j hj a ha
      rw [fr1 a ?_]
      · exact hm j (by simp [hj]) a ha
      · intro hw
        have hne : i ≠ j := by rintro rfl; exact hiL hj
        have := hl.disj i hi j (hL j (by simp [hj])) hne a hw
        rcases ha with h | h
        · exact this.2 h
        · exact this.1 h)
    refine ⟨m2, ?_, ?_, ?_⟩
    · rw [seqAll, run_bind, r1, Out.ok_bind]; exact r2
    · intro j hj a ha
      rcases List.mem_cons.1 hj with rfl | hj
      · rw [f2 a ?_, ← h1 a (Or.inr ha)]
        · exact hri a ha
        · intro k hk hw
          have hne : j ≠ k := by rintro rfl; exact hiL hk
          exact (hl.disj j hi k (hL k (by simp [hk])) hne a ha).1 hw
      · exact h2 j hj a ha
    · intro a ha
      rw [f2 a (fun j hj => ha j (by simp [hj])), fr1 a (ha i (by simp))]

/-- The sequential loop gives `res`. -/
theorem seq_result {body : Nat → Prog α Unit} {its : List Nat} {R W : Nat → Addr → Prop} {m0 res : Mem α}
    (hl : LoopOK body its R W m0 res) : run (seqAll body its) m0 = .ok ((), res) := by
  obtain ⟨m', r, h1, h2⟩ := run_seqAll hl its (fun _ h => h) hl.nodup m0 (fun _ _ _ _ => rfl)
  rw [r]
  congr 2
  apply mem_ext
  intro a
  by_cases ha : ∃ i ∈ its, W i a
  · obtain ⟨i, hi, hw⟩ := ha
    exact h1 i hi a hw
  · push Not at ha
    rw [h2 a ha, hl.rest a ha]

theorem inv_of_loop {body : Nat → Prog α Unit} {its : List Nat} {R W : Nat → Addr → Prop} {m0 res : Mem α}
    (hl : LoopOK body its R W m0 res) {sched : List (List Nat)} (hs : IsSchedule sched its) :
    ∃ (R' W' : Nat → Addr → Prop) (fin : Nat → Mem α),
      (∀ t u, t < sched.length → u < sched.length → t ≠ u → ∀ a, W' t a → ¬ W' u a ∧ ¬ R' u a) ∧
      Inv m0 sched.length R' W' fin (start body sched m0) ∧
      (∀ t < sched.length, ∀ a, W' t a → (fin t).get? a = res.get? a) ∧
      (∀ a, (∀ t < sched.length, ¬ W' t a) → res.get? a = m0.get? a) := by
  have hnd : sched.flatten.Nodup := hs.nodup_iff.2 hl.nodup
  have hmem : ∀ (t : Nat) L, sched[t]? = some L → ∀ i ∈ L, i ∈ its := by
    intro t L hL i hi
    exact hs.mem_iff.1 (List.mem_flatten.2 ⟨L, List.mem_of_getElem? hL, hi⟩)
  have hnL : ∀ (t : Nat) L, sched[t]? = some L → L.Nodup := fun t L hL =>
    (List.nodup_flatten.1 hnd).1 L (List.mem_of_getElem? hL)
  have hdis : ∀ (t u : Nat) L L', t ≠ u → sched[t]? = some L → sched[u]? = some L' → ∀ i ∈ L, ∀ j ∈ L', i ≠ j := by
    intro t u L L' hne hL hL' i hi j hj hij
    subst hij
    have hp := (List.nodup_flatten.1 hnd).2
    rw [List.getElem?_eq_some_iff] at hL hL'
    obtain ⟨h1, e1⟩ := hL
    obtain ⟨h2, e2⟩ := hL'
    rw [List.pairwise_iff_getElem] at hp
    rcases Nat.lt_or_gt_of_ne hne with h | h
    · have := hp t u h1 h2 h
      rw [e1, e2] at this
      exact this hi hj
    · have := hp u t h2 h1 h
      rw [e1, e2] at this
      exact this hj hi
  let R' : Nat → Addr → Prop := fun t a => ∃ L, sched[t]? = some L ∧ ∃ i ∈ L, R i a
  let W' : Nat → Addr → Prop := fun t a => ∃ L, sched[t]? = some L ∧ ∃ i ∈ L, W i a
  have hrun : ∀ (t : Nat) L, sched[t]? = some L → ∃ m', run (seqAll body L) m0 = .ok ((), m') ∧
      ∀ i ∈ L, ∀ a, W i a → m'.get? a = res.get? a := by
    intro t L hL
    obtain ⟨m', r, h1, _⟩ := run_seqAll hl L (hmem t L hL) (hnL t L hL) m0 (fun _ _ _ _ => rfl)
    exact ⟨m', r, h1⟩
  have hfin : ∀ t : Nat, ∃ m' : Mem α, ∀ L, sched[t]? = some L → run (seqAll body L) m0 = .ok ((), m') ∧
      ∀ i ∈ L, ∀ a, W i a → m'.get? a = res.get? a := by
    intro t
    cases hL : sched[t]? with
    | none => exact ⟨m0, by simp⟩
    | some L =>
      obtain ⟨m', r, h⟩ := hrun t L hL
      refine ⟨m', ?_⟩
      intro L' hL'
      injection hL' with hL'
      subst hL'
      exact ⟨r, h⟩
  choose fin hfin using hfin
  refine ⟨R', W', fin, ?_, ?_, ?_, ?_⟩
  · rintro t u ht hu hne a ⟨L, hL, i, hi, hw⟩
    refine ⟨?_, ?_⟩
    · rintro ⟨L', hL', j, hj, hw'⟩
      exact (hl.disj i (hmem t L hL i hi) j (hmem u L' hL' j hj) (hdis t u L L' hne hL hL' i hi j hj) a hw).1 hw'
    · rintro ⟨L', hL', j, hj, hw'⟩
      exact (hl.disj i (hmem t L hL i hi) j (hmem u L' hL' j hj) (hdis t u L L' hne hL hL' i hi j hj) a hw).2 hw'
  · have := inv_start (m0 := m0) (ts := sched.map (seqAll body)) (R := R') (W := W') (fin := fin) (by
      intro t p hp
      rw [List.getElem?_map] at hp
      cases hL : sched[t]? with
      | none => simp [hL] at hp
      | some L =>
        simp only [hL, Option.map_some, Option.some.injEq] at hp
        subst hp
        refine ⟨?_, (hfin t L hL).1⟩
        apply fits_seqAll
        intro i hi
        exact (hl.fits i (hmem t L hL i hi)).mono (fun a ha => ⟨L, hL, i, hi, ha⟩) (fun a ha => ⟨L, hL, i, hi, ha⟩))
    simpa [start] using this
  · rintro t ht a ⟨L, hL, i, hi, hw⟩
    exact (hfin t L hL).2 i hi a hw
  · intro a ha
    apply hl.rest
    intro i hi hw
    have hi' := hs.mem_iff.2 hi
    obtain ⟨L, hL, hiL⟩ := List.mem_flatten.1 hi'
    obtain ⟨t, ht⟩ := List.getElem?_of_mem hL
    refine ha t ?_ ⟨L, ht, i, hiL, hw⟩
    rw [List.getElem?_eq_some_iff] at ht; exact ht.1

/-- What holds of a parallel loop: under every schedule, in every reachable state, there is no race and no undefined
behaviour, the loop can always go on until it is finished, every step brings the end nearer, and finished means `res`. -/
structure ParOK (body : Nat → Prog α Unit) (its : List Nat) (m0 res : Mem α) : Prop where
  noRace : ∀ sched, IsSchedule sched its → ∀ c, Reach (start body sched m0) c → ¬ Race c
  noBad : ∀ sched, IsSchedule sched its → ∀ c, Reach (start body sched m0) c → ¬ Bad c
  progress : ∀ sched, IsSchedule sched its → ∀ c, Reach (start body sched m0) c → Final c ∨ ∃ c', Step c c'
  ends : ∀ sched, IsSchedule sched its → ¬ ∃ f : Nat → Config α, f 0 = start body sched m0 ∧ ∀ n, Step (f n) (f (n + 1))
  result : ∀ sched, IsSchedule sched its → ∀ c, Reach (start body sched m0) c → Final c → c.mem = res
  finishes : ∀ sched, IsSchedule sched its → ∃ c, Reach (start body sched m0) c ∧ Final c

theorem par_result {body : Nat → Prog α Unit} {its : List Nat} {R W : Nat → Addr → Prop} {m0 res : Mem α}
    (hl : LoopOK body its R W m0 res) : ParOK body its m0 res := by
  refine ⟨?_, ?_, ?_, ?_, ?_, ?_⟩
  · intro sched hs c hr
    obtain ⟨R', W', fin, d, i, _, _⟩ := inv_of_loop hl hs
    exact inv_no_race d (inv_reach d i hr)
  · intro sched hs c hr
    obtain ⟨R', W', fin, d, i, _, _⟩ := inv_of_loop hl hs
    exact inv_not_bad (inv_reach d i hr)
  · intro sched hs c hr
    obtain ⟨R', W', fin, d, i, _, _⟩ := inv_of_loop hl hs
    by_cases hf : Final c
    · exact Or.inl hf
    · exact Or.inr (Conc.progress (inv_not_bad (inv_reach d i hr)) hf)
  · rintro sched hs ⟨f, h0, hstep⟩
    obtain ⟨R', W', fin, d, i, _, _⟩ := inv_of_loop hl hs
    have hreach : ∀ n, Reach (start body sched m0) (f n) := by
      intro n
      induction n with
      | zero => rw [h0]; exact Reach.refl
      | succ n ih => exact Reach.step ih (hstep n)
    have hdec : ∀ n, left (f n) + n ≤ left (f 0) := by
      intro n
      induction n with
      | zero => omega
      | succ n ih =>
        have := inv_left d (inv_reach d i (hreach n)) (hstep n)
        omega
    have := hdec (left (f 0) + 1)
    omega
  · intro sched hs c hr hf
    obtain ⟨R', W', fin, d, i, h1, h2⟩ := inv_of_loop hl hs
    have hi := inv_reach d i hr
    apply mem_ext
    intro a
    by_cases ha : ∃ t < sched.length, W' t a
    · obtain ⟨t, ht, hw⟩ := ha
      have htl : t < c.threads.length := by rw [hi.len]; exact ht
      obtain ⟨_, m', r, hm⟩ := hi.thread t _ (List.getElem?_eq_getElem htl)
      rw [hf _ (List.getElem_mem htl)] at r
      simp only [run] at r
      injection r with r
      injection r with _ r
      subst r
      rw [hm a hw, h1 t ht a hw]
    · push Not at ha
      rw [hi.frame a ha, h2 a ha]
  · intro sched hs
    obtain ⟨R', W', fin, d, i, h1, h2⟩ := inv_of_loop hl hs
    have key : ∀ n c, left c ≤ n → Reach (start body sched m0) c → ∃ c', Reach (start body sched m0) c' ∧ Final c' := by
      intro n
      induction n with
      | zero =>
        intro c hc hr
        by_cases hf : Final c
        · exact ⟨c, hr, hf⟩
        · obtain ⟨c', hc'⟩ := Conc.progress (inv_not_bad (inv_reach d i hr)) hf
          have := inv_left d (inv_reach d i hr) hc'
          omega
      | succ n ih =>
        intro c hc hr
        by_cases hf : Final c
        · exact ⟨c, hr, hf⟩
        · obtain ⟨c', hc'⟩ := Conc.progress (inv_not_bad (inv_reach d i hr)) hf
          have := inv_left d (inv_reach d i hr) hc'
          exact ih c' (by omega) (Reach.step hr hc')
    exact key _ _ (Nat.le_refl _) Reach.refl

/-! ### Loop counters -/

theorem mem_indices {lo hi step i : Nat} (hs : 0 < step) :
    i ∈ indices lo hi step ↔ lo ≤ i ∧ i < hi ∧ (i - lo) % step = 0 := by
  induction lo using indices.induct hi step with
  | case1 lo hc ih =>
    rw [indices, if_pos hc, List.mem_cons, ih]
    constructor
    · rintro (rfl | ⟨h1, h2, h3⟩)
      · exact ⟨Nat.le_refl _, hc.1, by simp⟩
      · refine ⟨by omega, h2, ?_⟩
        have : i - lo = (i - (lo + step)) + step := by omega
        rw [this, Nat.add_mod_right]; exact h3
    · rintro ⟨h1, h2, h3⟩
      by_cases h : i = lo
      · exact Or.inl h
      · right
        have hge : step ≤ i - lo := by
          by_contra hlt
          rw [Nat.mod_eq_of_lt (by omega)] at h3
          omega
        refine ⟨by omega, h2, ?_⟩
        have : i - lo = (i - (lo + step)) + step := by omega
        rw [this, Nat.add_mod_right] at h3; exact h3
  | case2 lo hc =>
    rw [indices, if_neg hc]
    simp only [List.not_mem_nil, false_iff]
    rintro ⟨h1, h2, h3⟩
    exact hc ⟨by omega, hs⟩

theorem nodup_indices {lo hi step : Nat} : (indices lo hi step).Nodup := by
  induction lo using indices.induct hi step with
  | case1 lo hc ih =>
    rw [indices, if_pos hc, List.nodup_cons]
    refine ⟨?_, ih⟩
    rw [mem_indices hc.2]
    rintro ⟨h1, _⟩
    omega
  | case2 lo hc => rw [indices, if_neg hc]; exact List.nodup_nil

end Verif.Conc
