import Verif.Lemmas.Conc

/-!
# Loops whose iterations write disjoint elements

`Does Pre S val p`: from every memory satisfying `Pre`, `p` ends in a memory satisfying `Pre` where each address in `S` holds
`val` and every other one is unchanged. Such loops satisfy `LoopOK` and hence have the same result under every schedule.
-/

namespace Verif.Conc

/-- See the file comment. -/
def Does (Pre : Mem α → Prop) (S : Addr → Prop) (val : Addr → α) (p : Prog α Unit) : Prop :=
  ∀ m, Pre m → ∃ m', run p m = .ok ((), m') ∧ Pre m' ∧ (∀ a, S a → m'.get? a = some (val a)) ∧
    ∀ a, ¬ S a → m'.get? a = m.get? a

theorem Does.congr {Pre : Mem α → Prop} {S S' : Addr → Prop} {val : Addr → α} {p : Prog α Unit} (h : Does Pre S val p)
    (hS : ∀ a, S a ↔ S' a) : Does Pre S' val p := by
  intro m hm
  obtain ⟨m', h1, h2, h3, h4⟩ := h m hm
  exact ⟨m', h1, h2, fun a ha => h3 a ((hS a).2 ha), fun a ha => h4 a fun h => ha ((hS a).1 h)⟩

theorem does_ret {Pre : Mem α → Prop} {val : Addr → α} : Does Pre (fun _ => False) val (.ret ()) :=
  fun m hm => ⟨m, rfl, hm, fun _ h => h.elim, fun _ _ => rfl⟩

theorem does_bind {Pre : Mem α → Prop} {S S' : Addr → Prop} {val : Addr → α} {p : Prog α Unit} {q : Unit → Prog α Unit}
    (hp : Does Pre S val p) (hq : Does Pre S' val (q ())) : Does Pre (fun a => S a ∨ S' a) val (p.bind q) := by
  intro m hm
  obtain ⟨m1, r1, p1, s1, f1⟩ := hp m hm
  obtain ⟨m2, r2, p2, s2, f2⟩ := hq m1 p1
  refine ⟨m2, by rw [run_bind, r1]; exact r2, p2, fun a ha => ?_, fun a ha => ?_⟩
  · by_cases h' : S' a
    · exact s2 a h'
    · rw [f2 a h']
      exact s1 a (ha.resolve_right h')
  · rw [f2 a fun h => ha (.inr h), f1 a fun h => ha (.inl h)]

theorem does_seqAll {Pre : Mem α → Prop} {S : Nat → Addr → Prop} {val : Addr → α} {body : Nat → Prog α Unit} {L : List Nat}
    (h : ∀ i ∈ L, Does Pre (S i) val (body i)) : Does Pre (fun a => ∃ i ∈ L, S i a) val (seqAll body L) := by
  induction L with
  | nil => exact does_ret.congr fun a => by simp
  | cons i L ih =>
    exact (does_bind (h i List.mem_cons_self) (ih fun j hj => h j (List.mem_cons_of_mem _ hj))).congr fun a => by simp

theorem loop_of_does {Pre : Mem α → Prop} {R S : Nat → Addr → Prop} {val : Addr → α} {body : Nat → Prog α Unit} {its : List Nat}
    {m0 : Mem α} (hn : its.Nodup) (hm : Pre m0) (hd : ∀ i ∈ its, Does Pre (S i) val (body i))
    (hf : ∀ i ∈ its, Fits (R i) (S i) (body i))
    (hdisj : ∀ i ∈ its, ∀ j ∈ its, i ≠ j → ∀ a, S i a → ¬ S j a ∧ ¬ R j a) :
    ∃ res, LoopOK body its R S m0 res ∧ Pre res ∧ (∀ a, (∃ i ∈ its, S i a) → res.get? a = some (val a)) ∧
      ∀ a, (¬ ∃ i ∈ its, S i a) → res.get? a = m0.get? a := by
  obtain ⟨res, _, p, s, f⟩ := does_seqAll hd m0 hm
  refine ⟨res, ⟨hn, hf, hdisj, fun i hi => ?_, fun a ha => f a fun ⟨i, hi, h⟩ => ha i hi h⟩, p, s, f⟩
  obtain ⟨m', r, _, s', _⟩ := hd i hi m0 hm
  exact ⟨m', r, fun a ha => by rw [s' a ha, s a ⟨i, hi, ha⟩]⟩

end Verif.Conc
