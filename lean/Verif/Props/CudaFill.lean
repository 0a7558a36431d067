import Verif.Model.CudaFill
import Verif.Props.Random

/-!
# Random arrays of `float` and `double` on CUDA (C139)

`calls E fuel st prog`: what the calls `prog` return, from the state `st`. Each `fillRandom` returns the array it leaves.
-/

namespace Verif.CudaFill

open RandomM

variable {G C : Type}

/-- Consecutive pieces of a sequence of cuRAND: what `fillRandom` should leave, one array per call of the instantiation `i` in `prog`, in
order, when the generator is `g` before the first. -/
def pieces (E : Env G C) (i : FInst) : C → List Call → List (List ℚ)
  | _, [] => []
  | g, .fill j n lower upper :: cs =>
    if j = i then (E.cu.uniform i.double g n).1.map (E.scale i.double lower upper) :: pieces E i (E.cu.uniform i.double g n).2 cs
    else pieces E i g cs
  | g, .host _ :: cs => pieces E i g cs

/-- The arrays that the calls of the instantiation `i` left. -/
def arraysOf (i : FInst) : List Call → List Res → List (List ℚ)
  | .fill j _ _ _ :: cs, .array a :: rs => if j = i then a :: arraysOf i cs rs else arraysOf i cs rs
  | _ :: cs, _ :: rs => arraysOf i cs rs
  | _, _ => []

/-- The host calls of a program draw from one instantiation of `random` (for others the host's own numbers are not reproducible, C44). -/
def HostInst (i : Inst) (prog : List Call) : Prop := ∀ c, Call.host c ∈ prog → c.inst = none ∨ c.inst = some i

/-- A program sets no seed. -/
def NoSeed (prog : List Call) : Prop := ∀ c, Call.host c ∈ prog → ∀ s, c ≠ .setSeed s

/-- First half of C139: after `setSeed(s)` what a program gets does not depend on what was called before. -/
def C139Reproducible (E : Env G C) : Prop :=
  ∀ (fuel : Nat) (seed0 seed0' : Nat) (hist hist' prog : List Call) (s : Nat) (r r' : List Res) (st st' : St G C) (i : Inst),
    calls E fuel (start seed0) hist = some (r, st) → calls E fuel (start seed0') hist' = some (r', st') → st.host.gauss = st'.host.gauss →
    HostInst i prog → (calls E fuel (setSeed s st) prog).map Prod.fst = (calls E fuel (setSeed s st') prog).map Prod.fst

/-- Second half: after `setSeed(s)` the arrays that one instantiation of `fillRandom` leaves are consecutive pieces of the sequence of the
seed, so that no number is used twice. -/
def C139Consecutive (E : Env G C) : Prop :=
  ∀ (fuel : Nat) (seed0 : Nat) (hist prog : List Call) (s : Nat) (r r' : List Res) (st st' : St G C) (i : FInst),
    calls E fuel (start seed0) hist = some (r, st) → calls E fuel (setSeed s st) prog = some (r', st') → NoSeed prog →
    arraysOf i prog r' = pieces E i (E.cu.ofSeed s) prog

/-- C139. -/
def C139Claim (E : Env G C) : Prop := C139Reproducible E ∧ C139Consecutive E

/-! ### What is reproducible -/

/-- Two states that agree on the host's variables and on the generators of the instantiations in `S`. -/
def Same (E : Env G C) (i : Inst) (S : List FInst) (st st' : St G C) : Prop :=
  Agree E.gen i st.host st'.host ∧ ∀ j ∈ S, st.prng j = st'.prng j

/-- A program in which `fillRandom` is called only while `global::reseed` is set (`fresh`), or by instantiations that were called (`S`) while
it was. -/
def Settled : List FInst → Bool → List Call → Prop
  | _, _, [] => True
  | S, fresh, .fill j _ _ _ :: cs => (fresh = true ∨ j ∈ S) ∧ Settled (j :: S) fresh cs
  | S, _, .host (.setSeed _) :: cs => Settled S true cs
  | S, _, .host _ :: cs => Settled S false cs

theorem same_calls {E : Env G C} {fuel : Nat} {i : Inst} : ∀ (prog : List Call) (S : List FInst) (fresh : Bool) (st st' : St G C),
    HostInst i prog → Settled S fresh prog → (fresh = true → st.host.reseed = true) → Same E i S st st' →
    (calls E fuel st prog).map Prod.fst = (calls E fuel st' prog).map Prod.fst
  | [], _, _, _, _, _, _, _, _ => rfl
  | .fill j n lo hi :: cs, S, fresh, st, st', hH, hS, hf, hsame => by
    obtain ⟨hA, hP⟩ := hsame
    have hcur : current E.cu st j = current E.cu st' j := by
      unfold current
      rw [← hA.1, ← hA.2.1]
      rcases hS.1 with h | h
      · rw [if_pos (hf h), if_pos (hf h)]
      · rw [hP j h]
    have key := same_calls (fuel := fuel) cs (j :: S) fresh (fill E.scale E.cu st j n lo hi).2 (fill E.scale E.cu st' j n lo hi).2
      (fun c hc => hH c (List.mem_cons_of_mem _ hc)) hS.2 hf ⟨hA, fun k hk => by
        simp only [fill, hcur]
        split
        · rfl
        · rename_i hne
          rcases List.mem_cons.1 hk with h | h
          · exact absurd h hne
          · exact hP k h⟩
    have hres : (fill E.scale E.cu st j n lo hi).1 = (fill E.scale E.cu st' j n lo hi).1 := by simp only [fill, hcur]
    simp only [calls, call, Option.bind_some, Option.map_map, hres]
    have e : ∀ (v : Res) (x : Option (List Res × St G C)),
        x.map (Prod.fst ∘ fun rs => (v :: rs.1, rs.2)) = (x.map Prod.fst).map (v :: ·) := by
      intro v x; cases x <;> rfl
    rw [e, e, key]
  | .host c :: cs, S, fresh, st, st', hH, hS, hf, hsame => by
    obtain ⟨hA, hP⟩ := hsame
    have hstep := agree_call (fl := E.fl) (mult := E.mult) (fuel := fuel) (hH c List.mem_cons_self) hA
    rcases hstep with ⟨p1, p2⟩ | ⟨v, t, t', p1, p2, a⟩
    · simp [calls, call, p1, p2]
    · have key : ∀ fresh', Settled S fresh' cs → (fresh' = true → t.reseed = true) →
          (calls E fuel ({ st with host := t } : St G C) cs).map Prod.fst = (calls E fuel ({ st' with host := t' } : St G C) cs).map Prod.fst :=
        fun fresh' h1 h2 => same_calls cs S fresh' _ _ (fun c hc => hH c (List.mem_cons_of_mem _ hc)) h1 h2 ⟨a, hP⟩
      have key' : (calls E fuel ({ st with host := t } : St G C) cs).map Prod.fst = (calls E fuel ({ st' with host := t' } : St G C) cs).map Prod.fst := by
        cases c with
        | setSeed s =>
          refine key true hS fun _ => ?_
          simp only [RandomM.call, Option.some.injEq, Prod.mk.injEq] at p1
          rw [← p1.2]
          rfl
        | random j a b => exact key false hS (by simp)
        | randint a b => exact key false hS (by simp)
        | gaussian => exact key false hS (by simp)
      simp only [calls, call, p1, p2, Option.map_some, Option.bind_some, Option.map_map]
      have e : ∀ (v : Res) (x : Option (List Res × St G C)),
          x.map (Prod.fst ∘ fun rs => (v :: rs.1, rs.2)) = (x.map Prod.fst).map (v :: ·) := by
        intro v x; cases x <;> rfl
      rw [e, e, key']

/-- **C139**, first half, for programs in which each instantiation of `fillRandom` is first called before any number is drawn on the host,
or after setting the seed again; from any two states that keep the same Gaussian value. Missing: `fillRandom` first called after a
number was drawn on the host, for which it is false (`C139_history_false`). -/
theorem C139_seeded_partial (E : Env G C) (fuel : Nat) (i : Inst) (prog : List Call) (hH : HostInst i prog) (hS : Settled [] true prog)
    (s : Nat) (st st' : St G C) (hg : st.host.gauss = st'.host.gauss) :
    (calls E fuel (setSeed s st) prog).map Prod.fst = (calls E fuel (setSeed s st') prog).map Prod.fst :=
  same_calls prog [] true _ _ hH hS (fun _ => rfl)
    ⟨⟨rfl, rfl, by simp [RandomM.current, setSeed, RandomM.setSeed], hg⟩, by simp⟩

/-- The hypotheses are met by a program that fills two arrays, draws a number and fills the first again. -/
example : HostInst (.dbl, .dbl) [.fill ⟨false, 0⟩ 10 0 1, .fill ⟨true, 0⟩ 10 0 1, .host (.random (.dbl, .dbl) 0 1), .fill ⟨false, 0⟩ 10 0 1] ∧
    Settled [] true [.fill ⟨false, 0⟩ 10 0 1, .fill ⟨true, 0⟩ 10 0 1, .host (.random (.dbl, .dbl) 0 1), .fill ⟨false, 0⟩ 10 0 1] := by
  refine ⟨fun c hc => ?_, ?_⟩
  · simp only [List.mem_cons, reduceCtorEq, Call.host.injEq, false_or, List.not_mem_nil, or_false] at hc
    exact .inr (by rw [hc]; rfl)
  · simp [Settled]

/-! ### What is consecutive -/

theorem draw_reseed (gen : Gen G) (st : RandomM.St G) (i : Inst) : (drawOf gen st i).2.reseed = false ∧ (drawOf gen st i).2.seed = st.seed := ⟨rfl, rfl⟩

theorem polar_reseed {fl : ℚ → ℚ} {gen : Gen G} : ∀ {fuel : Nat} {st t : RandomM.St G} {v}, polar fl gen fuel st = some (v, t) →
    t.reseed = false ∧ t.seed = st.seed
  | 0, _, _, _, h => by cases h
  | fuel + 1, st, t, v, h => by
    unfold polar at h
    simp only at h
    split at h
    · have := polar_reseed h
      exact ⟨this.1, this.2⟩
    · injection h with h
      injection h with _ h
      rw [← h]
      exact ⟨rfl, rfl⟩

/-- A number drawn on the host: nothing is left to be seeded, or nothing was. -/
theorem call_reseed {fl mult : ℚ → ℚ} {gen : Gen G} {fuel : Nat} {st t : RandomM.St G} {c : RandomM.Call} {v} (hc : ∀ s, c ≠ .setSeed s)
    (h : RandomM.call fl mult gen fuel st c = some (v, t)) : t.seed = st.seed ∧ (st.reseed = false → t.reseed = false) := by
  cases c with
  | setSeed s => exact absurd rfl (hc s)
  | random j a b =>
    injection h with h
    injection h with _ h
    rw [← h]
    exact ⟨rfl, fun _ => rfl⟩
  | randint a b =>
    injection h with h
    injection h with _ h
    rw [← h]
    exact ⟨rfl, fun _ => rfl⟩
  | gaussian =>
    simp only [RandomM.call, gaussian] at h
    split at h
    · simp only [Option.map_some, Option.some.injEq, Prod.mk.injEq] at h
      rw [← h.2]
      exact ⟨rfl, id⟩
    · cases hp : polar fl gen fuel st with
      | none => rw [hp] at h; cases h
      | some r =>
        rw [hp] at h
        simp only [Option.map_some, Option.some.injEq, Prod.mk.injEq] at h
        obtain ⟨v', t'⟩ := r
        have := polar_reseed hp
        rw [← h.2]
        exact ⟨this.2, fun _ => this.1⟩

theorem bind_map_some {E : Env G C} {fuel : Nat} {x : Option (Res × St G C)} {cs : List Call} {rs : List Res} {st' : St G C}
    (h : (x.bind fun r => (calls E fuel r.2 cs).map fun rs => (r.1 :: rs.1, rs.2)) = some (rs, st')) :
    ∃ v t rs', x = some (v, t) ∧ calls E fuel t cs = some (rs', st') ∧ rs = v :: rs' := by
  cases x with
  | none => cases h
  | some r =>
    obtain ⟨v, t⟩ := r
    simp only [Option.bind_some] at h
    cases hc : calls E fuel t cs with
    | none => rw [hc] at h; cases h
    | some q =>
      obtain ⟨rs', t'⟩ := q
      rw [hc] at h
      simp only [Option.map_some, Option.some.injEq, Prod.mk.injEq] at h
      exact ⟨v, t, rs', rfl, by rw [hc, h.2], h.1.symm⟩

/-- **C139**, second half, from any state in which no seed is waiting to be used (no seed was set, or a number was drawn on the host
since), for every program without `setSeed`: the arrays that one instantiation leaves, whatever is called in between, are consecutive
pieces of one sequence. Missing: a seed that is still waiting, for which it is false (`C139_repeats`). -/
theorem C139_continues_partial (E : Env G C) (fuel : Nat) (i : FInst) : ∀ (prog : List Call) (st st' : St G C) (rs : List Res),
    NoSeed prog → st.host.reseed = false → calls E fuel st prog = some (rs, st') → arraysOf i prog rs = pieces E i (current E.cu st i) prog
  | [], st, st', rs, _, _, h => by
    simp only [calls, Option.some.injEq, Prod.mk.injEq] at h
    rw [← h.1]
    rfl
  | .fill j n lo hi :: cs, st, st', rs, hN, hr, h => by
    obtain ⟨v, t, rs', h1, h2, rfl⟩ := bind_map_some h
    simp only [call, Option.some.injEq, Prod.mk.injEq] at h1
    obtain ⟨rfl, rfl⟩ := h1
    have ih := C139_continues_partial E fuel i cs (fill E.scale E.cu st j n lo hi).2 _ _ (fun c hc => hN c (List.mem_cons_of_mem _ hc)) hr h2
    simp only [arraysOf, pieces]
    by_cases hj : j = i
    · subst hj
      rw [if_pos rfl, if_pos rfl, ih]
      have : current E.cu (fill E.scale E.cu st j n lo hi).2 j = (E.cu.uniform j.double (current E.cu st j) n).2 := by
        simp [current, fill, hr]
      rw [this]
      rfl
    · rw [if_neg hj, if_neg hj, ih]
      have : current E.cu (fill E.scale E.cu st j n lo hi).2 i = current E.cu st i := by
        simp [current, fill, hr, Ne.symm hj]
      rw [this]
  | .host c :: cs, st, st', rs, hN, hr, h => by
    obtain ⟨v, t, rs', h1, h2, rfl⟩ := bind_map_some h
    simp only [call] at h1
    cases hc : RandomM.call E.fl E.mult E.gen fuel st.host c with
    | none => rw [hc] at h1; cases h1
    | some r =>
      obtain ⟨w, t'⟩ := r
      rw [hc] at h1
      simp only [Option.map_some, Option.some.injEq, Prod.mk.injEq] at h1
      obtain ⟨rfl, rfl⟩ := h1
      have hk := call_reseed (hN c List.mem_cons_self) hc
      have ih := C139_continues_partial E fuel i cs _ _ _ (fun c hc => hN c (List.mem_cons_of_mem _ hc)) (hk.2 hr) h2
      simp only [arraysOf, pieces]
      rw [ih]
      have : current E.cu ({ st with host := t' } : St G C) i = current E.cu st i := by
        simp [current, hk.2 hr, hr, hk.1]
      rw [this]

/-- The hypotheses are met: at the start of a program no seed is waiting. -/
example (E : Env G C) (s : Nat) : (start (G := G) (C := C) s).host.reseed = false ∧
    NoSeed [.fill ⟨false, 0⟩ 10 0 1, .host (.random (.dbl, .dbl) 0 1), .fill ⟨false, 0⟩ 10 0 1] := by
  refine ⟨rfl, fun c hc s => ?_⟩
  simp only [List.mem_cons, reduceCtorEq, Call.host.injEq, false_or, List.not_mem_nil, or_false] at hc
  rw [hc]
  exact fun h => nomatch h

/-- The state after `n` numbers of `g` were used by the instantiation `i`. -/
def after (E : Env G C) (st : St G C) (i : FInst) (g : C) (n : Nat) : St G C :=
  ⟨st.host, fun j => if j = i then some (E.cu.uniform i.double g n).2 else st.prng j⟩

/-- Every `fillRandom` after `setSeed(s)`, until a number is drawn on the host, starts again at the beginning of the sequence of the seed:
equal sizes and bounds give equal arrays, also from different instantiations for the same element type. For every generator, state
and program of fills. -/
theorem C139_repeats (E : Env G C) (fuel : Nat) (s : Nat) : ∀ (prog : List Call) (st : St G C), (∀ c, Call.host c ∉ prog) →
    (calls E fuel (setSeed s st) prog).map Prod.fst = some (prog.map fun c =>
      match c with
      | .fill i n lower upper => .array ((E.cu.uniform i.double (E.cu.ofSeed s) n).1.map (E.scale i.double lower upper))
      | .host _ => .array [])
  | [], _, _ => rfl
  | .host c :: _, _, h => absurd List.mem_cons_self (h c)
  | .fill i n lo hi :: cs, st, h => by
    have ih := C139_repeats E fuel s cs (after E st i (E.cu.ofSeed s) n) (fun c hc => h c (List.mem_cons_of_mem _ hc))
    have hcur : current E.cu (setSeed s st) i = E.cu.ofSeed s := by simp [current, setSeed, RandomM.setSeed]
    have hst : (fill E.scale E.cu (setSeed s st) i n lo hi).2 = setSeed s (after E st i (E.cu.ofSeed s) n) := by
      simp only [fill, hcur]
      rfl
    have hres : (fill E.scale E.cu (setSeed s st) i n lo hi).1 =
        (E.cu.uniform i.double (E.cu.ofSeed s) n).1.map (E.scale i.double lo hi) := by simp only [fill, hcur]
    simp only [calls, call, Option.bind_some, Option.map_map, hst, hres]
    have e : ∀ (v : Res) (x : Option (List Res × St G C)),
        x.map (Prod.fst ∘ fun rs => (v :: rs.1, rs.2)) = (x.map Prod.fst).map (v :: ·) := by
      intro v x; cases x <;> rfl
    rw [e, ih]
    rfl

/-! ### What is not -/

/-- The array of the first call of an instantiation from the generator `g`, with the bounds 0 and 1. -/
def piece (E : Env G C) (i : FInst) (g : C) (n : Nat) : List ℚ := (E.cu.uniform i.double g n).1.map (E.scale i.double 0 1)

/-- **C139**, second half, is false for every generator whose first two pieces after some seed differ: the second array is the first again. -/
theorem C139_consecutive_false (E : Env G C) (i : FInst) (s n : Nat)
    (hne : piece E i (E.cu.ofSeed s) n ≠ piece E i (E.cu.uniform i.double (E.cu.ofSeed s) n).2 n) : ¬ C139Consecutive E := by
  intro h
  have hr := C139_repeats E 0 s [.fill i n 0 1, .fill i n 0 1] (start 0) (by simp)
  simp only [List.map_cons, List.map_nil] at hr
  cases hc : calls E 0 (setSeed s (start 0)) [.fill i n 0 1, .fill i n 0 1] with
  | none => rw [hc] at hr; cases hr
  | some r =>
    obtain ⟨rs, st'⟩ := r
    rw [hc] at hr
    simp only [Option.map_some, Option.some.injEq] at hr
    have := h 0 0 [] [.fill i n 0 1, .fill i n 0 1] s [] rs (start 0) st' i rfl hc (by intro c hc; simp at hc)
    rw [hr] at this
    simp only [arraysOf, pieces, if_true, List.cons.injEq, and_true, true_and] at this
    exact hne this

/-- **C139**, first half, is false for every generator for which the second piece after one seed is not the first piece after another: a
number drawn on the host uses up the seed, and a generator of cuRAND that exists already is not seeded. -/
theorem C139_history_false (E : Env G C) (i : FInst) (s s0 n : Nat)
    (hne : piece E i (E.cu.ofSeed s) n ≠ piece E i (E.cu.uniform i.double (E.cu.ofSeed s0) n).2 n) : ¬ C139Reproducible E := by
  intro h
  have := h 0 s0 s0 [] [.fill i n 0 1] [.host (.random (.dbl, .dbl) 0 1), .fill i n 0 1] s _ _ _ _ (.dbl, .dbl) rfl rfl rfl
    (by
      intro c hc
      simp only [List.mem_cons, Call.host.injEq, reduceCtorEq, List.not_mem_nil, or_false] at hc
      rw [hc]
      exact .inr rfl)
  simp [calls, call, RandomM.call, drawOf, fill, current, setSeed, RandomM.setSeed, start, RandomM.start, RandomM.current] at this
  exact hne this

/-- A generator for the witness: the numbers of a seed, 1/2, 1/3, ... from there. -/
def counter : Curand Nat := ⟨id, fun _ g n => ((List.range n).map fun k => 1 / ((g + k + 2 : Nat) : ℚ), g + n)⟩

/-- **C139** is false, in both halves, with a generator that never repeats a number. -/
theorem C139_false (fl mult : ℚ → ℚ) (gen : Gen G) :
    ¬ C139Reproducible (⟨fl, mult, gen, counter, fun _ lower upper u => u * (upper - lower) + lower⟩ : Env G Nat) ∧
      ¬ C139Consecutive (⟨fl, mult, gen, counter, fun _ lower upper u => u * (upper - lower) + lower⟩ : Env G Nat) ∧
      ¬ C139Claim (⟨fl, mult, gen, counter, fun _ lower upper u => u * (upper - lower) + lower⟩ : Env G Nat) := by
  have h1 : ¬ C139Reproducible (⟨fl, mult, gen, counter, fun _ lower upper u => u * (upper - lower) + lower⟩ : Env G Nat) :=
    C139_history_false _ ⟨false, 0⟩ 0 0 1 (by simp [piece, counter, List.range_succ])
  exact ⟨h1, C139_consecutive_false _ ⟨false, 0⟩ 0 1 (by simp [piece, counter, List.range_succ]), fun h => h1 h.1⟩

end Verif.CudaFill
