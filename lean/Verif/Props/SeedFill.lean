import Verif.Model.SeedFill
import Verif.Props.Random
import Verif.Props.CudaFill

/-!
# Random arrays made from seeds: OpenCL, and CUDA element types other than `float` and `double` (C141)

`calls E fuel st prog`: what the calls `prog` return, from the state `st`. Each `fillRandom` returns the array it leaves.
-/

namespace Verif.SeedFill

open RandomM ScalarM Ieee

variable {G : Type}

/-- The host calls of a program draw from the instantiation of `random` that `fillRandom` uses too (for others the host's own numbers are
not reproducible, C44). -/
def HostDouble (prog : List Call) : Prop := ∀ c, Call.host c ∈ prog → c.inst = none ∨ c.inst = some (.dbl, .dbl)

/-- **C141**: after `setSeed(s)` what a program gets does not depend on what was called before. -/
def C141Claim (E : Env G) : Prop :=
  ∀ (fuel : Nat) (seed0 seed0' : Nat) (hist hist' prog : List Call) (s : Nat) (r r' : List CudaFill.Res) (st st' : St G),
    calls E fuel (start seed0) hist = some (r, st) → calls E fuel (start seed0') hist' = some (r', st') → st.host.gauss = st'.host.gauss →
    HostDouble prog → (calls E fuel (setSeed s st) prog).map Prod.fst = (calls E fuel (setSeed s st') prog).map Prod.fst

/-! ### What is reproducible -/

/-- The first `k` seeds drawn from the generator `g`. -/
def seedsFrom (fl : ℚ → ℚ) (gen : Gen G) : Nat → G → List Int
  | 0, _ => []
  | k + 1, g => seedVal fl (gen.draw g).1 :: seedsFrom fl gen k (gen.draw g).2

theorem drawSeeds_eq {fl : ℚ → ℚ} {gen : Gen G} : ∀ {k : Nat} {st : RandomM.St G},
    (drawSeeds fl gen k st).1 = seedsFrom fl gen k (RandomM.current gen st (.dbl, .dbl))
  | 0, _ => rfl
  | k + 1, st => by
    simp only [drawSeeds, seedsFrom, drawSeeds_eq (k := k)]
    simp [drawOf, RandomM.current]

theorem agree_seeds {fl : ℚ → ℚ} {gen : Gen G} : ∀ {k : Nat} {st st' : RandomM.St G}, Agree gen (.dbl, .dbl) st st' →
    (drawSeeds fl gen k st).1 = (drawSeeds fl gen k st').1 ∧ Agree gen (.dbl, .dbl) (drawSeeds fl gen k st).2 (drawSeeds fl gen k st').2
  | 0, _, _, h => ⟨rfl, h⟩
  | k + 1, st, st', h => by
    obtain ⟨e1, a1⟩ := agree_draw h
    obtain ⟨e2, a2⟩ := agree_seeds (fl := fl) (k := k) a1
    exact ⟨by simp only [drawSeeds, e1, e2], a2⟩

theorem drawSeeds_reseed' {fl : ℚ → ℚ} {gen : Gen G} (k : Nat) : ∀ st : RandomM.St G, (drawSeeds fl gen (k + 1) st).2.reseed = false := by
  induction k with
  | zero => intro st; rfl
  | succ k ih =>
    intro st
    rw [drawSeeds]
    exact ih _

theorem drawSeeds_reseed {fl : ℚ → ℚ} {gen : Gen G} {st : RandomM.St G} : (drawSeeds fl gen numSeeds st).2.reseed = false :=
  drawSeeds_reseed' 1023 st

/-- A program in which `fillRandom` is called only while `global::reseed` is set (`fresh`; the call uses it up), or by instantiations that
were called (`S`) while it was. -/
def Settled : List Nat → Bool → List Call → Prop
  | _, _, [] => True
  | S, fresh, .fill j _ _ _ :: cs => (fresh = true ∨ j ∈ S) ∧ Settled (j :: S) false cs
  | S, _, .host (.setSeed _) :: cs => Settled S true cs
  | S, _, .host _ :: cs => Settled S false cs

/-- Two states that agree on the host's variables and on the seeds of the instantiations in `S`. -/
def Same (E : Env G) (S : List Nat) (st st' : St G) : Prop :=
  Agree E.gen (.dbl, .dbl) st.host st'.host ∧ ∀ j ∈ S, ∃ s, st.seeds j = some s ∧ st'.seeds j = some s

theorem cons_map (v : CudaFill.Res) (x : Option (List CudaFill.Res × St G)) :
    x.map (Prod.fst ∘ fun rs => (v :: rs.1, rs.2)) = (x.map Prod.fst).map (v :: ·) := by
  cases x <;> rfl

theorem same_calls {E : Env G} {fuel : Nat} : ∀ (prog : List Call) (S : List Nat) (fresh : Bool) (st st' : St G),
    HostDouble prog → Settled S fresh prog → (fresh = true → st.host.reseed = true) → Same E S st st' →
    (calls E fuel st prog).map Prod.fst = (calls E fuel st' prog).map Prod.fst
  | [], _, _, _, _, _, _, _, _ => rfl
  | .fill j n lo hi :: cs, S, fresh, st, st', hH, hS, hf, hsame => by
    obtain ⟨hA, hP⟩ := hsame
    have hcur : (current E st j).1 = (current E st' j).1 ∧ Agree E.gen (.dbl, .dbl) (current E st j).2 (current E st' j).2 := by
      unfold current
      rw [← hA.2.1]
      rcases hS.1 with h | h
      · rw [if_pos (hf h), if_pos (hf h)]
        exact agree_seeds hA
      · obtain ⟨s, h1, h2⟩ := hP j h
        rw [h1, h2]
        by_cases hr : st.host.reseed
        · rw [if_pos hr, if_pos hr]; exact agree_seeds hA
        · rw [if_neg hr, if_neg hr]; exact ⟨rfl, hA⟩
    have key := same_calls (fuel := fuel) cs (j :: S) false (fill E st j n lo hi).2 (fill E st' j n lo hi).2
      (fun c hc => hH c (List.mem_cons_of_mem _ hc)) hS.2 (by simp) ⟨hcur.2, fun k hk => by
        simp only [fill, hcur.1]
        by_cases hkj : k = j
        · exact ⟨_, by rw [if_pos hkj], by rw [if_pos hkj]⟩
        · rw [if_neg hkj, if_neg hkj]
          rcases List.mem_cons.1 hk with h | h
          · exact absurd h hkj
          · exact hP k h⟩
    have hres : (fill E st j n lo hi).1 = (fill E st' j n lo hi).1 := by simp only [fill, hcur.1]
    simp only [calls, call, Option.bind_some, Option.map_map, hres]
    rw [cons_map, cons_map, key]
  | .host c :: cs, S, fresh, st, st', hH, hS, hf, hsame => by
    obtain ⟨hA, hP⟩ := hsame
    have hstep := agree_call (fl := E.fl) (mult := E.mult) (fuel := fuel) (hH c List.mem_cons_self) hA
    rcases hstep with ⟨p1, p2⟩ | ⟨v, t, t', p1, p2, a⟩
    · simp [calls, call, p1, p2]
    · have key : ∀ fresh', Settled S fresh' cs → (fresh' = true → t.reseed = true) →
          (calls E fuel ({ st with host := t } : St G) cs).map Prod.fst = (calls E fuel ({ st' with host := t' } : St G) cs).map Prod.fst :=
        fun fresh' h1 h2 => same_calls cs S fresh' _ _ (fun c hc => hH c (List.mem_cons_of_mem _ hc)) h1 h2 ⟨a, hP⟩
      have key' : (calls E fuel ({ st with host := t } : St G) cs).map Prod.fst = (calls E fuel ({ st' with host := t' } : St G) cs).map Prod.fst := by
        cases c with
        | setSeed s =>
          refine key true hS fun _ => ?_
          simp only [RandomM.call, Option.some.injEq, Prod.mk.injEq] at p1
          rw [← p1.2]
          rfl
        | random j a b => exact key false hS (by simp)
        | randint a b => exact key false hS (by simp)
        | gaussian => exact key false hS (by simp)
      simp only [calls, call, p1, p2, Option.map_some, Option.bind_some, Option.map_map]
      rw [cons_map, cons_map, key']

/-- **C141** for programs in which each instantiation of `fillRandom` is first called right after setting the seed (before any number is
drawn on the host and before any other instantiation is called), or after setting it again; from any two states that keep the same Gaussian
value. Missing: the other programs, for which it is false (`C141_second_false`, `C141_host_false`). -/
theorem C141_seeded_partial (E : Env G) (fuel : Nat) (prog : List Call) (hH : HostDouble prog) (hS : Settled [] true prog)
    (s : Nat) (st st' : St G) (hg : st.host.gauss = st'.host.gauss) :
    (calls E fuel (setSeed s st) prog).map Prod.fst = (calls E fuel (setSeed s st') prog).map Prod.fst :=
  same_calls prog [] true _ _ hH hS (fun _ => rfl) ⟨⟨rfl, rfl, by simp [RandomM.current, setSeed, RandomM.setSeed], hg⟩, by simp⟩

/-- The hypotheses are met by a program that fills two arrays of one kind with a number drawn in between, sets a seed and fills another. -/
example : HostDouble [.fill 0 10 0 1, .host (.randint 1 6), .fill 0 20 0 1, .host (.setSeed 3), .fill 1 10 0 1] ∧
    Settled [] true [.fill 0 10 0 1, .host (.randint 1 6), .fill 0 20 0 1, .host (.setSeed 3), .fill 1 10 0 1] := by
  refine ⟨fun c hc => ?_, ?_⟩
  · simp only [List.mem_cons, reduceCtorEq, Call.host.injEq, false_or, List.not_mem_nil, or_false] at hc
    rcases hc with rfl | rfl
    · exact .inr rfl
    · exact .inl rfl
  · simp [Settled]

/-- The first `fillRandom` after `setSeed(s)` uses the first 1024 numbers of the generator with that seed, in every state; the next one of
the same instantiation uses the seeds the kernel left. -/
theorem C141_first (E : Env G) (fuel : Nat) (st : St G) (s i n n' : Nat) (lo hi lo' hi' : ℚ) :
    (calls E fuel (setSeed s st) [.fill i n lo hi, .fill i n' lo' hi']).map Prod.fst =
      some [.array (E.kernel i (seedsFrom E.fl E.gen numSeeds (E.gen.ofSeed (s % 2 ^ 32))) n lo hi).1,
        .array (E.kernel i (E.kernel i (seedsFrom E.fl E.gen numSeeds (E.gen.ofSeed (s % 2 ^ 32))) n lo hi).2 n' lo' hi').1] := by
  have h1 : (current E (setSeed s st) i).1 = seedsFrom E.fl E.gen numSeeds (E.gen.ofSeed (s % 2 ^ 32)) := by
    have : (setSeed s st).host.reseed = true := rfl
    rw [current, if_pos this, drawSeeds_eq]
    simp [RandomM.current, setSeed, RandomM.setSeed]
  have h2 : (current E (setSeed s st) i).2.reseed = false := by
    have : (setSeed s st).host.reseed = true := rfl
    rw [current, if_pos this]
    exact drawSeeds_reseed
  have h3 : (current E (fill E (setSeed s st) i n lo hi).2 i).1 = (E.kernel i (current E (setSeed s st) i).1 n lo hi).2 := by
    simp only [fill]
    generalize hc : current E (setSeed s st) i = c at *
    unfold current
    simp [h2]
  simp only [calls, call, Option.bind_some, Option.map_some]
  simp only [fill] at h3 ⊢
  rw [h3, h1]

/-! ### The seeds -/

/-- The seeds that `fillRandom` draws: the computation is exact and defined for every draw, and the seed is the integral part of `2^63 u`.
From the upper half of the draws come only multiples of 1024. -/
theorem C141_seeds {u : ℚ} (hu : Draw u) : randintVal (rnd binary64) 0 (2 ^ 63 - 1) u = .ok (seedVal (rnd binary64) u) ∧
    seedVal (rnd binary64) u = ⌊2 ^ 63 * u⌋ ∧ 0 ≤ seedVal (rnd binary64) u ∧ seedVal (rnd binary64) u < 2 ^ 63 ∧
    (1 / 2 ≤ u → 1024 ∣ seedVal (rnd binary64) u) := by
  have e1 : rnd binary64 (rnd binary64 ((2 ^ 63 - 1 : Int) : ℚ) + 1) = 2 ^ 63 := by decide +kernel
  have e2 : rnd binary64 ((2 : ℚ) ^ 63 - 0) = 2 ^ 63 := by decide +kernel
  have hr : Repr binary64 (2 ^ 63 * u) := by
    obtain ⟨m, e, h1, h2, h3⟩ := hu.1
    refine ⟨m, e + 63, by omega, h2, ?_⟩
    rw [h3, zpow_add₀ (by norm_num)]
    norm_num
    ring
  have e3 : randomVal (rnd binary64) 0 (rnd binary64 (rnd binary64 ((2 ^ 63 - 1 : Int) : ℚ) + 1)) u = 2 ^ 63 * u := by
    unfold randomVal
    rw [e1, e2, rnd_of_repr hr, zero_add, rnd_of_repr hr]
  have h0 : 0 ≤ 2 ^ 63 * u := mul_nonneg (by norm_num) hu.2.1
  have h1 : 2 ^ 63 * u < 2 ^ 63 := by nlinarith [hu.2.2]
  have e4 : seedVal (rnd binary64) u = ⌊2 ^ 63 * u⌋ := by
    unfold seedVal trunc
    rw [e3, if_neg (not_lt.2 h0)]
  have hf0 : 0 ≤ ⌊2 ^ 63 * u⌋ := Int.floor_nonneg.2 h0
  have hf1 : ⌊2 ^ 63 * u⌋ < 2 ^ 63 := Int.floor_lt.2 (by push_cast; exact h1)
  refine ⟨?_, e4, by rw [e4]; exact hf0, by rw [e4]; exact hf1, fun hh => ?_⟩
  · have e5 : rnd binary64 ((0 - (if (0 : Int) < 0 then 1 else 0) : Int) : ℚ) = 0 := by decide +kernel
    unfold randintVal
    rw [if_neg (by decide), e5]
    unfold toI64
    have ht : trunc (randomVal (rnd binary64) 0 (rnd binary64 (rnd binary64 ((2 ^ 63 - 1 : Int) : ℚ) + 1)) u) = ⌊2 ^ 63 * u⌋ := e4
    rw [ht, if_pos ⟨by omega, hf1⟩, e4]
  · have hlog : Int.log 2 u = -1 := log_eq (by norm_num; linarith) (by norm_num; exact hu.2.2)
    have hE : ulpExp binary64 u = -53 := by
      rw [ulpExp_of_pos (by linarith), hlog]
      rfl
    obtain ⟨n, hn⟩ := repr_grid hu.1
    rw [hE] at hn
    have : 2 ^ 63 * u = ((1024 * n : Int) : ℚ) := by
      rw [hn]; push_cast; norm_num; ring
    rw [e4, this, Int.floor_intCast]
    exact dvd_mul_right _ _

/-- The hypothesis is met by the draw 3/4, which makes the seed `3 * 2^61`. -/
example : Draw (3 / 4) ∧ seedVal (rnd binary64) (3 / 4) = 3 * 2 ^ 61 :=
  ⟨⟨⟨3, -2, by decide, by decide, by norm_num⟩, by norm_num, by norm_num⟩, by decide +kernel⟩

/-! ### What is not -/

/-- **C141** is false for every generator and kernel for which the array from the seeds that a first fill leaves differs from the array from
the second 1024 numbers of the generator: of two instantiations called after `setSeed`, only the first gets new seeds, and what the second
leaves depends on whether it was called before. -/
theorem C141_second_false (E : Env G) (i j s n : Nat) (hij : i ≠ j)
    (hne : (E.kernel j (E.kernel j (seedsFrom E.fl E.gen numSeeds (E.gen.ofSeed (s % 2 ^ 32))) n 0 1).2 n 0 1).1 ≠
      (E.kernel j (drawSeeds E.fl E.gen numSeeds (drawSeeds E.fl E.gen numSeeds (RandomM.setSeed s (RandomM.start s))).2).1 n 0 1).1) :
    ¬ C141Claim E := by
  intro h
  have key := h 0 s s [] [.fill j n 0 1] [.fill i n 0 1, .fill j n 0 1] s _ _ _ _ rfl rfl
  have hstart : current E (start s) j = drawSeeds E.fl E.gen numSeeds (RandomM.start s) := by
    simp [current, start, RandomM.start]
  have hg : (start s : St G).host.gauss = (fill E (start s) j n 0 1).2.host.gauss := by
    have hd : ∀ (k : Nat) (t : RandomM.St G), (drawSeeds E.fl E.gen k t).2.gauss = t.gauss := by
      intro k
      induction k with
      | zero => intro t; rfl
      | succ k ih => intro t; simp only [drawSeeds]; rw [ih]; rfl
    simp only [fill, hstart, hd]
    rfl
  have key := key hg (by intro c hc; simp at hc)
  set st' : St G := (fill E (start s) j n 0 1).2 with hst'
  have c1 : current E (setSeed s (start s)) i = drawSeeds E.fl E.gen numSeeds (RandomM.setSeed s (RandomM.start s)) := by
    simp [current, setSeed, start, RandomM.setSeed]
  have r1 : (current E (setSeed s (start s)) i).2.reseed = false := by rw [c1]; exact drawSeeds_reseed
  have c2 : (current E (setSeed s st') i).2.reseed = false := by
    have : (setSeed s st').host.reseed = true := rfl
    rw [current, if_pos this]; exact drawSeeds_reseed
  have c3 : (current E (fill E (setSeed s (start s)) i n 0 1).2 j).1 =
      (drawSeeds E.fl E.gen numSeeds (drawSeeds E.fl E.gen numSeeds (RandomM.setSeed s (RandomM.start s))).2).1 := by
    rw [← c1]
    simp only [fill]
    generalize current E (setSeed s (start s)) i = c at *
    unfold current
    simp [r1, Ne.symm hij, setSeed, start]
  have c4 : (current E (fill E (setSeed s st') i n 0 1).2 j).1 =
      (E.kernel j (seedsFrom E.fl E.gen numSeeds (E.gen.ofSeed (s % 2 ^ 32))) n 0 1).2 := by
    have hs : st'.seeds j = some (E.kernel j (seedsFrom E.fl E.gen numSeeds (E.gen.ofSeed (s % 2 ^ 32))) n 0 1).2 := by
      rw [hst']
      simp only [fill, if_true, hstart, drawSeeds_eq]
      simp [RandomM.current, RandomM.start]
    simp only [fill]
    generalize current E (setSeed s st') i = c at *
    unfold current
    simp [c2, Ne.symm hij, setSeed, hs]
  have k2 : (fill E (fill E (setSeed s (start s)) i n 0 1).2 j n 0 1).1 = (fill E (fill E (setSeed s st') i n 0 1).2 j n 0 1).1 := by
    simp only [calls, call, Option.bind_some, Option.map_some, Option.some.injEq, List.cons.injEq, and_true, CudaFill.Res.array.injEq] at key
    exact key.2
  have k3 : (E.kernel j (current E (fill E (setSeed s (start s)) i n 0 1).2 j).1 n 0 1).1 =
      (E.kernel j (current E (fill E (setSeed s st') i n 0 1).2 j).1 n 0 1).1 := k2
  rw [c3, c4] at k3
  exact hne k3.symm

/-- **C141** is false when a number is drawn on the host between `setSeed` and `fillRandom`: the number uses up the seed, and seeds that
exist are kept. -/
theorem C141_host_false (E : Env G) (i s n : Nat)
    (hne : (E.kernel i (E.kernel i (seedsFrom E.fl E.gen numSeeds (E.gen.ofSeed (s % 2 ^ 32))) n 0 1).2 n 0 1).1 ≠
      (E.kernel i (seedsFrom E.fl E.gen numSeeds (E.gen.draw (E.gen.ofSeed (s % 2 ^ 32))).2) n 0 1).1) :
    ¬ C141Claim E := by
  intro h
  have hstart : current E (start s) i = drawSeeds E.fl E.gen numSeeds (RandomM.start s) := by
    simp [current, start, RandomM.start]
  have hg : (start s : St G).host.gauss = (fill E (start s) i n 0 1).2.host.gauss := by
    have hd : ∀ (k : Nat) (t : RandomM.St G), (drawSeeds E.fl E.gen k t).2.gauss = t.gauss := by
      intro k
      induction k with
      | zero => intro t; rfl
      | succ k ih => intro t; simp only [drawSeeds]; rw [ih]; rfl
    simp only [fill, hstart, hd]
    rfl
  have key := h 0 s s [] [.fill i n 0 1] [.host (.random (.dbl, .dbl) 0 1), .fill i n 0 1] s _ _ _ _ rfl rfl hg (by
    intro c hc
    simp only [List.mem_cons, Call.host.injEq, reduceCtorEq, List.not_mem_nil, or_false] at hc
    rw [hc]
    exact .inr rfl)
  set st' : St G := (fill E (start s) i n 0 1).2 with hst'
  have hs : st'.seeds i = some (E.kernel i (seedsFrom E.fl E.gen numSeeds (E.gen.ofSeed (s % 2 ^ 32))) n 0 1).2 := by
    rw [hst']
    simp only [fill, if_true, hstart, drawSeeds_eq]
    simp [RandomM.current, RandomM.start]
  have hcur : RandomM.current E.gen (drawOf E.gen (setSeed s (start s : St G)).host (.dbl, .dbl)).2 (.dbl, .dbl) =
      (E.gen.draw (E.gen.ofSeed (s % 2 ^ 32))).2 := by
    simp [RandomM.current, drawOf, setSeed, RandomM.setSeed]
  have c1 : (current E ⟨(drawOf E.gen (setSeed s (start s)).host (.dbl, .dbl)).2, (start s : St G).seeds⟩ i).1 =
      seedsFrom E.fl E.gen numSeeds (E.gen.draw (E.gen.ofSeed (s % 2 ^ 32))).2 := by
    rw [← hcur, ← drawSeeds_eq]
    rfl
  have c2 : (current E ⟨(drawOf E.gen (setSeed s st').host (.dbl, .dbl)).2, st'.seeds⟩ i).1 =
      (E.kernel i (seedsFrom E.fl E.gen numSeeds (E.gen.ofSeed (s % 2 ^ 32))) n 0 1).2 := by
    have : (drawOf E.gen (setSeed s st').host (.dbl, .dbl)).2.reseed = false := rfl
    unfold current
    simp only [this, Bool.false_eq_true, if_false, hs]
  have k2 : (fill E ⟨(drawOf E.gen (setSeed s (start s)).host (.dbl, .dbl)).2, (start s : St G).seeds⟩ i n 0 1).1 =
      (fill E ⟨(drawOf E.gen (setSeed s st').host (.dbl, .dbl)).2, st'.seeds⟩ i n 0 1).1 := by
    simp only [calls, call, RandomM.call, Option.bind_some, Option.map_some, Option.some.injEq, List.cons.injEq, and_true,
      CudaFill.Res.array.injEq] at key
    exact key.2
  simp only [fill] at k2
  rw [c1, c2] at k2
  exact hne k2.symm

/-- A kernel for the witness: the first elements are the first seeds, and the seeds stay. The generator gives 1/2 once for the seed 1, and 0
otherwise. -/
def witness : Env Nat :=
  ⟨id, id, ⟨id, fun g => (if g = 1 then 1 / 2 else 0, 0)⟩, fun _ ss n _ _ => ((ss.take n).map fun z : Int => (z : ℚ), ss)⟩

/-- **C141** is false. -/
theorem C141_false : ¬ C141Claim witness := by
  refine C141_host_false witness 0 1 1 ?_
  have e1 : seedsFrom witness.fl witness.gen numSeeds (witness.gen.ofSeed (1 % 2 ^ 32)) =
      seedVal id (1 / 2) :: seedsFrom witness.fl witness.gen 1023 0 := rfl
  have e2 : seedsFrom witness.fl witness.gen numSeeds (witness.gen.draw (witness.gen.ofSeed (1 % 2 ^ 32))).2 =
      seedVal id 0 :: seedsFrom witness.fl witness.gen 1023 0 := rfl
  rw [e1, e2]
  simp only [witness, List.take_succ_cons, List.take_zero, List.map_cons, List.map_nil, ne_eq, List.cons.injEq, and_true, Int.cast_inj]
  decide +kernel

end Verif.SeedFill
