import Verif.Model.Threads
import Mathlib.Tactic.SplitIfs
import Mathlib.Tactic.ByContra

/-!
C131: no operation uses more threads than `setNumThreads` asked for, and `getNumThreads` gives the number back.
-/

namespace Verif.Threads

/-- What a user expects of the calls `cs` when `n` threads have been asked for: `getNumThreads` gives the last number asked for,
an operation uses between one and that many threads. -/
def Follows : Nat → List Call → List Ev → Prop
  | _, [], [] => True
  | _, .set m :: cs, .done :: es => Follows m cs es
  | n, .get :: cs, .value v :: es => v = n ∧ Follows n cs es
  | n, .threshold _ :: cs, .done :: es => Follows n cs es
  | n, .run _ _ :: cs, .threads k :: es => 1 ≤ k ∧ k ≤ n ∧ Follows n cs es
  | _, _, _ => False

/-- C131 for one build: every program that asks for at least one thread (any `size_t`), on a machine with any number of cores.
LibRapid's own initial number is 8. -/
def C131Claim (b : Build) : Prop :=
  ∀ (cores : Nat) (cs : List Call), 0 < cores → (∀ n, .set n ∈ cs → 1 ≤ n ∧ n < 2 ^ 64) →
    ∃ es, run b (start cores) cs = .ok es ∧ Follows 8 cs es

/-- Fills an array with random numbers. -/
def Call.fills : Call → Bool
  | .run (.fillRandom _) _ => true
  | .run (.fillGaussian _) _ => true
  | _ => false

/-- The program begins by setting the number of threads. -/
def beginsWithSet : List Call → Bool
  | .set _ :: _ => true
  | _ => false

theorem toInt_small {n : Nat} (h : n < 2 ^ 31) : toInt n = n := by
  have e : n % 2 ^ 32 = n := Nat.mod_eq_of_lt (by omega)
  simp only [toInt, e, h, if_true]

theorem positive_small {n : Nat} (h0 : 1 ≤ n) (h : n < 2 ^ 31) : positive (toInt n) = .ok n := by
  rw [toInt_small h, positive, if_pos (by omega)]
  rfl

/-- The condition on the states under which every team is at most `numThreads`. -/
def Good (b : Build) (fills : Bool) (s : St) : Prop :=
  1 ≤ s.numThreads ∧ s.numThreads < 2 ^ 31 ∧ (b.openmp = false ∨ fills = false ∨ (b.openblas = true ∧ s.omp ≤ s.numThreads))

theorem team_le {b : Build} {f : Bool} {s : St} (g : Good b f s) (op : Op) (w : Nat)
    (hf : (Call.run op w).fills = true → f = true) : ∃ t, team b s op = .ok t ∧ t ≤ s.numThreads := by
  obtain ⟨g1, g2, g3⟩ := g
  have hc : ∃ t, clause b s = .ok t ∧ t ≤ s.numThreads := by
    unfold clause
    split_ifs
    · exact ⟨_, positive_small g1 g2, Nat.le_refl _⟩
    · exact ⟨1, rfl, g1⟩
  have hn : f = true → ∀ len, ∃ t, fillTeam b s len = .ok t ∧ t ≤ s.numThreads := by
    intro ft len
    unfold fillTeam noClause
    split_ifs with h1 h2
    · rcases g3 with g3 | g3 | g3
      · rw [g3] at h2; cases h2
      · rw [ft] at g3; cases g3
      · exact ⟨_, rfl, g3.2⟩
    · exact ⟨1, rfl, g1⟩
    · exact ⟨1, rfl, g1⟩
  cases op with
  | assign len =>
    simp only [team, assignTeam]
    split_ifs
    · exact hc
    · exact ⟨1, rfl, g1⟩
  | fillRandom len => exact hn (hf rfl) len
  | fillGaussian len => exact hn (hf rfl) len
  | transpose r c =>
    simp only [team, transposeTeam]
    split_ifs
    · exact hc
    · exact ⟨1, rfl, g1⟩
  | rfft =>
    simp only [team, rfftTeam]
    split_ifs
    · exact ⟨_, positive_small g1 g2, Nat.le_refl _⟩
    · exact ⟨1, rfl, g1⟩

theorem set_ok {b : Build} {f : Bool} {s : St} {n : Nat} (h1 : 1 ≤ n) (h2 : n < 2 ^ 31)
    (hb : b.openmp = false ∨ f = false ∨ b.openblas = true) :
    ∃ s', setNumThreads b n s = .ok s' ∧ s'.numThreads = n ∧ Good b f s' := by
  unfold setNumThreads
  split_ifs with h
  · rw [positive_small h1 h2]
    refine ⟨_, rfl, rfl, h1, h2, ?_⟩
    rcases hb with hb | hb | hb
    · exact Or.inl hb
    · exact Or.inr (Or.inl hb)
    · exact Or.inr (Or.inr ⟨hb, Nat.le_refl _⟩)
  · refine ⟨_, rfl, rfl, h1, h2, ?_⟩
    rcases hb with hb | hb | hb
    · exact Or.inl hb
    · exact Or.inr (Or.inl hb)
    · refine Or.inl ?_
      cases ho : b.openmp with
      | false => rfl
      | true => rw [hb, ho] at h; exact absurd rfl h

theorem run_good {b : Build} {f : Bool} (hb : b.openmp = false ∨ f = false ∨ b.openblas = true) :
    ∀ (cs : List Call) (s : St), Good b f s → (∀ n, .set n ∈ cs → 1 ≤ n ∧ n < 2 ^ 31) →
      (∀ c ∈ cs, c.fills = true → f = true) → ∃ es, run b s cs = .ok es ∧ Follows s.numThreads cs es
  | [], _, _, _, _ => ⟨[], rfl, trivial⟩
  | c :: cs, s, g, hs, hf => by
    have hs' : ∀ n, .set n ∈ cs → 1 ≤ n ∧ n < 2 ^ 31 := fun n h => hs n (List.mem_cons_of_mem _ h)
    have hf' : ∀ c ∈ cs, c.fills = true → f = true := fun x h => hf x (List.mem_cons_of_mem _ h)
    cases c with
    | set n =>
      obtain ⟨h1, h2⟩ := hs n List.mem_cons_self
      obtain ⟨s', e, e', g'⟩ := set_ok (s := s) h1 h2 hb
      obtain ⟨es, r, fo⟩ := run_good hb cs s' g' hs' hf'
      refine ⟨.done :: es, ?_, ?_⟩
      · simp only [run, step, e, Out.bind, r]
      · rw [e'] at fo; exact fo
    | get =>
      obtain ⟨es, r, fo⟩ := run_good hb cs s g hs' hf'
      exact ⟨.value s.numThreads :: es, by simp only [run, step, Out.bind, r], rfl, fo⟩
    | threshold t =>
      obtain ⟨es, r, fo⟩ := run_good hb cs { s with threshold := t } g hs' hf'
      exact ⟨.done :: es, by simp only [run, step, Out.bind, r], fo⟩
    | run op w =>
      obtain ⟨t, e, le⟩ := team_le g op w (hf _ List.mem_cons_self)
      obtain ⟨es, r, fo⟩ := run_good hb cs s g hs' hf'
      refine ⟨.threads (used t w) :: es, by simp only [run, step, e, Out.bind, r], ?_, ?_, fo⟩
      · exact Nat.le_max_left _ _
      · have := g.1
        unfold used
        omega

/-- C131 for all programs that ask for fewer than 2^31 threads and, in builds with OpenMP, either fill no array with random
numbers, or use OpenBLAS and begin by setting the number of threads. -/
theorem C131_partial (b : Build) (cores : Nat) (cs : List Call) (hs : ∀ n, .set n ∈ cs → 1 ≤ n ∧ n < 2 ^ 31)
    (h : b.openmp = false ∨ (∀ c ∈ cs, c.fills = false) ∨ (b.openblas = true ∧ beginsWithSet cs = true)) :
    ∃ es, run b (start cores) cs = .ok es ∧ Follows 8 cs es := by
  rcases h with h | h | ⟨h, hb⟩
  · exact run_good (f := true) (Or.inl h) cs (start cores) ⟨(by decide : 1 ≤ 8), (by decide : 8 < 2 ^ 31), Or.inl h⟩ hs (fun _ _ _ => rfl)
  · exact run_good (f := false) (Or.inr (Or.inl rfl)) cs (start cores) ⟨(by decide : 1 ≤ 8), (by decide : 8 < 2 ^ 31), Or.inr (Or.inl rfl)⟩ hs
      (fun c hc e => by rw [h c hc] at e; cases e)
  · cases cs with
    | nil => cases hb
    | cons c cs =>
      cases c with
      | set n =>
        obtain ⟨h1, h2⟩ := hs n List.mem_cons_self
        obtain ⟨s', e, e', g'⟩ := set_ok (b := b) (f := true) (s := start cores) h1 h2 (Or.inr (Or.inr h))
        obtain ⟨es, r, fo⟩ := run_good (Or.inr (Or.inr h)) cs s' g' (fun n h => hs n (List.mem_cons_of_mem _ h))
          (fun _ _ _ => rfl)
        refine ⟨.done :: es, by simp only [run, step, e, Out.bind, r], ?_⟩
        rw [e'] at fo; exact fo
      | get => cases hb
      | threshold t => cases hb
      | run op w => cases hb

example : ∃ es, run ⟨true, true, false, false⟩ (start 64)
      [.set 4, .run (.fillRandom 6000) 64, .run (.transpose 100 100) 64, .get] = .ok es ∧
    Follows 8 [.set 4, .run (.fillRandom 6000) 64, .run (.transpose 100 100) 64, .get] es :=
  C131_partial _ _ _ (by intro n h; simp at h; omega) (Or.inr (Or.inr ⟨rfl, rfl⟩))

example : run ⟨true, true, false, false⟩ (start 64)
      [.set 4, .run (.fillRandom 6000) 64, .run (.transpose 100 100) 64, .get] =
    .ok [.done, .threads 4, .threads 4, .value 4] := by decide

/-- With OpenMP and a BLAS library other than OpenBLAS, filling a large array with random numbers takes as many threads as the
machine has cores, whatever number other than 1 was asked for. -/
theorem C131_fill_all_cores (b : Build) (hm : b.openmp = true) (hb : b.openblas = false) (cores n len : Nat) (hc : 0 < cores)
    (hn : n ≠ 1) (hl : 5000 < len) :
    run b (start cores) [.set n, .run (.fillRandom len) cores] = .ok [.done, .threads cores] ∧
    run b (start cores) [.set n, .run (.fillGaussian len) cores] = .ok [.done, .threads cores] := by
  have e : used cores cores = cores := by unfold used; omega
  constructor <;>
    simp [run, step, setNumThreads, hb, hm, Out.bind, team, fillTeam, noClause, start, hn, hl, e]

/-- Before the first `setNumThreads` the same happens with OpenBLAS too: `getNumThreads` gives 8 and a fill takes all cores. -/
theorem C131_fill_at_start (b : Build) (hm : b.openmp = true) (cores len : Nat) (hc : 0 < cores) (hl : 5000 < len) :
    run b (start cores) [.get, .run (.fillRandom len) cores] = .ok [.value 8, .threads cores] := by
  have e : used cores cores = cores := by unfold used; omega
  simp [run, step, Out.bind, team, fillTeam, noClause, start, hl, hm, e]

/-- The numbers of threads for which `num_threads` gets a number that OpenMP does not allow. -/
theorem positive_toInt (n : Nat) : positive (toInt n) = .ub ↔ n % 2 ^ 32 = 0 ∨ 2 ^ 31 ≤ n % 2 ^ 32 := by
  have h1 : n % 2 ^ 32 < 2 ^ 32 := Nat.mod_lt _ (by decide)
  unfold positive toInt
  generalize n % 2 ^ 32 = k at h1 ⊢
  split_ifs with a b b
  · constructor
    · intro h; cases h
    · intro h; omega
  · constructor
    · intro _; omega
    · intro _; rfl
  · constructor
    · intro h; cases h
    · intro h; omega
  · constructor
    · intro _; omega
    · intro _; rfl

/-- With OpenMP, transposing a large matrix after `setNumThreads(n)` is undefined exactly if `n` modulo 2^32 is 0 or at least
2^31 (in builds with OpenBLAS `setNumThreads` itself already is). This includes `n = 0`, which Python accepts. -/
theorem C131_transpose_undefined_iff (b : Build) (hm : b.openmp = true) (hs : b.small = false) (cores n r c w : Nat)
    (hl : 5000 < r * c) :
    run b (start cores) [.set n, .run (.transpose r c) w] = .ub ↔ n % 2 ^ 32 = 0 ∨ 2 ^ 31 ≤ n % 2 ^ 32 := by
  rw [← positive_toInt n]
  cases hb : b.openblas <;> cases hp : positive (toInt n) <;>
    simp [run, step, setNumThreads, hb, hm, Out.bind, team, transposeTeam, clause, start, hl, hs, hp]

/-- `setNumThreads(0)` without OpenBLAS: an assignment runs on one thread, a fill on all cores, a large transpose is
undefined. -/
theorem C131_zero (b : Build) (hm : b.openmp = true) (hb : b.openblas = false) (hs : b.small = false)
    (cores len w : Nat) (hc : 0 < cores) (hl : 5000 < len) :
    run b (start cores) [.set 0, .run (.assign len) w] = .ok [.done, .threads 1] ∧
    run b (start cores) [.set 0, .run (.fillRandom len) cores] = .ok [.done, .threads cores] ∧
    run b (start cores) [.set 0, .run (.transpose len 1) w] = .ub := by
  refine ⟨?_, (C131_fill_all_cores b hm hb cores 0 len hc (by decide) hl).1, ?_⟩
  · have e : used 1 w = 1 := by unfold used; omega
    simp [run, step, setNumThreads, hb, Out.bind, team, assignTeam, start, e]
  · rw [C131_transpose_undefined_iff b hm hs cores 0 len 1 w (by omega)]
    exact Or.inl rfl

/-- C131 holds in no build with OpenMP. -/
theorem C131_false (b : Build) (hm : b.openmp = true) : ¬ C131Claim b := by
  intro h
  obtain ⟨es, r, f⟩ := h 9 [.get, .run (.fillRandom 5001) 9] (by decide) (by intro n hn; simp at hn)
  rw [C131_fill_at_start b hm 9 5001 (by decide) (by decide)] at r
  cases r
  exact absurd f.2.2.1 (by decide)

/-- C131 holds in builds without OpenMP that do not use FFTW, for all numbers of threads. -/
theorem C131_sequential (b : Build) (hm : b.openmp = false) (hf : b.fftw = false) : C131Claim b := by
  intro cores cs _ hs
  have key : ∀ (cs : List Call) (s : St), 1 ≤ s.numThreads → (∀ n, .set n ∈ cs → 1 ≤ n ∧ n < 2 ^ 64) →
      ∃ es, run b s cs = .ok es ∧ Follows s.numThreads cs es := by
    intro cs
    induction cs with
    | nil => intro s _ _; exact ⟨[], rfl, trivial⟩
    | cons c cs ih =>
      intro s g hs
      have hs' : ∀ n, .set n ∈ cs → 1 ≤ n ∧ n < 2 ^ 64 := fun n h => hs n (List.mem_cons_of_mem _ h)
      cases c with
      | set n =>
        obtain ⟨es, r, fo⟩ := ih { s with numThreads := n } (hs n List.mem_cons_self).1 hs'
        exact ⟨.done :: es, by simp [run, step, setNumThreads, hm, Out.bind, r], fo⟩
      | get =>
        obtain ⟨es, r, fo⟩ := ih s g hs'
        exact ⟨.value s.numThreads :: es, by simp only [run, step, Out.bind, r], rfl, fo⟩
      | threshold t =>
        obtain ⟨es, r, fo⟩ := ih { s with threshold := t } g hs'
        exact ⟨.done :: es, by simp only [run, step, Out.bind, r], fo⟩
      | run op w =>
        obtain ⟨es, r, fo⟩ := ih s g hs'
        have e : team b s op = .ok 1 := by
          cases op <;> simp [team, assignTeam, fillTeam, transposeTeam, rfftTeam, clause, noClause, hm, hf]
        refine ⟨.threads (used 1 w) :: es, by simp only [run, step, e, Out.bind, r], ?_, ?_, fo⟩
        · exact Nat.le_max_left _ _
        · unfold used; omega
  exact key cs (start cores) (by decide : 1 ≤ 8) hs

example : run ⟨true, false, false, false⟩ (start 64) [.set 2, .run (.fillRandom 6000) 64] = .ok [.done, .threads 64] := by decide

example : run ⟨true, false, false, false⟩ (start 64) [.set (2 ^ 31), .run (.transpose 100 100) 64] = .ub := by decide

end Verif.Threads
