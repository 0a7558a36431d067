import Verif.Lemmas.FillRandom
import Verif.Props.Random

/-!
# C118: `fillRandom` on the host
-/

namespace Verif.FillRandom

open Verif.Conc Verif.RandomM Verif.Ieee

variable {G : Type}

/-- C118 in full: with any number of threads, `fillRandom` has no data race and no undefined behaviour, and when it has finished element
`i` is made from draw `i` of the generator, so the seed alone decides the array. -/
def C118Claim : Prop :=
  ∀ (G : Type) (gen : Gen G) (val : ℚ → ℚ) (b : Bool) (s : Nat) (g : G) (data : List (Cell G)) (sched : List (List Nat)),
    IsSchedule sched (List.range data.length) → ∀ c, Reach (fillPar gen val sched (memory b s g data)) c →
      ¬ Race c ∧ ¬ Bad c ∧ (Final c → ∀ i, i < data.length → c.mem.get? (1, i) = some (elemOf gen val ((next gen)^[i] (now gen b s g))))

/-- On one thread (one thread configured, or few elements) the loop ends without undefined behaviour; element `i` is made from draw `i` of
the generator, seeded before the first draw if a seed is pending; nothing else is drawn, the seed is kept and no longer pending. Any number
of elements, any generator, any previous contents. -/
theorem C118_sequential_partial (gen : Gen G) (val : ℚ → ℚ) (b : Bool) (s : Nat) (g : G) (data : List (Cell G)) (h0 : data ≠ []) :
    ∃ data', fillSeq gen val data.length (memory b s g data) = .ok ((), memory false s ((next gen)^[data.length] (now gen b s g)) data') ∧
      data'.length = data.length ∧ ∀ i, i < data.length → data'[i]? = some (.num (val (gen.draw ((next gen)^[i] (now gen b s g))).1)) := by
  obtain ⟨n, hn⟩ : ∃ n, data.length = n + 1 := ⟨data.length - 1, by have := List.length_pos_iff.2 h0; omega⟩
  obtain ⟨d', h1, h2, h3, h4, -⟩ := run_range gen val s n 1 (next gen (now gen b s g)) (data.set 0 (elemOf gen val (now gen b s g)))
    (by simp; omega)
  refine ⟨d', ?_, by simpa using h2, fun i hi => ?_⟩
  · unfold fillSeq
    rw [hn, List.range_eq_range', List.range'_succ, seqAll, run_bind, run_body gen val b s g data 0 (by omega)]
    exact h1
  · cases i with
    | zero => rw [h3 0 (by omega), List.getElem?_set_self (by omega)]; rfl
    | succ i => rw [Nat.add_comm, h4 i (by omega), Nat.add_comm]; rfl

/-- The same seed gives the same array, whatever was drawn before and whatever the array held. -/
theorem C118_reproducible_partial (gen : Gen G) (val : ℚ → ℚ) (s : Nat) (g g' : G) (data data' : List (Cell G)) (hl : data.length = data'.length)
    (m m' : Mem (Cell G)) (h : fillSeq gen val data.length (memory true s g data) = .ok ((), m))
    (h' : fillSeq gen val data'.length (memory true s g' data') = .ok ((), m')) : m 1 = m' 1 := by
  by_cases h0 : data = []
  · have h0' : data' = [] := List.length_eq_zero_iff.1 (by rw [← hl, h0]; rfl)
    subst h0 h0'
    have e : m = memory true s g [] := by
      simp only [fillSeq, List.length_nil, List.range_zero, seqAll, run] at h
      injection h with h; injection h with _ h; exact h.symm
    have e' : m' = memory true s g' [] := by
      simp only [fillSeq, List.length_nil, List.range_zero, seqAll, run] at h'
      injection h' with h'; injection h' with _ h'; exact h'.symm
    rw [e, e']; rfl
  · have h0' : data' ≠ [] := fun e => h0 (List.length_eq_zero_iff.1 (by rw [hl, e]; rfl))
    obtain ⟨d, h1, h2, h3⟩ := C118_sequential_partial gen val true s g data h0
    obtain ⟨d', h1', h2', h3'⟩ := C118_sequential_partial gen val true s g' data' h0'
    rw [h1] at h
    rw [h1'] at h'
    injection h with h; injection h with _ h
    injection h' with h'; injection h' with _ h'
    subst h h'
    change d = d'
    refine List.ext_getElem? fun i => ?_
    by_cases hi : i < data.length
    · rw [h3 i hi, h3' i (by omega)]; rfl
    · rw [List.getElem?_eq_none (by omega), List.getElem?_eq_none (by omega)]

/-- Every element of an array of `double` lies between the bounds, for generators whose draws are `double`s of `[0, 1)`. -/
theorem C118_range_partial (gen : Gen G) (hg : ∀ g, Draw (gen.draw g).1) (lower upper : ℚ) (hl : Repr binary64 lower) (hu : Repr binary64 upper)
    (hle : lower ≤ upper) (b : Bool) (s : Nat) (g : G) (data : List (Cell G)) (h0 : data ≠ []) :
    ∃ m, fillSeq gen (randomVal (rnd binary64) lower upper) data.length (memory b s g data) = .ok ((), m) ∧ (m 1).length = data.length ∧
      ∀ i, i < data.length → ∃ x, m.get? (1, i) = some (.num x) ∧ lower ≤ x ∧ x ≤ upper := by
  obtain ⟨d, h1, h2, h3⟩ := C118_sequential_partial gen (randomVal (rnd binary64) lower upper) b s g data h0
  refine ⟨_, h1, h2, fun i hi => ⟨_, h3 i hi, ?_⟩⟩
  exact C43_random lower upper _ hl hu hle (hg _)

/-- The parallel loop has a data race whenever two threads have an iteration: whatever the generator, the bounds, the seed and the
distribution of the iterations. In C++ such an execution is undefined. -/
theorem C118_race (gen : Gen G) (val : ℚ → ℚ) (b : Bool) (s : Nat) (g : G) (data : List (Cell G)) (sched : List (List Nat)) (t u i j : Nat)
    (is js : List Nat) (htu : t ≠ u) (ht : sched[t]? = some (i :: is)) (hu : sched[u]? = some (j :: js)) :
    ∃ c, Reach (fillPar gen val sched (memory b s g data)) c ∧ Race c := by
  have st := start_thread gen val (m := memory b s g data) ht
  have su := start_thread gen val (m := memory b s g data) hu
  obtain ⟨r1, a1, o1⟩ := reach_read (m := memory b s g data) (Reach.refl) st (get_flag b s g data)
  cases b with
  | false =>
    obtain ⟨r2, a2, o2⟩ := reach_read r1 a1 (get_gen false s g data)
    have u2 := (o2 u htu.symm).trans ((o1 u htu.symm).trans su)
    obtain ⟨r3, a3, o3⟩ := reach_read r2 u2 (get_flag false s g data)
    have t3 := (o3 t htu).trans a2
    exact ⟨_, r3, t, u, _, _, genAt, true, false, htu, t3, a3, rfl, rfl, rfl⟩
  | true =>
    obtain ⟨r2, a2, o2⟩ := reach_read r1 a1 (get_seed true s g data)
    obtain ⟨r3, a3, o3⟩ := reach_write r2 a2 (get_gen true s g data)
    have u3 := (o3 u htu.symm).trans ((o2 u htu.symm).trans ((o1 u htu.symm).trans su))
    exact ⟨_, r3, t, u, _, _, flagAt, true, false, htu, a3, u3, rfl, rfl, rfl⟩

/-- Even if the accesses were indivisible, two threads can make their elements from the same draw: the two elements are equal, with any
generator, and a draw of the sequence is used twice. -/
theorem C118_duplicate (gen : Gen G) (val : ℚ → ℚ) (s : Nat) (g : G) (data : List (Cell G)) (sched : List (List Nat)) (t u i j : Nat)
    (is js : List Nat) (htu : t ≠ u) (hij : i ≠ j) (hi : i < data.length) (hj : j < data.length) (ht : sched[t]? = some (i :: is))
    (hu : sched[u]? = some (j :: js)) :
    ∃ c, Reach (fillPar gen val sched (memory false s g data)) c ∧ c.mem.get? (1, i) = some (elemOf gen val g) ∧
      c.mem.get? (1, j) = some (elemOf gen val g) ∧ c.mem.get? genAt = some (.gen (next gen g)) := by
  have st := start_thread gen val (m := memory false s g data) ht
  have su := start_thread gen val (m := memory false s g data) hu
  obtain ⟨r1, a1, o1⟩ := reach_read (m := memory false s g data) (Reach.refl) st (get_flag false s g data)
  obtain ⟨r2, a2, o2⟩ := reach_read r1 a1 (get_gen false s g data)
  have u2 := (o2 u htu.symm).trans ((o1 u htu.symm).trans su)
  obtain ⟨r3, a3, o3⟩ := reach_read r2 u2 (get_flag false s g data)
  obtain ⟨r4, a4, o4⟩ := reach_read r3 a3 (get_gen false s g data)
  have t4 := (o4 t htu).trans ((o3 t htu).trans a2)
  obtain ⟨r5, a5, o5⟩ := reach_write r4 t4 (get_gen false s g data)
  rw [set_gen] at r5
  obtain ⟨r6, a6, o6⟩ := reach_write r5 a5 ((get_data _ _ _ _ i).trans (List.getElem?_eq_getElem hi))
  rw [set_data] at r6
  have u6 := (o6 u htu.symm).trans ((o5 u htu.symm).trans a4)
  obtain ⟨r7, a7, o7⟩ := reach_write r6 u6 (get_gen _ _ _ _)
  rw [set_gen] at r7
  obtain ⟨r8, a8, o8⟩ := reach_write r7 a7 ((get_data _ _ _ _ j).trans (List.getElem?_eq_getElem (by simpa using hj)))
  rw [set_data] at r8
  refine ⟨_, r8, ?_, ?_, rfl⟩
  · rw [get_data, List.getElem?_set_ne hij.symm, List.getElem?_set_self hi]; rfl
  · rw [get_data, List.getElem?_set_self (by simpa using hj)]; rfl

/-- The generator that counts: draw `n` is `n / 2^20`, below one for the first million draws; enough to tell draws apart. -/
def counter : Gen Nat := ⟨fun s => s, fun n => ((n % 2 ^ 20 : ℕ) / 2 ^ 20, n + 1)⟩

/-- C118 is false with two threads and two elements. -/
theorem C118_false : ¬ C118Claim := by
  intro h
  obtain ⟨c, hr, hc⟩ := C118_race counter id false 0 0 [.num 0, .num 0] [[0], [1]] 0 1 0 1 [] [] (by decide) rfl rfl
  exact (h Nat counter id false 0 0 [.num 0, .num 0] [[0], [1]] (List.Perm.refl _) c hr).1 hc

/-- Whether the loop runs on several threads is decided by the number of elements: above the threshold (and with more than one thread)
it does. -/
theorem C118_when (numThreads threshold n : Nat) : parallel numThreads threshold n = true ↔ numThreads ≠ 1 ∧ threshold < n := by
  simp [parallel]

/-- An array of `float` can hold the upper bound, which the comment excludes: draws from `1 - 2^-25` on round to one. -/
theorem C118_float_end : ∃ u, Draw u ∧ floatVal 0 1 u = 1 :=
  ⟨1 - 1 / 2 ^ 25, ⟨⟨2 ^ 25 - 1, -25, by decide, by decide, by norm_num⟩, by norm_num, by norm_num⟩, by decide +kernel⟩

/-- The hypotheses of `C118_range_partial` hold of the counting generator. -/
example : ∀ g, Draw (counter.draw g).1 := by
  intro n
  have hlt : n % 2 ^ 20 < 2 ^ 20 := Nat.mod_lt _ (by norm_num)
  refine ⟨⟨(n % 2 ^ 20 : ℕ), -20, by decide, ?_, ?_⟩, ?_, ?_⟩
  · rw [abs_of_nonneg (Int.natCast_nonneg _)]; change _ < (2 : ℤ) ^ 53; norm_num; omega
  · change ((n % 2 ^ 20 : ℕ) : ℚ) / 2 ^ 20 = _
    rw [show (-20 : ℤ) = -((20 : ℕ) : ℤ) by rfl, zpow_neg, zpow_natCast, div_eq_mul_inv]; push_cast; rfl
  · exact div_nonneg (Nat.cast_nonneg _) (by norm_num)
  · change ((n % 2 ^ 20 : ℕ) : ℚ) / 2 ^ 20 < 1
    rw [div_lt_one (by norm_num)]; exact_mod_cast hlt

/-- Three elements after `setSeed(5)`. -/
example : ∃ m, fillSeq counter id 3 (memory true 5 99 [.num 0, .num 0, .num 0]) = .ok ((), m) ∧
    (m 1).map (fun c => match c with | .num x => x | _ => 0) = [5 / 2 ^ 20, 6 / 2 ^ 20, 7 / 2 ^ 20] := by
  refine ⟨_, rfl, ?_⟩
  decide +kernel

end Verif.FillRandom
