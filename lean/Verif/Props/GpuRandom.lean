import Verif.Lemmas.GpuFill
import Verif.Props.Random

/-!
# C67, C68: random numbers on a GPU
-/

namespace Verif.Gpu

open Verif.RandomM Verif.Ieee

variable {V G : Type} {n S W : Nat} {draw next : V → Nat → V}

/-! ### C67: the result depends on the seeds only -/

/-- A number from a seed, and the new seed, as in fill.cl 166-175 for `double`; `lr` is the order of evaluation. Seeds and numbers are kept in one type. -/
def drawQ (lr : Bool) (lower upper : ℚ) (v : ℚ) : Nat → ℚ
  | 0 => fillDouble lower upper (gmtUlong lr (gmtSeed v.num.toNat)).1
  | _ => 0

/-- The new seed after one number. -/
def nextQ (lr : Bool) (v : ℚ) : Nat → ℚ
  | 0 => (gmtUlong lr (gmtSeed v.num.toNat)).1
  | _ => (gmtUlong lr (gmtUlong lr (gmtSeed v.num.toNat)).2).1

/-- With at most as many work items as seeds, every schedule gives the same result: element `i` is made from seed `i`, each seed in use is replaced, and
nothing else changes. -/
theorem C67_partial {grp : Fin W → G} {M : Mem FLoc V} {sd : Nat → V} (hn : 0 < n) (hW : n ≤ W) (hS : W ≤ S) (hM : ∀ j, j < S → M (.seed j) = some (sd j))
    (hd : ∀ i, i < n → M (.data i) ≠ none) {s : Nat} {c : Cfg (Fin W) FLoc V} (hs : Steps grp ⟨fun t => fillRandom n S W draw next t, M⟩ s c) (hst : Stuck grp c) :
    Done c ∧ (∀ i, i < n → c.mem (.data i) = some (draw (sd i) 0)) ∧ (∀ j, j < W → c.mem (.seed j) = some (next (sd j) (if j < n then 1 else 0))) ∧
      ∀ x, (∀ i, i < n → x ≠ .data i) → (∀ j, j < W → x ≠ .seed j) → c.mem x = M x := by
  let m' : Nat → Mem FLoc V := fun t => if t < n then Function.update (Function.update M (.data t) (some (draw (sd t) 0))) (.seed t) (some (next (sd t) 1))
    else Function.update M (.seed t) (some (next (sd t) 0))
  have eff : ∀ t : Fin W, Eff M (fillRandom n S W draw next t) (m' t) .ret (fun x => x = .seed t ∨ x = .data t) (fun x => ((t : Nat) < n ∧ x = .data t) ∨ x = .seed t) := by
    intro t
    have ht : (t : Nat) % S = t := Nat.mod_eq_of_lt (by omega)
    rw [fillRandom_eq hW hn, ht]
    refine Eff.congr (ac := fun x => x = .seed t ∨ (x = .seed t ∨ x = .data t)) (Eff.read (hM t (by omega)) ?_) (fun x hx => by
      rcases hx with h | h
      · exact .inl h
      · exact h) fun x => Iff.rfl
    unfold fillTail
    rw [ht]
    by_cases h : (t : Nat) < n
    · rw [if_pos h]
      have e1 := Eff.write (l := FLoc.seed t) (m := Function.update M (.data t) (some (draw (sd t) 0))) (v := next (sd t) 1) (by
        rw [Function.update_of_ne (by simp), hM t (by omega)]; simp) Eff.ret
      have e2 := Eff.write (l := FLoc.data t) (v := draw (sd t) 0) (hd t h) e1
      have em : m' t = Function.update (Function.update M (.data t) (some (draw (sd t) 0))) (.seed t) (some (next (sd t) 1)) := if_pos h
      rw [em]
      refine e2.congr (fun x hx => ?_) fun x => ?_
      · rcases hx with h | h | h
        · exact .inr h
        · exact .inl h
        · exact h.elim
      · simp [h]
    · rw [if_neg h]
      have e1 := Eff.write (l := FLoc.seed t) (m := M) (v := next (sd t) 0) (by rw [hM t (by omega)]; simp) Eff.ret
      have em : m' t = Function.update M (.seed t) (some (next (sd t) 0)) := if_neg h
      rw [em]
      refine e1.congr (fun x hx => ?_) fun x => ?_
      · rcases hx with h | h
        · exact .inl h
        · exact h.elim
      · simp [h]
  obtain ⟨h1, h2, h3⟩ := indep_sound (fun t => (eff t).safe) (fun t => by rw [(eff t).solo]) (fun t t' x hw ha => by
    have a := (eff t').acc x ha
    rcases ((eff t).wr x).1 hw with ⟨_, rfl⟩ | rfl
    · rcases a with a | a
      · cases a
      · injection a with a; exact Fin.ext a
    · rcases a with a | a
      · injection a with a; exact Fin.ext a
      · cases a) hs hst
  refine ⟨h1, fun i hi => ?_, fun j hj => ?_, fun x hx hx' => h3 x fun t hw => ?_⟩
  · have e := eff ⟨i, by omega⟩
    rw [h2 ⟨i, by omega⟩ _ ((e.wr _).2 (.inl ⟨hi, rfl⟩)), e.solo]
    show m' i (.data i) = _
    simp only [m', if_pos hi]
    rw [Function.update_of_ne (by simp), Function.update_self]
  · have e := eff ⟨j, hj⟩
    rw [h2 ⟨j, hj⟩ _ ((e.wr _).2 (.inr rfl)), e.solo]
    show m' j (.seed j) = _
    by_cases h : j < n
    · simp only [m', if_pos h, Function.update_self]
    · simp only [m', if_neg h, Function.update_self]
  · rcases ((eff t).wr x).1 hw with ⟨h, e⟩ | e
    · exact hx t h e
    · exact hx' t t.2 e

/-- Three elements, two backends' worth of launch geometry: the hypotheses hold and there are complete executions. -/
example : ∃ s c, Steps (fun _ => ()) ⟨fun t : Fin 3 => fillRandom 3 numSeeds 3 (drawQ true 0 1) (nextQ true) t, fun _ => some (7 : ℚ)⟩ s c ∧ Stuck (fun _ => ()) c ∧
    ∀ i, i < 3 → c.mem (.data i) = some (drawQ true 0 1 7 0) := by
  obtain ⟨s, c, hs, hst, -⟩ := complete (n := 3) (S := numSeeds) (grp := fun _ : Fin 3 => ()) (c := ⟨fun t : Fin 3 => fillRandom 3 numSeeds 3 (drawQ true 0 1) (nextQ true) t, fun _ => some (7 : ℚ)⟩)
    (fun t => fillRandom_total (by decide) (by decide) (by decide)) (fun t => fillRandom_atMost (by decide) (by decide)) (fun _ _ => by simp)
  exact ⟨s, c, hs, hst, (C67_partial (sd := fun _ => 7) (by decide) (by decide) (by decide) (fun _ _ => rfl) (fun _ _ => by simp) hs hst).2.1⟩

/-- Both backends start few enough work items for arrays of up to 1024 elements. -/
theorem C67_small {be : Backend} (h : n ≤ numSeeds) : n ≤ workItems be n ∧ workItems be n ≤ numSeeds := by
  refine ⟨workItems_ge, ?_⟩
  cases be
  · exact h
  · simp only [workItems, numSeeds] at *; split <;> omega

/-- For larger arrays there is always an execution in which all work items read their seed before any replaces it; the array then repeats itself
every `S` elements. -/
theorem C67_repeats {grp : Fin W → G} {M : Mem FLoc V} {sd : Nat → V} (hn : 0 < n) (hW : n ≤ W) (hS : 0 < S) (hM : ∀ j, j < S → M (.seed j) = some (sd j))
    (hd : ∀ i, i < n → M (.data i) ≠ none) :
    ∃ s c, Steps grp ⟨fun t => fillRandom n S W draw next t, M⟩ s c ∧ Stuck grp c ∧ Done c ∧ ∀ i, i < n → c.mem (.data i) = some (draw (sd (i % S)) 0) := by
  obtain ⟨s, hs⟩ := reads_first (grp := grp) (draw := draw) (next := next) hW hn hS hM (List.finRange W) (List.nodup_finRange W)
  simp only [List.mem_finRange, if_true] at hs
  obtain ⟨s', d, hs', hst, hdn⟩ := complete (grp := grp) (c := ⟨fun t : Fin W => fillTail n S t draw next (sd (t % S)), M⟩) (fun t => fillTail_total hS)
    (fun t => fillTail_atMost.succ) (fun l hl => by
      cases l with
      | seed j => show M (.seed j) ≠ none; rw [hM j hl]; simp
      | data i => exact hd i hl)
  refine ⟨_, d, hs.trans hs', hst, hdn, fun i hi => ?_⟩
  have := (written_steps (P := fun l v => ∀ i, l = .data i → v = draw (sd (i % S)) 0) (t₀ := ⟨i, by omega⟩) (l₀ := .data i) (fun t => ?_)
    (.inl (fillTail_mustWrite hi)) hs').2
  · rw [hdn] at this
    rcases this with h | ⟨v, h, h'⟩
    · exact h.elim
    · rw [h, h' i rfl]
  · show (fillTail n S t draw next _).WritesOk _
    unfold fillTail
    split
    · exact ⟨fun i e => by injection e with e; rw [e], fun i e => (nomatch e), trivial⟩
    · exact ⟨fun i e => (nomatch e), trivial⟩

/-- There is also an execution in which element `S` is made from the seed that the first work item left behind. -/
theorem C67_other_order {grp : Fin W → G} {M : Mem FLoc V} {sd : Nat → V} (hn : S < n) (hW : n ≤ W) (hS : 0 < S) (hM : ∀ j, j < S → M (.seed j) = some (sd j))
    (hd : ∀ i, i < n → M (.data i) ≠ none) :
    ∃ s c, Steps grp ⟨fun t => fillRandom n S W draw next t, M⟩ s c ∧ Stuck grp c ∧ Done c ∧ c.mem (.data S) = some (draw (next (sd 0) 1) 0) := by
  have h0 : 0 < n := by omega
  let z : Fin W := ⟨0, by omega⟩
  let y : Fin W := ⟨S, by omega⟩
  have hzy : y ≠ z := fun e => by have := congrArg Fin.val e; simp only [y, z] at this; omega
  let p : Fin W → Prog FLoc V := fun t => fillRandom n S W draw next t
  have hz : p z = .read (.seed 0) (fillTail n S 0 draw next) := by
    show fillRandom n S W draw next 0 = _
    rw [fillRandom_eq hW h0, Nat.zero_mod]
  have hy : p y = .read (.seed 0) (fillTail n S S draw next) := by
    show fillRandom n S W draw next S = _
    rw [fillRandom_eq hW h0, Nat.mod_self]
  have ht : fillTail n S 0 draw next (sd 0) = .write (.data 0) (draw (sd 0) 0) (.write (.seed 0) (next (sd 0) 1) .ret) := by
    unfold fillTail
    rw [if_pos h0, Nat.zero_mod]
  let M₁ : Mem FLoc V := Function.update M (FLoc.data 0) (some (draw (sd 0) 0))
  let M₂ : Mem FLoc V := Function.update M₁ (FLoc.seed 0) (some (next (sd 0) 1))
  obtain ⟨w, hw⟩ := Option.ne_none_iff_exists'.1 (hd 0 h0)
  have s1 : Steps grp ⟨p, M⟩ 1 ⟨Function.update p z (fillTail n S 0 draw next (sd 0)), M⟩ := .step .refl (.read hz (hM 0 hS))
  have a1 : Function.update p z (fillTail n S 0 draw next (sd 0)) z = .write (.data 0) (draw (sd 0) 0) (.write (.seed 0) (next (sd 0) 1) .ret) := by
    rw [Function.update_self, ht]
  have s2 : Steps grp ⟨p, M⟩ 2 ⟨Function.update (Function.update p z (fillTail n S 0 draw next (sd 0))) z (.write (.seed 0) (next (sd 0) 1) .ret), M₁⟩ :=
    .step s1 (.write a1 hw)
  rw [Function.update_idem] at s2
  have a2 : Function.update p z (.write (FLoc.seed 0) (next (sd 0) 1) .ret) z = .write (.seed 0) (next (sd 0) 1) .ret := Function.update_self ..
  have a3 : M₁ (.seed 0) = some (sd 0) := by
    show Function.update M (FLoc.data 0) _ (FLoc.seed 0) = _
    rw [Function.update_of_ne (by simp)]; exact hM 0 hS
  have s3 : Steps grp ⟨p, M⟩ 3 ⟨Function.update (Function.update p z (.write (.seed 0) (next (sd 0) 1) .ret)) z .ret, M₂⟩ := .step s2 (.write a2 a3)
  rw [Function.update_idem] at s3
  let q : Fin W → Prog FLoc V := Function.update (Function.update p z .ret) y (fillTail n S S draw next (next (sd 0) 1))
  have a4 : Function.update p z .ret y = .read (.seed 0) (fillTail n S S draw next) := by rw [Function.update_of_ne hzy]; exact hy
  have a5 : M₂ (.seed 0) = some (next (sd 0) 1) := Function.update_self (FLoc.seed 0) _ M₁
  have s4 : Steps grp ⟨p, M⟩ 4 ⟨q, M₂⟩ := .step s3 (.read a4 a5)
  have qy : q y = fillTail n S S draw next (next (sd 0) 1) := Function.update_self ..
  have hq : ∀ (P : Prog FLoc V → Prop), P .ret → P (fillTail n S S draw next (next (sd 0) 1)) → (∀ t : Fin W, t ≠ y → P (p t)) → ∀ t, P (q t) := by
    intro P h1 h2 h3 t
    by_cases e : t = y
    · rw [e, qy]; exact h2
    · simp only [q]
      rw [Function.update_of_ne e]
      by_cases e' : t = z
      · rw [e', Function.update_self]; exact h1
      · rw [Function.update_of_ne e']; exact h3 t e
  obtain ⟨s', d, hs', hst, hdn⟩ := complete (grp := grp) (c := ⟨q, M₂⟩) (hq _ trivial (fillTail_total hS) fun t _ => fillRandom_total hW h0 hS)
    (hq _ trivial fillTail_atMost.succ fun t _ => fillRandom_atMost hW h0) (fun l hl => by
      show Function.update (Function.update M (FLoc.data 0) (some (draw (sd 0) 0))) (FLoc.seed 0) (some (next (sd 0) 1)) l ≠ none
      by_cases e1 : l = .seed 0
      · rw [e1, Function.update_self]; simp
      · rw [Function.update_of_ne e1]
        by_cases e2 : l = .data 0
        · rw [e2, Function.update_self]; simp
        · rw [Function.update_of_ne e2]
          cases l with
          | seed j => rw [hM j hl]; simp
          | data i => exact hd i hl)
  refine ⟨_, d, s4.trans hs', hst, hdn, ?_⟩
  have := (written_steps (P := fun l v => l = .data S → v = draw (next (sd 0) 1) 0) (t₀ := y) (l₀ := .data S) (hq _ trivial ?_ fun t hty => ?_)
    (.inl (by show (q y).MustWrite _; rw [qy]; exact fillTail_mustWrite hn)) hs').2
  · rw [hdn] at this
    rcases this with h | ⟨v, h, h'⟩
    · exact h.elim
    · rw [h, h' rfl]
  · unfold fillTail
    rw [if_pos hn]
    exact ⟨fun _ => rfl, fun e => (nomatch e), trivial⟩
  · show (fillRandom n S W draw next t).WritesOk _
    rw [fillRandom_eq hW h0]
    intro v
    unfold fillTail
    split
    · exact ⟨fun e => by injection e with e; exact absurd (Fin.ext e) hty, fun e => (nomatch e), trivial⟩
    · exact ⟨fun e => (nomatch e), trivial⟩

/-- The claim: the seeds determine the array. -/
def C67Claim (lr : Bool) : Prop :=
  ∀ (n W : Nat) (M : Mem FLoc ℚ) (sd : Nat → ℚ), 0 < n → n ≤ W → (∀ j, j < numSeeds → M (.seed j) = some (sd j)) → (∀ i, i < n → M (.data i) ≠ none) →
    ∀ s c s' c', Steps (fun _ => ()) ⟨fun t : Fin W => fillRandom n numSeeds W (drawQ lr 0 1) (nextQ lr) t, M⟩ s c → Stuck (fun _ => ()) c →
      Steps (fun _ => ()) ⟨fun t : Fin W => fillRandom n numSeeds W (drawQ lr 0 1) (nextQ lr) t, M⟩ s' c' → Stuck (fun _ => ()) c' →
      ∀ i, i < n → c.mem (.data i) = c'.mem (.data i)

/-- False for 1025 elements: the last one depends on the schedule. -/
theorem C67_false (lr : Bool) : ¬ C67Claim lr := by
  intro h
  have hM : ∀ j, j < numSeeds → (fun _ => some 1 : Mem FLoc ℚ) (.seed j) = some ((fun _ => 1 : Nat → ℚ) j) := fun _ _ => rfl
  obtain ⟨s, c, h1, h2, -, h3⟩ := C67_repeats (grp := fun _ : Fin 1025 => ()) (n := 1025) (M := fun _ => some 1) (sd := fun _ => 1) (draw := drawQ lr 0 1) (next := nextQ lr) (by decide) (Nat.le_refl _) (show 0 < numSeeds by decide) hM
    (fun _ _ => by simp)
  obtain ⟨s', c', h1', h2', -, h3'⟩ := C67_other_order (grp := fun _ : Fin 1025 => ()) (n := 1025) (M := fun _ => some 1) (sd := fun _ => 1) (draw := drawQ lr 0 1) (next := nextQ lr) (by decide) (Nat.le_refl _) (show 0 < numSeeds by decide) hM
    (fun _ _ => by simp)
  have := h 1025 1025 (fun _ => some 1) (fun _ => 1) (by decide) (Nat.le_refl _) hM (fun _ _ => by simp) s c s' c' h1 h2 h1' h2' 1024 (by decide)
  rw [h3 1024 (by decide), show (1024 : Nat) = numSeeds from rfl, h3'] at this
  simp only [Option.some.injEq] at this
  revert this
  cases lr <;> decide +kernel

/-! ### The range -/

/-- For `double`, every element lies in `[lower, upper]` unless the 64 bits drawn are among the 1024 largest values. -/
theorem C67_range_partial {lower upper : ℚ} (hl : Repr binary64 lower) (hu : Repr binary64 upper) (h : lower ≤ upper) {u : Nat} (hd : u < 2 ^ 64 - 2 ^ 10) :
    lower ≤ fillDouble lower upper u ∧ fillDouble lower upper u ≤ upper := by
  have hdraw : Draw (toUnit u) := by
    have h0 : 0 ≤ rnd binary64 (u : ℚ) := rnd_nonneg (by positivity)
    have hle : rnd binary64 (u : ℚ) ≤ 2 ^ 64 - 2 ^ 11 := toUnit_aux hd
    refine ⟨repr_toUnit u, by unfold toUnit; positivity, ?_⟩
    · unfold toUnit
      rw [div_lt_one (by positivity)]
      norm_num at hle ⊢; linarith
  have := C43_random lower upper _ hl hu h hdraw
  have e : fillDouble lower upper u = randomVal (rnd binary64) lower upper (toUnit u) := by
    unfold fillDouble randomVal
    rw [mul_comm, add_comm]
  rw [e]; exact this

theorem toUnit_top {u : Nat} (h : 2 ^ 64 - 2 ^ 10 ≤ u) (h' : u < 2 ^ 64) : toUnit u = 1 := by
  have h1 : rnd binary64 (2 ^ 64 - 2 ^ 10) = 2 ^ 64 := by decide +kernel
  have h2 : rnd binary64 (2 ^ 64) = 2 ^ 64 := by decide +kernel
  have ha : (2 ^ 64 - 2 ^ 10 : ℚ) ≤ u := by
    have : ((2 ^ 64 - 2 ^ 10 : Nat) : ℚ) ≤ u := by exact_mod_cast h
    rw [Nat.cast_sub (by norm_num)] at this
    push_cast at this
    exact this
  have hb : (u : ℚ) ≤ 2 ^ 64 := by exact_mod_cast h'.le
  have h3 := rnd_mono (f := binary64) ha
  have h4 := rnd_mono (f := binary64) hb
  rw [h1] at h3
  rw [h2] at h4
  unfold toUnit
  rw [le_antisymm h4 h3]
  norm_num

/-- For the 1024 largest values the unit number is rounded to 1, and the element is the upper bound up to two roundings; it is never below the lower
bound. -/
theorem C67_range_top {lower upper : ℚ} (hl : Repr binary64 lower) (h : lower ≤ upper) {u : Nat} (hd : 2 ^ 64 - 2 ^ 10 ≤ u) (hd' : u < 2 ^ 64) :
    fillDouble lower upper u = rnd binary64 (rnd binary64 (upper - lower) + lower) ∧ lower ≤ fillDouble lower upper u := by
  have e : fillDouble lower upper u = rnd binary64 (rnd binary64 (upper - lower) + lower) := by
    unfold fillDouble
    rw [toUnit_top hd hd', one_mul, rnd_of_repr (repr_rnd _ _)]
  refine ⟨e, ?_⟩
  rw [e]
  have h0 : 0 ≤ rnd binary64 (upper - lower) := rnd_nonneg (by linarith)
  calc lower = rnd binary64 lower := (rnd_of_repr hl).symm
    _ ≤ _ := rnd_mono (by linarith)

/-- With them the range is exceeded for `double` too: between -2^53 and 1.5 each of these 1024 values gives 2. -/
theorem C67_range_top_false : Repr binary64 (-2 ^ 53) ∧ Repr binary64 1.5 ∧
    ∀ u : Nat, 2 ^ 64 - 2 ^ 10 ≤ u → u < 2 ^ 64 → fillDouble (-2 ^ 53) 1.5 u = 2 := by
  have hr : Repr binary64 (-2 ^ 53) := ⟨-1, 53, by decide, by decide, by norm_num⟩
  refine ⟨hr, ⟨3, -1, by decide, by decide, by norm_num⟩, fun u h h' => ?_⟩
  rw [(C67_range_top hr (by norm_num) h h').1]
  decide +kernel

/-- For `float`, the elements can exceed the upper bound: `fillRandom(a, -16777216, 1.5)` can give 2, with a suitable seed for either order of evaluation. -/
theorem C67_float_false : Repr binary32 (-16777216) ∧ Repr binary32 1.5 ∧
    ∀ lr, ∃ seed, seed < 2 ^ 32 ∧ 1.5 < fillFloat (-16777216) 1.5 (gmtUlong lr (gmtSeed seed)).1 := by
  refine ⟨⟨-1, 24, by decide, by decide, by norm_num⟩, ⟨3, -1, by decide, by decide, by norm_num⟩, fun lr => ?_⟩
  cases lr
  · exact ⟨2180022, by decide, by decide +kernel⟩
  · exact ⟨316513203, by decide, by decide +kernel⟩

/-! ### C68: the generator -/

/-- fill.cl 76-108, the variant nothing uses, is the MT19937 of the C++ standard, for every seed and every output. -/
theorem C68_loop (s n : Nat) : nthOut loopUint n (gmtSeed s) = nthOut mtNext n (mtSeed s) := by rw [loopUint_out, mtNext_out]

/-- The claim for the variant in use. -/
def C68Claim : Prop := ∀ s n, nthOut gmtUint n (gmtSeed s) = nthOut mtNext n (mtSeed s)

/-- fill.cl 40-67, the variant in use: the outputs 0, 623, 1246, … are all the tempered seed. -/
theorem C68_period (s k : Nat) : nthOut gmtUint (623 * k) (gmtSeed s) = temper (s % 2 ^ 32) :=
  gmtUint_out (s := s % 2 ^ 32) (623 * k) 623 (gmtSeed s) rfl (by decide) (by decide) (.inr ⟨rfl, rfl⟩) (by omega)

theorem C68_false : ¬ C68Claim := fun h => absurd (h 5489 0) (by decide +kernel)

end Verif.Gpu
