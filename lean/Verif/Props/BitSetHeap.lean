import Verif.Lemmas.BitSetHeap

/-! Property theorems for heap-allocated bit sets (C112). -/

namespace Verif.BitSetM.Heap

/-- **C112**, full statement: a program with heap-allocated bit sets does what it does with bit sets that hold their bits
themselves, and when all its variables are gone, so are all arrays. -/
def C112Claim : Prop :=
  ∀ (asserts elide : Bool) (n : Nat) (cs : List Cmd),
    Agree (run asserts elide n cs init) (vrun asserts cs (fun _ => .none : Vals n)) ∧
    ∀ f s, run asserts elide n cs init = .ok (f, s) → (∀ x, s.objs x = .none) → ∀ p : Nat, ∀ ws, s.blocks[p]? ≠ some (some ws)

/-- **C112** fails: two bit sets, one assigned to the other, and the end of their scope. On values this is a program without
fault; here the same array is deleted twice. -/
theorem C112_false : ¬ C112Claim := by
  intro h
  have := (h true true 1 [.ctor 0, .ctor 1, .assign 0 1, .dtor 0, .dtor 1]).1
  exact this

/-- **C112** for programs that neither move a bit set nor assign one to another, when results are returned in place: they do exactly
what they do on values, including what is undefined and what is thrown.
Missing from the full statement: moves, assignments and returns that are not made in place, for which it is false. -/
theorem C112_value_partial (asserts : Bool) (n : Nat) (cs : List Cmd) (hc : ∀ c ∈ cs, c.Plain) :
    Agree (run asserts true n cs init) (vrun asserts cs (fun _ => .none : Vals n)) := by
  have h := R.run (n := n) asserts cs hc R.init
  revert h
  generalize run asserts true n cs init = a
  generalize vrun asserts cs (fun _ => .none : Vals n) = b
  intro h
  match a, b, h with
  | .ok (f, s), .ok (g, v), ⟨h1, h2⟩ =>
    dsimp only at h1 h2
    refine ⟨h1, fun x => ?_⟩
    cases hv : v x with
    | none => exact h2.none x hv
    | some b =>
      obtain ⟨p, hp, hb⟩ := h2.some x b hv
      simp [load, hp, hb]
  | .throw e, .throw e', h => exact h
  | .ub, .ub, _ => trivial

/-- **C112**, memory: after such a program in which nothing was thrown, when no variable is left, no array is left. -/
theorem C112_no_leak_partial (asserts : Bool) (n : Nat) (cs : List Cmd) (hc : ∀ c ∈ cs, c.Plain) {f : List Bool} {s : St}
    (e : run asserts true n cs init = .ok (f, s)) (hf : ∀ b ∈ f, b = false) (hx : ∀ x, s.objs x = .none) :
    ∀ p : Nat, ∀ ws, s.blocks[p]? ≠ some (some ws) := by
  intro p ws hp
  obtain ⟨x, hx'⟩ := Owned.run cs hc Owned.init e hf p ws hp
  rw [hx x] at hx'; cases hx'

/-- A program to which both theorems apply: it makes, copies, combines, changes and destroys bit sets of 70 bits. -/
def sample : List Cmd :=
  [.ofValue 0 5#64, .copy 1 0, .upd 1 (.set 69 true), .binary 2 0 .or 1, .compl 3 2, .shifted 4 1 false 3, .opAssign 0 .xor 4,
   .assign 2 2, .dtor 0, .dtor 1, .dtor 3]

example : ∀ c ∈ sample, c.Plain := by
  intro c hc
  simp only [sample, List.mem_cons, List.mem_nil_iff, or_false] at hc
  rcases hc with rfl | rfl | rfl | rfl | rfl | rfl | rfl | rfl | rfl | rfl | rfl <;> simp [Cmd.Plain]

example : (match run true true 70 sample init with
    | .ok (_, s) => (load s 2, load s 4, s.objs 0)
    | _ => (.ub, .ub, .none)) = (.ok [5#64, 32#64], .ok [0#64, 4#64], .none) := by decide +kernel

example : (match run true true 70 (sample ++ [.dtor 2, .dtor 4]) init with
    | .ok (f, s) => (f.any id, s.blocks)
    | _ => (true, [])) = (false, [.none, .none, .none, .none, .none]) := by decide +kernel

/-- **C112**, assignment: whatever the bit sets `x` and `y` hold, after `x = y` (or `x = std::move(y)`) they cannot both be
destroyed, in either order. -/
theorem C112_assign_false (elide : Bool) (n : Nat) {s s' : St} {x y : Nat} (hxy : x ≠ y)
    (e : step elide n s (.assign x y) = .ok s' ∨ step elide n s (.assignMove x y) = .ok s') :
    (do let t ← step elide n s' (.dtor x); step elide n t (.dtor y)) = .ub ∧
    (do let t ← step elide n s' (.dtor y); step elide n t (.dtor x)) = .ub := by
  have e : assignPtr s x y = .ok s' := e.elim id id
  unfold assignPtr at e
  split at e
  · next q p hx hy =>
    cases e
    have h1 : (point s x p).objs x = some p := by simp [point]
    have h2 : (point s x p).objs y = some p := by simp [point, Ne.symm hxy, hy]
    exact ⟨shared_double_free hxy h1 h2, shared_double_free (Ne.symm hxy) h2 h1⟩
  · cases e

/-- **C112**, aliasing: after `x = y` a write to `y` is a write to `x`. -/
theorem C112_alias_false (elide : Bool) (n : Nat) {s s' s'' : St} {x y : Nat} {u : Upd} (hxy : x ≠ y)
    (e : step elide n s (.assign x y) = .ok s') (e' : step elide n s' (.upd y u) = .ok s'') : load s'' x = load s'' y := by
  have e : assignPtr s x y = .ok s' := e
  unfold assignPtr at e
  split at e
  · next q p hx hy =>
    cases e
    have h1 : (point s x p).objs x = some p := by simp [point]
    have h2 : (point s x p).objs y = some p := by simp [point, Ne.symm hxy, hy]
    obtain ⟨a, _, e'⟩ := Out.bind_eq_ok.1 e'
    obtain ⟨b, _, e'⟩ := Out.bind_eq_ok.1 e'
    unfold store at e'
    rw [h2] at e'
    simp only at e'
    split at e'
    · cases e'
      simp only [load, h1, h2]
    · cases e'
  · cases e

/-- **C112**, lost memory: after `x = y` the array that was `x`'s own belongs to no variable. -/
theorem C112_assign_leak_false (elide : Bool) (n : Nat) {s s' : St} {x y p : Nat} {ws : List W} (hs : s.objs x = some p)
    (hb : s.blocks[p]? = some (some ws)) (hown : ∀ z, s.objs z = some p → z = x) (hxy : x ≠ y)
    (e : step elide n s (.assign x y) = .ok s') : s'.blocks[p]? = some (some ws) ∧ ∀ z, s'.objs z ≠ some p := by
  have e : assignPtr s x y = .ok s' := e
  unfold assignPtr at e
  split at e
  · next q r hx hy =>
    cases e
    refine ⟨hb, fun z hz => ?_⟩
    simp only [point] at hz
    by_cases c : z = x
    · rw [if_pos c] at hz
      exact hxy (hown y (by rw [hy]; exact hz)).symm
    · rw [if_neg c] at hz
      exact c (hown z hz)
  · cases e

example : ∃ s s', run true true 3 [.ctor 0, .ofValue 1 6#64] init = .ok ([false, false], s) ∧ s.objs 0 = some 0 ∧
    s.blocks[0]? = some (some [0#64]) ∧ (∀ z, s.objs z = some 0 → z = 0) ∧ step true 3 s (.assign 0 1) = .ok s' := by
  refine ⟨_, _, rfl, by decide +kernel, by decide +kernel, ?_, rfl⟩
  intro z hz
  by_contra hc
  by_cases c : z = 1
  · subst c; revert hz; decide +kernel
  · simp [point, alloc, init, hc, c] at hz

/-- **C112**, moves: after `BitSet x(std::move(y))` the two cannot both be destroyed, in either order. -/
theorem C112_move_false (elide : Bool) (n : Nat) {s s' : St} {x y : Nat} (e : step elide n s (.move x y) = .ok s') :
    (do let t ← step elide n s' (.dtor x); step elide n t (.dtor y)) = .ub ∧
    (do let t ← step elide n s' (.dtor y); step elide n t (.dtor x)) = .ub := by
  have e : moveCtor s x y = .ok s' := e
  unfold moveCtor at e
  split at e
  · next p hx hy =>
    cases e
    have hxy : x ≠ y := by rintro rfl; rw [hx] at hy; cases hy
    have h1 : (point s x p).objs x = some p := by simp [point]
    have h2 : (point s x p).objs y = some p := by simp [point, Ne.symm hxy, hy]
    exact ⟨shared_double_free hxy h1 h2, shared_double_free (Ne.symm hxy) h2 h1⟩
  · cases e

/-- **C112**, results by value: where a compiler does not return `res` in place, the result of `~y`, `y << k` or `y | z` is a bit set
whose array is already deleted; it can be neither read nor destroyed. -/
theorem C112_return_false (n : Nat) {s s' : St} {c : Cmd} {x : Nat}
    (hc : (∃ y, c = .compl x y) ∨ (∃ y l k, c = .shifted x y l k) ∨ (∃ y o z, c = .binary x y o z))
    (e : step false n s c = .ok s') : load s' x = .ub ∧ step false n s' (.dtor x) = .ub := by
  have key : ∀ ws, ret false s x ws = .ok s' → load s' x = .ub ∧ dtor s' x = .ub := by
    intro ws h
    unfold ret at h
    split at h
    · cases h
    · simp only [Bool.false_eq_true, if_false] at h
      have hb : (point (alloc s ws) x s.blocks.length).blocks[s.blocks.length]? = some (some ws) := by simp [point, alloc]
      unfold free at h
      rw [hb] at h
      cases h
      exact dangling (p := s.blocks.length) (by simp [point]) (by simp [point, alloc])
  rcases hc with ⟨y, rfl⟩ | ⟨y, l, k, rfl⟩ | ⟨y, o, z, rfl⟩
  · obtain ⟨a, _, e⟩ := Out.bind_eq_ok.1 e
    obtain ⟨b, _, e⟩ := Out.bind_eq_ok.1 e
    exact key _ e
  · obtain ⟨a, _, e⟩ := Out.bind_eq_ok.1 e
    obtain ⟨b, _, e⟩ := Out.bind_eq_ok.1 e
    exact key _ e
  · obtain ⟨a, _, e⟩ := Out.bind_eq_ok.1 e
    obtain ⟨b, _, e⟩ := Out.bind_eq_ok.1 e
    obtain ⟨d, _, e⟩ := Out.bind_eq_ok.1 e
    exact key _ e

example : (match run true false 70 [.ofValue 0 5#64, .compl 1 0] init with
    | .ok (_, s) => (load s 0, load s 1)
    | _ => (.ub, .ub)) = (.ok [5#64, 0#64], .ub) := by decide +kernel

/-- **C112**, exceptions: a string with any other character than the two, in a build that throws, leaves an array behind although
no variable was made. -/
theorem C112_throw_leak_false (n : Nat) (c z o : Char) (hz : c ≠ z) (ho : c ≠ o) :
    ∃ s, run true true n [.ofString 0 [c] z o] init = .ok ([true], s) ∧ (∀ x, s.objs x = .none) ∧
      s.blocks = [some (empty n).words] := by
  refine ⟨alloc init (empty n).words, ?_, fun _ => rfl, rfl⟩
  have : BitSetM.ofString true n [c] z o = .throw .runtimeError := by
    simp [BitSetM.ofString, forUp, ofStringBody, hz, ho]
  simp [run, exec, stringCtor, this, init]

end Verif.BitSetM.Heap
