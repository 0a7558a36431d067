import Verif.Model.FillRandom
import Verif.Lemmas.Conc
import Mathlib.Logic.Function.Iterate

/-! Lemmas for `fillRandom` on the host. -/

namespace Verif.FillRandom

open Verif.Conc Verif.RandomM

variable {G : Type} (gen : Gen G) (val : ℚ → ℚ)

/-- The generator the next draw uses. -/
def now (b : Bool) (s : Nat) (g : G) : G := if b then gen.ofSeed (s % 2 ^ 32) else g

/-- The generator after a draw. -/
def next (g : G) : G := (gen.draw g).2

/-- The element made by a draw. -/
def elemOf (g : G) : Cell G := .num (val (gen.draw g).1)

theorem set_gen (b : Bool) (s : Nat) (g g' : G) (d : List (Cell G)) : (memory b s g d).set genAt (.gen g') = memory b s g' d := by
  funext id
  unfold Mem.set memory genAt
  by_cases h : id = 0
  · simp [h]
  · simp [h]

theorem set_flag (b b' : Bool) (s : Nat) (g : G) (d : List (Cell G)) : (memory b s g d).set flagAt (.flag b') = memory b' s g d := by
  funext id
  unfold Mem.set memory flagAt
  by_cases h : id = 0
  · simp [h]
  · simp [h]

theorem set_data (b : Bool) (s : Nat) (g : G) (d : List (Cell G)) (i : Nat) (c : Cell G) :
    (memory b s g d).set (1, i) c = memory b s g (d.set i c) := by
  funext id
  unfold Mem.set memory
  by_cases h : id = 0
  · simp [h]
  · by_cases h1 : id = 1
    · simp [h1]
    · simp [h, h1]

theorem get_flag (b : Bool) (s : Nat) (g : G) (d : List (Cell G)) : (memory b s g d).get? flagAt = some (.flag b) := rfl
theorem get_seed (b : Bool) (s : Nat) (g : G) (d : List (Cell G)) : (memory b s g d).get? seedAt = some (.seed s) := rfl
theorem get_gen (b : Bool) (s : Nat) (g : G) (d : List (Cell G)) : (memory b s g d).get? genAt = some (.gen g) := rfl
theorem get_data (b : Bool) (s : Nat) (g : G) (d : List (Cell G)) (i : Nat) : (memory b s g d).get? (1, i) = d[i]? := rfl

theorem run_body (b : Bool) (s : Nat) (g : G) (d : List (Cell G)) (i : Nat) (hi : i < d.length) :
    run (body gen val i) (memory b s g d) = .ok ((), memory false s (next gen (now gen b s g)) (d.set i (elemOf gen val (now gen b s g)))) := by
  have hd : ∀ b s g, (memory b s g d).get? (1, i) = some d[i] := fun b s g => by rw [get_data, List.getElem?_eq_getElem hi]
  cases b <;>
    simp [body, draw, reseed, drawGen, run, get_flag, get_seed, get_gen, set_gen, set_flag, set_data, hd, now, next, elemOf]

theorem run_range (s : Nat) : ∀ (n k : Nat) (g : G) (d : List (Cell G)), k + n ≤ d.length →
    ∃ d' : List (Cell G), run (seqAll (body gen val) (List.range' k n)) (memory false s g d) = .ok ((), memory false s ((next gen)^[n] g) d') ∧
      d'.length = d.length ∧ (∀ j, j < k → d'[j]? = d[j]?) ∧ (∀ j, j < n → d'[k + j]? = some (elemOf gen val ((next gen)^[j] g))) ∧
      ∀ j, k + n ≤ j → d'[j]? = d[j]? := by
  intro n
  induction n with
  | zero => exact fun k g d _ => ⟨d, rfl, rfl, fun _ _ => rfl, fun j h => absurd h (Nat.not_lt_zero j), fun _ _ => rfl⟩
  | succ n ih =>
    intro k g d hk
    obtain ⟨d', h1, h2, h3, h4, h5⟩ := ih (k + 1) (next gen g) (d.set k (elemOf gen val g)) (by simp; omega)
    refine ⟨d', ?_, by simpa using h2, fun j hj => ?_, fun j hj => ?_, fun j hj => ?_⟩
    · rw [List.range'_succ, seqAll, run_bind, run_body gen val false s g d k (by omega)]
      exact h1
    · rw [h3 j (by omega), List.getElem?_set_ne (by omega)]
    · cases j with
      | zero => rw [Nat.add_zero, h3 k (by omega), List.getElem?_set_self (by omega)]; rfl
      | succ j =>
        have := h4 j (by omega)
        rw [show k + (j + 1) = k + 1 + j by omega, this]
        rfl
    · rw [h5 j (by omega), List.getElem?_set_ne (by omega)]

/-! ### Steps of two threads -/

/-- A thread of the parallel loop that begins with iteration `i`. -/
theorem start_thread {sched : List (List Nat)} {t i : Nat} {is : List Nat} {m : Mem (Cell G)} (h : sched[t]? = some (i :: is)) :
    (fillPar gen val sched m).threads[t]? = some ((body gen val i).bind fun _ => seqAll (body gen val) is) := by
  unfold fillPar Conc.start
  simp only [List.getElem?_map, h, Option.map_some]
  rfl

theorem reach_read {c0 : Config (Cell G)} {m : Mem (Cell G)} {ts : List (Prog (Cell G) Unit)} {t : Nat} {a : Addr}
    {k : Cell G → Prog (Cell G) Unit} {v : Cell G} (hr : Reach c0 ⟨m, ts⟩) (h : ts[t]? = some (.read a k)) (hv : m.get? a = some v) :
    Reach c0 ⟨m, ts.set t (k v)⟩ ∧ (ts.set t (k v))[t]? = some (k v) ∧ ∀ u, u ≠ t → (ts.set t (k v))[u]? = ts[u]? :=
  ⟨.step hr (.read h hv), List.getElem?_set_self (List.getElem?_eq_some_iff.1 h).1, fun _ hu => List.getElem?_set_ne (Ne.symm hu)⟩

theorem reach_write {c0 : Config (Cell G)} {m : Mem (Cell G)} {ts : List (Prog (Cell G) Unit)} {t : Nat} {a : Addr}
    {k : Prog (Cell G) Unit} {v old : Cell G} (hr : Reach c0 ⟨m, ts⟩) (h : ts[t]? = some (.write a v k)) (hv : m.get? a = some old) :
    Reach c0 ⟨m.set a v, ts.set t k⟩ ∧ (ts.set t k)[t]? = some k ∧ ∀ u, u ≠ t → (ts.set t k)[u]? = ts[u]? :=
  ⟨.step hr (.write h hv), List.getElem?_set_self (List.getElem?_eq_some_iff.1 h).1, fun _ hu => List.getElem?_set_ne (Ne.symm hu)⟩

end Verif.FillRandom
