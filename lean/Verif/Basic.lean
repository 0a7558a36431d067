/-!
# Outcomes of C++ calls

The models return an `Out` wherever the C++ code can leave the ordinary path: by throwing, or by undefined behaviour.
-/

namespace Verif

/-- Kinds of C++ exceptions the library throws.
`assertion` is a failed `LIBRAPID_ASSERT*` (core/debugAssert.hpp), only when assertions are compiled in. -/
inductive Exc where
  | assertion
  | rangeError
  | lengthError
  | outOfRange
  | invalidArgument
  | runtimeError
deriving DecidableEq, Repr

/-- Outcome of a C++ call: a value, an exception, or undefined behaviour. -/
inductive Out (α : Type u) where
  | ok (a : α)
  | throw (e : Exc)
  | ub
deriving DecidableEq, Repr

namespace Out

/-- Sequencing: exceptions and undefined behaviour end the computation. -/
def bind {α : Type u} {β : Type v} : Out α → (α → Out β) → Out β
  | .ok a, f => f a
  | .throw e, _ => .throw e
  | .ub, _ => .ub

instance : Monad Out where
  pure := .ok
  bind := bind

@[simp] theorem pure_eq (a : α) : (pure a : Out α) = .ok a := rfl
@[simp] theorem ok_bind (a : α) (f : α → Out β) : (Out.ok a >>= f) = f a := rfl
@[simp] theorem throw_bind (e : Exc) (f : α → Out β) : (Out.throw e >>= f) = .throw e := rfl
@[simp] theorem ub_bind (f : α → Out β) : (Out.ub >>= f) = .ub := rfl
@[simp] theorem map_ok (g : α → β) (a : α) : (g <$> (Out.ok a)) = .ok (g a) := rfl
@[simp] theorem map_throw (g : α → β) (e : Exc) : (g <$> (Out.throw e : Out α)) = .throw e := rfl
@[simp] theorem map_ub (g : α → β) : (g <$> (Out.ub : Out α)) = .ub := rfl

theorem bind_eq_ok {x : Out α} {f : α → Out β} {b : β} :
    (x >>= f) = .ok b ↔ ∃ a, x = .ok a ∧ f a = .ok b := by
  cases x <;> simp

/-- A check that throws `e` when the condition fails (used for `LIBRAPID_ASSERT*` with assertions compiled in and for
unconditional checks). -/
def guard (c : Bool) (e : Exc) : Out Unit := if c then .ok () else .throw e

@[simp] theorem guard_true (e : Exc) : guard true e = .ok () := rfl
@[simp] theorem guard_false (e : Exc) : guard false e = .throw e := rfl

/-- `LIBRAPID_ASSERT(c)`: with assertions compiled in, throws when `c` is false; otherwise does nothing. -/
def assert (asserts : Bool) (c : Bool) : Out Unit := if asserts && !c then .throw .assertion else .ok ()

@[simp] theorem assert_true (b : Bool) : assert b true = .ok () := by cases b <;> rfl
@[simp] theorem assert_off (c : Bool) : assert false c = .ok () := rfl
@[simp] theorem assert_on_false : assert true false = .throw .assertion := rfl

/-- The call returned normally. -/
def isOk : Out α → Bool
  | .ok _ => true
  | _ => false

end Out

/-- Reading element `i` of a `std::vector`/array through a signed index: out of bounds is undefined behaviour. -/
def readAt (d : List α) (i : Int) : Out α :=
  if 0 ≤ i then
    match d[i.toNat]? with
    | some a => .ok a
    | none => .ub
  else .ub

/-- Writing element `i` of a `std::vector`/array through a signed index: out of bounds is undefined behaviour. -/
def writeAt (d : List α) (i : Int) (v : α) : Out (List α) :=
  if 0 ≤ i ∧ i < d.length then .ok (d.set i.toNat v) else .ub

/-- `for (i = lo; i < hi; ++i) body`. -/
def forUp (lo hi : Nat) (body : Nat → σ → Out σ) (s : σ) : Out σ :=
  if lo < hi then
    match body lo s with
    | .ok s' => forUp (lo + 1) hi body s'
    | .throw e => .throw e
    | .ub => .ub
  else .ok s
termination_by hi - lo

/-- `for (i = lo; i < hi; ++i) if (test i) return ...; `: a loop with early return. -/
def searchUp (lo hi : Nat) (body : Nat → Out (Option β)) : Out (Option β) :=
  if lo < hi then
    match body lo with
    | .ok (some b) => .ok (some b)
    | .ok none => searchUp (lo + 1) hi body
    | .throw e => .throw e
    | .ub => .ub
  else .ok none
termination_by hi - lo

/-- Invariant rule for `forUp`. -/
theorem forUp_inv {σ : Type u} (P : Nat → σ → Prop) {lo hi : Nat} {body : Nat → σ → Out σ} {s : σ}
    (hle : lo ≤ hi) (h0 : P lo s)
    (hstep : ∀ i s, lo ≤ i → i < hi → P i s → ∃ s', body i s = .ok s' ∧ P (i + 1) s') :
    ∃ s', forUp lo hi body s = .ok s' ∧ P hi s' := by
  induction hn : hi - lo generalizing lo s with
  | zero =>
    have : lo = hi := by omega
    subst this
    exact ⟨s, by rw [forUp, if_neg (by omega)], h0⟩
  | succ n ih =>
    have hlt : lo < hi := by omega
    obtain ⟨s1, e1, p1⟩ := hstep lo s (Nat.le_refl _) hlt h0
    obtain ⟨s2, e2, p2⟩ := ih (lo := lo + 1) (by omega) p1
      (fun i s h1 h2 h3 => hstep i s (by omega) h2 h3) (by omega)
    exact ⟨s2, by rw [forUp, if_pos hlt, e1]; exact e2, p2⟩

theorem forUp_ge {σ : Type u} {lo hi : Nat} {body : Nat → σ → Out σ} {s : σ} (h : hi ≤ lo) :
    forUp lo hi body s = .ok s := by rw [forUp, if_neg (by omega)]

theorem forUp_congr {σ : Type u} {lo hi : Nat} {f g : Nat → σ → Out σ} {s : σ}
    (h : ∀ i s, lo ≤ i → i < hi → f i s = g i s) : forUp lo hi f s = forUp lo hi g s := by
  induction hn : hi - lo generalizing lo s with
  | zero => rw [forUp_ge (by omega), forUp_ge (by omega)]
  | succ n ih =>
    have hlt : lo < hi := by omega
    rw [forUp, forUp, if_pos hlt, if_pos hlt, h lo s (Nat.le_refl _) hlt]
    cases g lo s with
    | ok s' => exact ih (fun i s h1 h2 => h i s (by omega) h2) (by omega)
    | throw e => rfl
    | ub => rfl

/-- `searchUp` with a pure test: the value at the first hit, if any. -/
theorem searchUp_some {β : Type u} {lo hi : Nat} {body : Nat → Out (Option β)} {k : Nat} {b : β}
    (h1 : lo ≤ k) (h2 : k < hi) (hk : body k = .ok (some b))
    (hb : ∀ i, lo ≤ i → i < k → body i = .ok none) : searchUp lo hi body = .ok (some b) := by
  induction hn : k - lo generalizing lo with
  | zero =>
    have : lo = k := by omega
    subst this
    rw [searchUp, if_pos h2, hk]
  | succ n ih =>
    rw [searchUp, if_pos (by omega), hb lo (by omega) (by omega)]
    exact ih (by omega) (fun i hi1 hi2 => hb i (by omega) hi2) (by omega)

theorem searchUp_none {β : Type u} {lo hi : Nat} {body : Nat → Out (Option β)}
    (hb : ∀ i, lo ≤ i → i < hi → body i = .ok none) : searchUp lo hi body = .ok none := by
  induction hn : hi - lo generalizing lo with
  | zero => rw [searchUp, if_neg (by omega)]
  | succ n ih =>
    rw [searchUp, if_pos (by omega), hb lo (by omega) (by omega)]
    exact ih (fun i hi1 hi2 => hb i (by omega) hi2) (by omega)

@[simp] theorem readAt_nat (d : List α) (i : Nat) (h : i < d.length) : readAt d (i : Int) = .ok d[i] := by
  unfold readAt; simp [h]

@[simp] theorem writeAt_nat (d : List α) (i : Nat) (v : α) (h : i < d.length) :
    writeAt d (i : Int) v = .ok (d.set i v) := by
  unfold writeAt; rw [if_pos (by omega)]; rfl

/-! ### Loops without an evident bound

`do { body } while (cond)` is the least fixed point in the flat order whose bottom is `ub`: a loop that never ends counts
as undefined behaviour, which is what C++ says of a side-effect-free endless loop and is never a result a theorem could
use. -/

namespace Out

open Lean.Order

instance : PartialOrder (Out α) := inferInstanceAs (PartialOrder (FlatOrder (Out.ub : Out α)))

noncomputable instance : CCPO (Out α) := inferInstanceAs (CCPO (FlatOrder (Out.ub : Out α)))

noncomputable instance : MonoBind Out where
  bind_mono_left h := by
    cases h with
    | bot => exact FlatOrder.rel.bot
    | refl => exact FlatOrder.rel.refl
  bind_mono_right h := by
    cases ‹Out _› with
    | ok a => exact h a
    | throw e => exact FlatOrder.rel.refl
    | ub => exact FlatOrder.rel.refl

end Out

/-- `do { body } while (b)`, where `body` returns the new state and the loop condition `b`. -/
def doWhile {σ : Type} (body : σ → Out (σ × Bool)) (s : σ) : Out σ := do
  let r ← body s
  if r.2 then doWhile body r.1 else .ok r.1
partial_fixpoint

/-- Invariant rule for a `do`-`while` loop that makes `n + 1` passes. -/
theorem doWhile_inv {σ : Type} (P : Nat → σ → Prop) {body : σ → Out (σ × Bool)} {n : Nat} {s : σ} (h0 : P 0 s)
    (hstep : ∀ k s, k ≤ n → P k s → ∃ s', body s = .ok (s', decide (k < n)) ∧ P (k + 1) s') :
    ∃ s', doWhile body s = .ok s' ∧ P (n + 1) s' := by
  induction n generalizing s P with
  | zero =>
    obtain ⟨s1, e1, p1⟩ := hstep 0 s (Nat.le_refl _) h0
    exact ⟨s1, by rw [doWhile, e1]; simp, p1⟩
  | succ n ih =>
    obtain ⟨s1, e1, p1⟩ := hstep 0 s (by omega) h0
    obtain ⟨s2, e2, p2⟩ := ih (fun k => P (k + 1)) p1 (by
      intro k s hk hp
      obtain ⟨s', e, p⟩ := hstep (k + 1) s (by omega) hp
      refine ⟨s', ?_, p⟩
      rw [e]; simp)
    exact ⟨s2, by rw [doWhile, e1]; simpa using e2, p2⟩

end Verif
