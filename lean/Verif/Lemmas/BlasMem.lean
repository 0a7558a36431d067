import Verif.Model.BlasMem
import Mathlib.Data.Set.Function
import Mathlib.Tactic.Common

/-! Lemmas on memory, loops and simultaneous updates for the model of cxxblas. -/

namespace Verif.Blas

open Classical in
/-- The memory `m` with the cells `ad i`, `i ∈ S`, set to `v i`. -/
noncomputable def over {K ι : Type} (m : Mem K) (ad : ι → Int) (v : ι → K) (S : Set ι) : Mem K := fun a =>
  if h : ∃ i, i ∈ S ∧ ad i = a then .val (v h.choose) else m a

variable {K ι : Type}

theorem load_ok {m : Mem K} {a : Int} {v : K} (h : m a = .val v) : load a m = .ok (v, m) := by
  unfold load; rw [h]

theorem store_ok {m : Mem K} {a : Int} {v : K} (h : m a ≠ .out) : store a v m = .ok ((), set m a v) := by
  unfold store
  cases h' : m a with
  | out => exact absurd h' h
  | raw => rfl
  | val w => rfl

theorem bind_ok {α β : Type} {c : M K α} {f : α → M K β} {m m' : Mem K} {a : α} (h : c m = .ok (a, m')) :
    (c >>= f) m = f a m' := by
  show (c m >>= fun p => f p.1 p.2) = _
  rw [h]; rfl

theorem pure_ok {α : Type} (a : α) (m : Mem K) : (pure a : M K α) m = .ok (a, m) := rfl

theorem bind2_ok {α β γ : Type} {a : M K α} {b : α → M K β} {c : β → M K γ} {m m1 : Mem K} {r : β}
    (h : (a >>= b) m = .ok (r, m1)) : (a >>= fun x => b x >>= c) m = c r m1 := by
  have h' : (a m >>= fun p => b p.1 p.2) = .ok (r, m1) := h
  show (a m >>= fun p => (b p.1 p.2 >>= fun q => c q.1 q.2)) = _
  cases ha : a m with
  | ok p => rw [ha] at h'; change b p.1 p.2 = _ at h'; show (b p.1 p.2 >>= _) = _; rw [h']; rfl
  | throw e => rw [ha] at h'; exact nomatch (h' : Out.throw e = Out.ok (r, m1))
  | ub => rw [ha] at h'; exact nomatch (h' : Out.ub = Out.ok (r, m1))

theorem loop_zero (f : Nat → M K Unit) (m : Mem K) : loop 0 f m = .ok ((), m) := rfl

theorem loop_succ {n : Nat} {f : Nat → M K Unit} {m m' : Mem K} (h : loop n f m = .ok ((), m')) :
    loop (n + 1) f m = f n m' := by
  rw [loop]; exact bind_ok h

/-- A loop whose memory after `i` passes is `t i`. -/
theorem loop_trace (f : Nat → M K Unit) (t : Nat → Mem K) :
    ∀ n, (∀ i, i < n → f i (t i) = .ok ((), t (i + 1))) → loop n f (t 0) = .ok ((), t n)
  | 0, _ => rfl
  | n + 1, h => by
    rw [loop_succ (loop_trace f t n fun i hi => h i (by omega))]
    exact h n (by omega)

theorem loopFrom_trace (f : Nat → M K Unit) (t : Nat → Mem K) {a b : Nat} (hab : a ≤ b)
    (h : ∀ i, a ≤ i → i < b → f i (t i) = .ok ((), t (i + 1))) : loopFrom a b f (t a) = .ok ((), t b) := by
  unfold loopFrom
  have := loop_trace (fun k => f (a + k)) (fun k => t (a + k)) (b - a) fun k hk => h (a + k) (by omega) (by omega)
  rw [show a + (b - a) = b by omega] at this
  exact this

theorem loopFrom_empty (f : Nat → M K Unit) {a b : Nat} (hab : b ≤ a) (m : Mem K) : loopFrom a b f m = .ok ((), m) := by
  unfold loopFrom
  rw [show b - a = 0 by omega]; rfl

/-- A descending loop; `t i` is the memory when the passes `i, …, n-1` have been done. -/
theorem loopDown_trace (f : Nat → M K Unit) (t : Nat → Mem K) (n : Nat)
    (h : ∀ i, i < n → f i (t (i + 1)) = .ok ((), t i)) : loopDown n f (t n) = .ok ((), t 0) := by
  unfold loopDown
  have := loop_trace (fun k => f (n - 1 - k)) (fun k => t (n - k)) n fun k hk => by
    have := h (n - 1 - k) (by omega)
    rw [show n - 1 - k + 1 = n - k by omega] at this
    rw [show n - (k + 1) = n - 1 - k by omega]
    exact this
  simpa using this

theorem loop_congr {n : Nat} {f g : Nat → M K Unit} (h : ∀ i, i < n → f i = g i) : loop n f = loop n g := by
  induction n with
  | zero => rfl
  | succ n ih => rw [loop, loop, ih fun i hi => h i (by omega), h n (by omega)]

theorem fold_zero {σ : Type} (s : σ) (f : Nat → σ → M K σ) (m : Mem K) : fold 0 s f m = .ok (s, m) := rfl

/-- A loop that only reads; its variable after `i` passes is `t i`. -/
theorem fold_trace {σ : Type} (f : Nat → σ → M K σ) (t : Nat → σ) (m : Mem K) :
    ∀ n, (∀ i, i < n → f i (t i) m = .ok (t (i + 1), m)) → fold n (t 0) f m = .ok (t n, m)
  | 0, _ => rfl
  | n + 1, h => by
    rw [fold, bind_ok (fold_trace f t m n fun i hi => h i (by omega))]
    exact h n (by omega)

/-! ### Updates -/

@[simp] theorem set_same (m : Mem K) (a : Int) (v : K) : set m a v a = .val v := by simp [set]

theorem set_ne (m : Mem K) {a b : Int} (v : K) (h : b ≠ a) : set m a v b = m b := by simp [set, h]

theorem over_of_mem {m : Mem K} {ad : ι → Int} {v : ι → K} {S : Set ι} (hinj : Set.InjOn ad S) {i : ι} (hi : i ∈ S) :
    over m ad v S (ad i) = .val (v i) := by
  unfold over
  have h : ∃ j, j ∈ S ∧ ad j = ad i := ⟨i, hi, rfl⟩
  rw [dif_pos h]
  have := h.choose_spec
  rw [hinj this.1 hi this.2]

theorem over_of_not_mem {m : Mem K} {ad : ι → Int} {v : ι → K} {S : Set ι} {a : Int} (h : ∀ i, i ∈ S → ad i ≠ a) :
    over m ad v S a = m a := by
  unfold over
  rw [dif_neg]
  rintro ⟨i, hi, e⟩
  exact h i hi e

/-- The update is determined by its two defining properties. -/
theorem over_unique {m m' : Mem K} {ad : ι → Int} {v : ι → K} {S : Set ι} (hinj : Set.InjOn ad S)
    (h1 : ∀ i, i ∈ S → m' (ad i) = .val (v i)) (h2 : ∀ a, (∀ i, i ∈ S → ad i ≠ a) → m' a = m a) :
    m' = over m ad v S := by
  funext a
  by_cases h : ∃ i, i ∈ S ∧ ad i = a
  · obtain ⟨i, hi, rfl⟩ := h
    rw [h1 i hi, over_of_mem hinj hi]
  · rw [h2 a (fun i hi e => h ⟨i, hi, e⟩), over_of_not_mem (fun i hi e => h ⟨i, hi, e⟩)]

theorem over_writable {m : Mem K} {ad : ι → Int} {v : ι → K} {S : Set ι} {a : Int} (h : m a ≠ .out) :
    over m ad v S a ≠ .out := by
  unfold over
  split
  · simp
  · exact h

@[simp] theorem over_empty (m : Mem K) (ad : ι → Int) (v : ι → K) : over m ad v ∅ = m := by
  funext a
  exact over_of_not_mem (by simp)

theorem over_congr {m : Mem K} {ad : ι → Int} {v w : ι → K} {S : Set ι} (hinj : Set.InjOn ad S)
    (h : ∀ i, i ∈ S → v i = w i) : over m ad v S = over m ad w S :=
  over_unique hinj (fun i hi => by rw [over_of_mem hinj hi, h i hi]) fun _ ha => over_of_not_mem ha

/-- Writing one more cell. -/
theorem set_over {m : Mem K} {ad : ι → Int} {v : ι → K} {S : Set ι} {k : ι} (hinj : Set.InjOn ad (insert k S)) :
    set (over m ad v S) (ad k) (v k) = over m ad v (insert k S) := by
  refine over_unique hinj ?_ ?_
  · rintro i (rfl | hi)
    · exact set_same _ _ _
    · by_cases e : ad i = ad k
      · have : i = k := hinj (Set.mem_insert_of_mem _ hi) (Set.mem_insert _ _) e
        subst this; exact set_same _ _ _
      · rw [set_ne _ _ e, over_of_mem (hinj.mono (Set.subset_insert _ _)) hi]
  · intro a ha
    rw [set_ne _ _ (fun e => ha k (Set.mem_insert _ _) e.symm),
      over_of_not_mem fun i hi => ha i (Set.mem_insert_of_mem _ hi)]

/-- One update after another. -/
theorem over_over {κ : Type} {m : Mem K} {ad : ι → Int} {v : ι → K} {S T : Set ι} {ad' : κ → Int} {v' : κ → K} {S' : Set κ}
    (hinj : Set.InjOn ad T) (hST : S ⊆ T) (f : κ → ι) (had : ∀ k, k ∈ S' → ad' k = ad (f k))
    (hv : ∀ k, k ∈ S' → v' k = v (f k)) (hinj' : Set.InjOn ad' S')
    (hT : ∀ i, i ∈ T ↔ i ∈ S ∨ ∃ k, k ∈ S' ∧ f k = i) :
    over (over m ad v S) ad' v' S' = over m ad v T := by
  refine over_unique hinj ?_ ?_
  · intro i hi
    by_cases h : ∃ k, k ∈ S' ∧ f k = i
    · obtain ⟨k, hk, rfl⟩ := h
      rw [← had k hk, over_of_mem hinj' hk, hv k hk]
    · have hS : i ∈ S := by
        rcases (hT i).1 hi with h1 | h1
        · exact h1
        · exact absurd h1 h
      rw [over_of_not_mem, over_of_mem (hinj.mono hST) hS]
      intro k hk e
      rw [had k hk] at e
      have hfk : f k ∈ T := (hT _).2 (Or.inr ⟨k, hk, rfl⟩)
      exact h ⟨k, hk, hinj hfk hi e⟩
  · intro a ha
    rw [over_of_not_mem, over_of_not_mem]
    · exact fun i hi => ha i (hST hi)
    · intro k hk
      rw [had k hk]
      exact ha _ ((hT _).2 (Or.inr ⟨k, hk, rfl⟩))

/-- The indices below `n`. -/
def below (n : Nat) : Set Nat := {i | i < n}

@[simp] theorem mem_below {n i : Nat} : i ∈ below n ↔ i < n := Iff.rfl

@[simp] theorem below_zero : below 0 = ∅ := by ext i; simp

theorem below_succ (n : Nat) : below (n + 1) = insert n (below n) := by
  ext i; simp only [mem_below, Set.mem_insert_iff]; omega

theorem below_mono {n k : Nat} (h : n ≤ k) : below n ⊆ below k := fun i hi => Nat.lt_of_lt_of_le hi h

/-- A loop that writes the cell `ad i` in pass `i`. -/
theorem loop_over {ad : Nat → Int} {v : Nat → K} {n : Nat} (hinj : Set.InjOn ad (below n)) (f : Nat → M K Unit) (m : Mem K)
    (h : ∀ i, i < n → f i (over m ad v (below i)) = .ok ((), set (over m ad v (below i)) (ad i) (v i))) :
    loop n f m = .ok ((), over m ad v (below n)) := by
  have := loop_trace f (fun i => over m ad v (below i)) n fun i hi => by
    rw [h i hi, set_over, ← below_succ]
    rw [← below_succ]
    exact hinj.mono (below_mono hi)
  simpa using this

end Verif.Blas
