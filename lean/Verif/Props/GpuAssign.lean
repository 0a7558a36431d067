import Verif.Lemmas.GpuAssign
import Mathlib.Data.Int.Basic
import Mathlib.Algebra.Ring.Int.Defs

/-!
# C66: element-wise kernels and expressions on a GPU

Executions are as in C60: `Stuck` when no step is possible, `Done` when every work item has returned.
-/

namespace Verif.Gpu

variable {V G : Type}

/-! ### One kernel -/

/-- Whatever the order of the memory accesses, an element-wise kernel stores at every index the value computed from the old elements at that index, and
changes nothing else. The destination may be one of the arguments. -/
theorem C66_kernel {be : Backend} {n dst : Nat} {grp : Fin (workItems be n) → G} {body : Body V} {M : Mem Cell V} {E : Nat → Nat → V}
    (hn : n ≤ be.limit) (hd : ∀ i, i < n → M (dst, i) ≠ none) (hr : ∀ b i, body.Reads b → i < n → M (b, i) = some (E b i))
    {s : Nat} {c : Cfg (Fin (workItems be n)) Cell V} (hs : Steps grp ⟨fun t => elementKernel be n dst body t, M⟩ s c) (hst : Stuck grp c) :
    Done c ∧ (∀ i, i < n → c.mem (dst, i) = some (body.eval fun b => E b i)) ∧ ∀ x, (∀ i, i < n → x ≠ (dst, i)) → c.mem x = M x :=
  elementKernel_sound hn hd hr hs hst

/-- In-place addition: `a += b`. -/
theorem C66_kernel_in_place {be : Backend} {n a b : Nat} {grp : Fin (workItems be n) → G} {op : V → V → V} {M : Mem Cell V} {A B : Nat → V}
    (hn : n ≤ be.limit) (ha : ∀ i, i < n → M (a, i) = some (A i)) (hb : ∀ i, i < n → M (b, i) = some (B i))
    {s : Nat} {c : Cfg (Fin (workItems be n)) Cell V} (hs : Steps grp ⟨fun t => elementKernel be n a (binBody op (.buf a) (.buf b)) t, M⟩ s c) (hst : Stuck grp c) :
    Done c ∧ ∀ i, i < n → c.mem (a, i) = some (op (A i) (B i)) := by
  obtain ⟨h1, h2, -⟩ := elementKernel_sound (E := fun b i => (M (b, i)).getD (A i)) hn (fun i hi => by rw [ha i hi]; simp) (fun x i hx hi => by
    rcases hx with h | ⟨_, h | ⟨_, h⟩⟩
    · injection h with h; subst h; rw [ha i hi]; rfl
    · injection h with h; subst h; rw [hb i hi]; rfl
    · exact h.elim) hs hst
  refine ⟨h1, fun i hi => ?_⟩
  rw [h2 i hi]
  show some (op ((M (a, i)).getD (A i)) ((M (b, i)).getD (A i))) = _
  rw [ha i hi, hb i hi]; rfl

/-- Every execution can be completed and has a bounded number of steps. -/
theorem C66_kernel_ends {be : Backend} {n dst b : Nat} {grp : Fin (workItems be n) → G} {body : Body V} {M : Mem Cell V} (h : body.AtMost b) :
    (∃ s c, Steps grp ⟨fun t : Fin (workItems be n) => elementKernel be n dst body t, M⟩ s c ∧ Stuck grp c) ∧
      ∀ s c, Steps grp ⟨fun t : Fin (workItems be n) => elementKernel be n dst body t, M⟩ s c → s ≤ workItems be n * (b + 1) := by
  refine ⟨exists_complete (List.finRange _) List.mem_finRange (fun _ => b + 1) fun t => elementKernel_atMost h, fun s c hs => ?_⟩
  obtain ⟨b', -, h⟩ := steps_bounded (List.finRange _) List.mem_finRange (fun _ => b + 1) (fun t => elementKernel_atMost h) hs
  rw [List.map_const', List.sum_replicate_nat, List.length_finRange] at h
  omega

/-! ### Expressions -/

/-- Assigning an expression of any depth: whatever order the arguments are evaluated in and however the kernels are scheduled, nothing goes wrong, element
`i` of the destination becomes the value of the expression at `i`, and no other allocated memory changes. The destination may occur in the expression. -/
theorem C66_assign {be : Backend} {n dst : Nat} {E : Nat → Nat → V} {e : GExpr V} {M : Mem Cell V} {o : Option (Mem Cell V)} (hn : n ≤ be.limit)
    (hd : ∀ i, i < n → M (dst, i) ≠ none) (hE : ∀ b i, e.Uses b → i < n → M (b, i) = some (E b i)) (h : Assign be n dst e M o) :
    ∃ M', o = some M' ∧ (∀ i, i < n → M' (dst, i) = some (e.den E i)) ∧ ∀ x, M x ≠ none → (∀ i, i < n → x ≠ (dst, i)) → M' x = M x :=
  assign_ok hn e dst M o hd hE h

/-- Such an assignment has an outcome: the statement above is not empty. -/
theorem C66_assign_ends {be : Backend} {n dst B : Nat} {E : Nat → Nat → V} {e : GExpr V} {M : Mem Cell V} (v₀ : V) (hn : n ≤ be.limit) (he : (∀ b, e ≠ .arr b) ∧ ∀ v, e ≠ .scalar v)
    (hB : ∀ b i, B ≤ b → M (b, i) = none) (hd : ∀ i, i < n → M (dst, i) ≠ none) (hE : ∀ b i, e.Uses b → i < n → M (b, i) = some (E b i)) :
    ∃ M', Assign be n dst e M (some M') := by
  have hfn : e.IsFn := by
    cases e with
    | arr b => exact he.1 b rfl
    | scalar v => exact he.2 v rfl
    | un k e => trivial
    | bin k l r => trivial
  obtain ⟨M', -, h, -⟩ := assign_exists v₀ hn e hfn dst B M hB hd hE
  exact ⟨M', h⟩

/-- The two backends agree. -/
theorem C66_backends_agree {n dst : Nat} {E : Nat → Nat → V} {e : GExpr V} {M : Mem Cell V} {o o' : Option (Mem Cell V)} (hn : n ≤ 2 ^ 31)
    (hd : ∀ i, i < n → M (dst, i) ≠ none) (hE : ∀ b i, e.Uses b → i < n → M (b, i) = some (E b i)) (h : Assign .opencl n dst e M o) (h' : Assign .cuda n dst e M o') :
    ∃ m m', o = some m ∧ o' = some m' ∧ ∀ x, M x ≠ none → m x = m' x := by
  obtain ⟨m, rfl, h1, h2⟩ := C66_assign (be := .opencl) hn hd hE h
  obtain ⟨m', rfl, h1', h2'⟩ := C66_assign (be := .cuda) (Nat.le_trans hn (by decide)) hd hE h'
  refine ⟨m, m', rfl, rfl, fun x hx => ?_⟩
  by_cases hc : ∃ i, i < n ∧ x = (dst, i)
  · obtain ⟨i, hi, rfl⟩ := hc
    rw [h1 i hi, h1' i hi]
  · have : ∀ i, i < n → x ≠ (dst, i) := fun i hi he => hc ⟨i, hi, he⟩
    rw [h2 x hx this, h2' x hx this]

/-- `a = abs(a - 3) + a`, with the destination among the arguments. -/
def exampleExpr : GExpr ℤ := .bin (binKernel (· + ·)) (.un (absKernel (0 ≤ ·) (-·)) (.bin (binKernel (· - ·)) (.arr 0) (.scalar 3))) (.arr 0)

/-- One array, with the elements 0, 1, …, n - 1. -/
def exampleMem (n : Nat) : Mem Cell ℤ := fun x => if x.1 = 0 ∧ x.2 < n then some (x.2 : ℤ) else none

example (n : Nat) (hn : n ≤ 2 ^ 31) : ∃ M', Assign .opencl n 0 exampleExpr (exampleMem n) (some M') ∧
    ∀ i : Nat, i < n → M' (0, i) = some ((if 0 ≤ (i : ℤ) - 3 then (i : ℤ) - 3 else -((i : ℤ) - 3)) + i) := by
  have hd : ∀ i, i < n → exampleMem n (0, i) ≠ none := fun i hi => by simp [exampleMem, hi]
  have hE : ∀ b i, exampleExpr.Uses b → i < n → exampleMem n (b, i) = some ((fun _ i => (i : ℤ) : Nat → Nat → ℤ) b i) := by
    intro b i hb hi
    have hb : b = 0 := by
      simp only [exampleExpr, GExpr.Uses, or_false, or_self] at hb
      exact hb.symm
    subst hb; simp [exampleMem, hi]
  obtain ⟨M', h⟩ := C66_assign_ends (be := .opencl) (B := 1) (E := fun _ i => (i : ℤ)) (e := exampleExpr) (M := exampleMem n) 0 hn
    ⟨fun b => by simp [exampleExpr], fun v => by simp [exampleExpr]⟩
    (fun b i hb => by show (if b = 0 ∧ i < n then some (i : ℤ) else none) = none; rw [if_neg (by omega)]) hd hE
  refine ⟨M', h, fun i hi => ?_⟩
  obtain ⟨m, e, h1, -⟩ := C66_assign (be := .opencl) hn hd hE h
  cases e
  rw [h1 i hi]
  simp [exampleExpr, GExpr.den, binKernel, absKernel]

/-! ### Where it does not hold -/

/-- OpenCL: with more than 2^31 elements no execution ends well (the index does not fit the `int`). -/
theorem C66_opencl_limit {n dst : Nat} {grp : Fin (workItems .opencl n) → G} {body : Body V} {M : Mem Cell V} (hn : 2 ^ 31 < n) {s : Nat} {c : Cfg (Fin (workItems .opencl n)) Cell V}
    (hs : Steps grp ⟨fun t => elementKernel .opencl n dst body t, M⟩ s c) : ¬ Done c := by
  intro hd
  have := fail_steps (t := ⟨2 ^ 31, hn⟩) (by simp [elementKernel, within]) hs
  rw [hd] at this; cases this

/-- CUDA: the elements from 2^32 on are never written, by no execution. -/
theorem C66_cuda_limit {n dst : Nat} {grp : Fin (workItems .cuda n) → G} {body : Body V} {M : Mem Cell V} {s : Nat} {c : Cfg (Fin (workItems .cuda n)) Cell V}
    (hs : Steps grp ⟨fun t => elementKernel .cuda n dst body t, M⟩ s c) {i : Nat} (hi : 2 ^ 32 ≤ i) : c.mem (dst, i) = M (dst, i) := by
  refine (writesIn_steps (S := fun x => x.2 < 2 ^ 32) (fun t => ?_) hs).2 (dst, i) (by simpa using hi)
  show (elementKernel .cuda n dst body t).WritesIn _
  simp only [elementKernel]
  split
  · exact body_writesIn (Nat.mod_lt _ (by decide)) body
  · trivial

/-- assignOps.hpp 336-350, 529-545: the destination keeps its size. If it is smaller than the expression, no execution ends well. -/
theorem C66_destination_too_small {be : Backend} {n dst : Nat} {grp : Fin (workItems be n) → G} {body : Body V} {M : Mem Cell V} (hn : n ≤ be.limit) {i : Nat} (hi : i < n)
    (hd : M (dst, i) = none) {s : Nat} {c : Cfg (Fin (workItems be n)) Cell V} (hs : Steps grp ⟨fun t => elementKernel be n dst body t, M⟩ s c) : ¬ Done c := by
  intro h
  have := (mustWrite_steps (t := ⟨i, Nat.lt_of_lt_of_le hi workItems_ge⟩) (l := (dst, i)) (by
    show (elementKernel be n dst body i).MustWrite _
    rw [elementKernel_in hn hi]; exact body_mustWrite body) hd hs).1
  rw [h] at this; exact this

/-- The claim for all sizes. -/
def C66Claim : Prop :=
  ∀ (be : Backend) (n : Nat) (e : GExpr ℤ) (dst : Nat) (M : Mem Cell ℤ) (E : Nat → Nat → ℤ) (o : Option (Mem Cell ℤ)),
    (∀ i, i < n → M (dst, i) ≠ none) → (∀ b i, e.Uses b → i < n → M (b, i) = some (E b i)) → Assign be n dst e M o →
    ∃ M', o = some M' ∧ ∀ i, i < n → M' (dst, i) = some (e.den E i)

theorem C66_false : ¬ C66Claim := by
  intro h
  let e : GExpr ℤ := .un (unKernel (-·)) (.arr 0)
  let M : Mem Cell ℤ := fun _ => some 1
  obtain ⟨o, ho⟩ := launch_exists (be := .cuda) (n := 2 ^ 32 + 1) (dst := 0) (M := M) ((unKernel (V := ℤ) (-·)).atMost (.buf 0))
  obtain ⟨M', rfl, h2⟩ := h .cuda (2 ^ 32 + 1) e 0 M (fun _ _ => 1) o (fun _ _ => by simp [M]) (fun _ _ _ _ => rfl) (.un .arr ho)
  have := h2 (2 ^ 32) (Nat.lt_succ_self _)
  cases ho with
  | ok hs hst hd =>
    rw [C66_cuda_limit hs (Nat.le_refl _)] at this
    exact absurd this (by decide)

/-! ### Dual numbers -/

/-- The kernels for dual numbers, exactly, under every schedule: where an argument is also the destination, the derivative is computed from the new value. -/
theorem C66_dual [DecidableEq (DArg V)] {n dst : Nat} {grp : Fin n → G} {fv : V → V → V} {fd : V → V → V → V → V} {l r : DArg V} {M : Mem DCell V} {LV LD RV RD : Nat → V} (hn : n ≤ 2 ^ 31)
    (hl : ∀ i, i < n → DHas M i false (LV i) l ∧ DHas M i true (LD i) l) (hr : ∀ i, i < n → DHas M i false (RV i) r ∧ DHas M i true (RD i) r)
    (hd : ∀ i c, i < n → M (dst, i, c) ≠ none) {s : Nat} {c : Cfg (Fin n) DCell V} (hs : Steps grp ⟨fun t => dualKernel fv fd dst l r t, M⟩ s c) (hst : Stuck grp c) :
    Done c ∧ (∀ i, i < n → c.mem (dst, i, false) = some (fv (LV i) (RV i)) ∧
      c.mem (dst, i, true) = some (fd (if l = .buf dst then fv (LV i) (RV i) else LV i) (LD i) (if r = .buf dst then fv (LV i) (RV i) else RV i) (RD i))) ∧
      ∀ x, (∀ i b, i < n → x ≠ (dst, i, b)) → c.mem x = M x := by
  have eff := fun (t : Fin n) => dual_eff (fv := fv) (fd := fd) (dst := dst) (i := t) (by omega) (hl t t.2).1 (hl t t.2).2 (hr t t.2).1 (hr t t.2).2 (hd t _ t.2) (hd t _ t.2)
  obtain ⟨h1, h2, h3⟩ := indep_sound (fun t => (eff t).safe) (fun t => by rw [(eff t).solo]) (fun t t' x hw ha => by
    have a := (eff t').acc x ha
    rcases ((eff t).wr x).1 hw with rfl | rfl <;> exact Fin.ext a) hs hst
  refine ⟨h1, fun i hi => ⟨?_, ?_⟩, fun x hx => h3 x fun t hw => ?_⟩
  · rw [h2 ⟨i, hi⟩ _ (((eff ⟨i, hi⟩).wr _).2 (.inl rfl)), (eff ⟨i, hi⟩).solo]
    show Function.update (Function.update M _ _) _ _ _ = _
    rw [Function.update_of_ne (by simp), Function.update_self]
  · rw [h2 ⟨i, hi⟩ _ (((eff ⟨i, hi⟩).wr _).2 (.inr rfl)), (eff ⟨i, hi⟩).solo]
    exact Function.update_self ..
  · rcases ((eff t).wr x).1 hw with e | e
    · exact hx t _ t.2 e
    · exact hx t _ t.2 e

/-- The claim for the product of dual numbers. -/
def C66DualClaim : Prop :=
  ∀ (dst a b : Nat) (M : Mem DCell ℤ) (LV LD RV RD : ℤ), M (a, 0, false) = some LV → M (a, 0, true) = some LD → M (b, 0, false) = some RV → M (b, 0, true) = some RD →
    (∀ c, M (dst, 0, c) ≠ none) → ∀ (s : Nat) (c : Cfg (Fin 1) DCell ℤ),
    Steps (fun _ => ()) ⟨fun t : Fin 1 => dualKernel (· * ·) (fun lv ld rv rd => ld * rv + lv * rd) dst (.buf a) (.buf b) t, M⟩ s c → Stuck (fun _ => ()) c →
    c.mem (dst, 0, true) = some (LD * RV + LV * RD)

/-- `x *= x` with `x = 3 + 1ε`: the derivative becomes 18 instead of 6. -/
theorem C66_dual_false : ¬ C66DualClaim := by
  intro h
  let M : Mem DCell ℤ := fun x => some (if x.2.2 then 1 else 3)
  let p : Fin 1 → Prog DCell ℤ := fun t => dualKernel (· * ·) (fun lv ld rv rd => ld * rv + lv * rd) 0 (.buf 0) (.buf 0) t
  obtain ⟨s, c, hs, hst⟩ := exists_complete (grp := fun _ : Fin 1 => ()) (c := ⟨p, M⟩) (List.finRange 1) List.mem_finRange (fun _ => 8) fun t =>
    Prog.AtMost.within (DArg.fetch_atMost fun _ => DArg.fetch_atMost fun _ => Prog.AtMost.write (DArg.fetch_atMost fun _ => DArg.fetch_atMost fun _ => DArg.fetch_atMost fun _ =>
      (DArg.fetch_atMost (n := 0 + 1) fun _ => Prog.AtMost.write Prog.AtMost.ret)))
  have h1 := h 0 0 0 M 3 1 3 1 rfl rfl rfl rfl (fun _ => by simp [M]) s c hs hst
  have : DecidableEq (DArg ℤ) := Classical.decEq _
  have h2 := ((C66_dual (n := 1) (dst := 0) (l := .buf 0) (r := .buf 0) (M := M) (LV := fun _ => 3) (LD := fun _ => 1) (RV := fun _ => 3) (RD := fun _ => 1) (by decide)
    (fun _ _ => ⟨rfl, rfl⟩) (fun _ _ => ⟨rfl, rfl⟩) (fun _ _ _ => by simp [M]) hs hst).2.1 0 (by decide)).2
  rw [h1] at h2
  simp at h2

/-! ### Packets -/

/-- assignOps.hpp 506-507 with cudaStorage.hpp 249-251: packets whose width divides 32 stay inside the allocation, and cover all elements. -/
theorem C66_packets {n w : Nat} (hw : w ∣ 32) : n ≤ packets n w * w ∧ packets n w * w ≤ cudaAllocated n := by
  obtain ⟨k, hk⟩ := hw
  have hw0 : 0 < w := Nat.pos_of_ne_zero fun e => by rw [e] at hk; omega
  have h1 := Nat.div_add_mod (n + (w - 1)) w
  have h2 := Nat.mod_lt (n + (w - 1)) hw0
  rw [Nat.mul_comm] at h1
  unfold packets cudaAllocated
  refine ⟨by omega, ?_⟩
  split
  · next h =>
    subst h
    rw [Nat.div_eq_of_lt (by omega)]; omega
  · have : (n + 31) / 32 * 32 = ((n + 31) / 32 * k) * w := by rw [hk, Nat.mul_assoc, Nat.mul_comm k w]
    rw [this]
    refine Nat.mul_le_mul_right w (Nat.le_of_lt_succ (Nat.div_lt_of_lt_mul ?_))
    rw [Nat.mul_succ, Nat.mul_comm, ← this]
    omega

/-- `CUDA_FLOAT_VECTOR_WIDTH` 3 is allowed by the build (CMakeLists.txt 457-470): the last packet is then partly outside. -/
theorem C66_packets_false : ¬ ∀ n w, 1 ≤ w → w ≤ 4 → packets n w * w ≤ cudaAllocated n := fun h => absurd (h 32 3 (by decide) (by decide)) (by decide)

/-! ### Missing kernels -/

/-- Which functors have a kernel (the table is finite: 34 functors, two backends). -/
theorem C66_kernels (f : Functor) :
    (hasKernel .opencl f = true ↔ f ≠ .exp2 ∧ f ≠ .exp10) ∧
      (hasKernel .cuda f = true ↔ f ≠ .exp2 ∧ f ≠ .exp10 ∧ f ≠ .asinh ∧ f ≠ .acosh ∧ f ≠ .atanh) := by
  cases f <;> decide +kernel

/-- OpenCL without assertions: `a = exp2(b)` and `a = exp10(b)` silently do nothing. -/
theorem C66_missing_kernel_silent {σ : Type} (launch : σ → σ) (s : σ) (f : Functor) (h : f = .exp2 ∨ f = .exp10) :
    runLinearKernel false f launch s = some s ∧ runLinearKernel true f launch s = none := by
  have : hasKernel .opencl f = false := by rcases h with rfl | rfl <;> decide +kernel
  simp [runLinearKernel, this]

end Verif.Gpu
