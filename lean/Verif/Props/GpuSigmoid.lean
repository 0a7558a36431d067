import Verif.Model.GpuSigmoid
import Verif.Lemmas.GpuAssign

/-! Property theorems for the sigmoid activation on a GPU (C142). -/

namespace Verif.Gpu

variable {V : Type}

/-- Buffer `b` has exactly `n` elements. -/
def Sized (M : Mem Cell V) (b n : Nat) : Prop := ∀ i, (∃ v, M (b, i) = some v) ↔ i < n

/-- **C142**: `forward(dst, src)` and `backward(dst, src)` leave in element i of dst the activation of element i of src, for every i
of src, and touch nothing else. -/
def C142Claim : Prop :=
  ∀ (be : Backend) (asserts refuses : Bool) (d s dst src : Nat) (f : Pass ℤ) (M : Mem Cell ℤ) (E : Nat → ℤ) (o : Out (Mem Cell ℤ)),
    s ≤ 2 ^ 31 → Sized M dst d → Sized M src s → (∀ i, i < s → M (src, i) = some (E i)) → Activate be asserts refuses d s dst src f M o →
    ∃ M', o = .ok M' ∧ (∀ i, i < s → M' (dst, i) = some (f.eval (E i))) ∧ ∀ x, x.1 ≠ dst → M' x = M x

theorem Pass.reads {src b : Nat} (f : Pass V) (h : (f.body src).Reads b) : b = src := by
  cases f with
  | forward f =>
    rcases h with h | ⟨_, h⟩
    · injection h with h; exact h.symm
    · exact h.elim
  | backward f =>
    rcases h with h | ⟨_, h | ⟨_, h⟩⟩
    · injection h with h; exact h.symm
    · injection h with h; exact h.symm
    · exact h.elim

theorem Pass.body_eval {src : Nat} (f : Pass V) (m : Nat → V) : (f.body src).eval m = f.eval (m src) := by
  cases f <;> rfl

/-- **C142** for arrays of equal sizes, which may be the same array: whatever order the work items run in, the launch ends well, every
element is the activation of the old element, and nothing else changes. -/
theorem C142_equal_partial {be : Backend} {asserts refuses : Bool} {n dst src : Nat} {f : Pass V} {M : Mem Cell V} {E : Nat → V}
    {o : Out (Mem Cell V)} (hn : n ≤ be.limit) (h0 : 0 < n ∨ refuses = false ∨ asserts = false) (hd : ∀ i, i < n → M (dst, i) ≠ none)
    (hE : ∀ i, i < n → M (src, i) = some (E i)) (h : Activate be asserts refuses n n dst src f M o) :
    ∃ M', o = .ok M' ∧ (∀ i, i < n → M' (dst, i) = some (f.eval (E i))) ∧ ∀ x, (∀ i, i < n → x ≠ (dst, i)) → M' x = M x := by
  have e : launched be n n = n := by cases be <;> rfl
  have key := fun {grp : Fin (workItems be n) → Nat} {k c} (hs : Steps grp ⟨fun t => elementKernel be n dst (f.body src) t, M⟩ k c)
    (hst : Stuck grp c) => elementKernel_sound (E := fun _ i => E i) hn hd (fun b i hb hi => by rw [f.reads hb]; exact hE i hi) hs hst
  generalize hl : launched be n n = l at h
  rw [e] at hl
  cases h with
  | refused h00 hr ha => rcases h0 with h0 | h0 | h0 <;> simp_all
  | ignored h00 hr ha =>
    rw [e] at h00
    subst h00
    exact ⟨M, rfl, fun i hi => absurd hi (Nat.not_lt_zero _), fun _ _ => rfl⟩
  | @ok grp k c h00 hs hst hdn =>
    revert grp c
    rw [e]
    intro grp c hs hst hdn
    obtain ⟨-, h2, h3⟩ := key hs hst
    exact ⟨_, rfl, fun i hi => by rw [h2 i hi, f.body_eval], h3⟩
  | @wrong grp k c h00 hs hst hdn =>
    revert grp c
    rw [e]
    intro grp c hs hst hdn
    exact absurd (key hs hst).1 hdn

/-! ### Destinations of other sizes -/

/-- The kernel of CUDA with any number of threads. -/
theorem threads_sound {G : Type} {T n dst : Nat} {grp : Fin T → G} {body : Body V} {M : Mem Cell V} {E : Nat → Nat → V} (hT : T ≤ 2 ^ 32)
    (hd : ∀ i, i < T → i < n → M (dst, i) ≠ none) (hr : ∀ b i, body.Reads b → i < n → M (b, i) = some (E b i))
    {s : Nat} {c : Cfg (Fin T) Cell V} (hs : Steps grp ⟨fun t => elementKernel .cuda n dst body t, M⟩ s c) (hst : Stuck grp c) :
    Done c ∧ (∀ i, i < T → i < n → c.mem (dst, i) = some (body.eval fun b => E b i)) ∧
      ∀ x, (∀ i, i < T → i < n → x ≠ (dst, i)) → c.mem x = M x := by
  have hk : ∀ i, i < T → elementKernel .cuda n dst body i = if i < n then body.prog dst i else .ret := by
    intro i hi
    simp only [elementKernel]
    rw [Nat.mod_eq_of_lt (by omega)]
  have eff : ∀ i, i < T → i < n → Eff M (elementKernel .cuda n dst body i) (Function.update M (dst, i) (some (body.eval fun b => E b i))) .ret
      (fun x => x.2 = i) (fun x => x = (dst, i)) := by
    intro i hT hi
    rw [hk i hT, if_pos hi]
    exact body_eff (hd i hT hi) body fun b hb => hr b i hb hi
  have out : ∀ t : Fin T, ¬ (t : Nat) < n → Eff M (elementKernel .cuda n dst body t) M .ret (fun _ => False) (fun _ => False) := by
    intro t ht
    rw [hk t t.2, if_neg ht]; exact Eff.ret
  have key : ∀ t : Fin T, safe M (elementKernel .cuda n dst body t) ∧ (solo M (elementKernel .cuda n dst body t)).2 = .ret ∧
      (∀ x, wr M (elementKernel .cuda n dst body t) x → (t : Nat) < n ∧ x = (dst, (t : Nat))) ∧ ∀ x, acc M (elementKernel .cuda n dst body t) x → x.2 = t := by
    intro t
    by_cases ht : (t : Nat) < n
    · have e := eff t t.2 ht
      exact ⟨e.safe, by rw [e.solo], fun x hx => ⟨ht, (e.wr x).1 hx⟩, fun x hx => e.acc _ hx⟩
    · have e := out t ht
      exact ⟨e.safe, by rw [e.solo], fun x hx => ((e.wr x).1 hx).elim, fun x hx => (e.acc _ hx).elim⟩
  obtain ⟨h1, h2, h3⟩ := indep_sound (fun t => (key t).1) (fun t => (key t).2.1) (fun t t' x hw ha => by
    obtain ⟨-, hx⟩ := (key t).2.2.1 x hw
    have := (key t').2.2.2 x ha
    rw [hx] at this
    exact Fin.ext this) hs hst
  refine ⟨h1, fun i hT hi => ?_, fun x hx => h3 x fun t hw => ?_⟩
  · have e := eff i hT hi
    have := h2 ⟨i, hT⟩ (dst, i) ((e.wr _).2 rfl)
    rw [this, e.solo]; exact Function.update_self ..
  · obtain ⟨ht, he⟩ := (key t).2.2.1 x hw
    exact hx t t.2 ht he

/-- **C142**, OpenCL, a larger destination: the first elements are the activations, the others are left as they were. -/
theorem C142_opencl_larger {asserts refuses : Bool} {d s dst src : Nat} {f : Pass V} {M : Mem Cell V} {E : Nat → V}
    {o : Out (Mem Cell V)} (hn : s ≤ 2 ^ 31) (h0 : 0 < s) (hs : s ≤ d) (hd : ∀ i, i < d → M (dst, i) ≠ none)
    (hE : ∀ i, i < s → M (src, i) = some (E i)) (h : Activate .opencl asserts refuses d s dst src f M o) :
    ∃ M', o = .ok M' ∧ (∀ i, i < s → M' (dst, i) = some (f.eval (E i))) ∧ ∀ x, (∀ i, i < s → x ≠ (dst, i)) → M' x = M x := by
  have key := fun {grp : Fin (workItems .opencl s) → Nat} {k c} (hs' : Steps grp ⟨fun t => elementKernel .opencl s dst (f.body src) t, M⟩ k c)
    (hst : Stuck grp c) => elementKernel_sound (E := fun _ i => E i) hn (fun i hi => hd i (by omega)) (fun b i hb hi => by rw [f.reads hb]; exact hE i hi) hs' hst
  cases h with
  | refused h00 hr ha => simp only [launched] at h00; omega
  | ignored h00 hr ha => simp only [launched] at h00; omega
  | ok h00 hs' hst hdn =>
    obtain ⟨-, h2, h3⟩ := key hs' hst
    exact ⟨_, rfl, fun i hi => by rw [h2 i hi, f.body_eval], h3⟩
  | wrong h00 hs' hst hdn => exact absurd (key hs' hst).1 hdn

/-- **C142** fails on OpenCL for every smaller destination: whatever the order, the kernel writes past its end. -/
theorem C142_opencl_smaller_false {asserts refuses : Bool} {d s dst src : Nat} {f : Pass V} {M : Mem Cell V} {o : Out (Mem Cell V)}
    (hn : s ≤ 2 ^ 31) (hs : d < s) (hd : Sized M dst d) (h : Activate .opencl asserts refuses d s dst src f M o) : o = .ub := by
  cases h with
  | refused h00 hr ha => simp only [launched] at h00; omega
  | ignored h00 hr ha => simp only [launched] at h00; omega
  | ok h00 hs' hst hdn =>
    have hm : M (dst, d) = none := by
      cases e : M (dst, d) with
      | none => rfl
      | some v => exact absurd ((hd d).1 ⟨v, e⟩) (Nat.lt_irrefl _)
    have := (mustWrite_steps (t := ⟨d, hs⟩) (l := (dst, d)) (by
      show (elementKernel .opencl s dst (f.body src) d).MustWrite _
      rw [elementKernel_in (be := .opencl) hn hs]; exact body_mustWrite _) hm hs').1
    rw [hdn] at this
    exact this.elim
  | wrong => rfl

/-- **C142**, CUDA, as long as the threads of the launch do not reach past the destination: the elements that both arrays have are the
activations, all others are left as they were. If the destination is smaller, the rest of the source is ignored. -/
theorem C142_cuda_sizes {asserts refuses : Bool} {d s dst src : Nat} {f : Pass V} {M : Mem Cell V} {E : Nat → V}
    {o : Out (Mem Cell V)} (hn : d ≤ 2 ^ 32) (h0 : 0 < d) (hs : s ≤ d ∨ d < 512 ∨ d % 512 = 0) (hd : ∀ i, i < d → M (dst, i) ≠ none)
    (hE : ∀ i, i < s → M (src, i) = some (E i)) (h : Activate .cuda asserts refuses d s dst src f M o) :
    ∃ M', o = .ok M' ∧ (∀ i, i < d → i < s → M' (dst, i) = some (f.eval (E i))) ∧ ∀ x, (∀ i, i < d → i < s → x ≠ (dst, i)) → M' x = M x := by
  have hw : ∀ i, i < workItems .cuda d → i < s → i < d := by
    intro i h1 h2
    simp only [workItems] at h1
    split at h1 <;> omega
  have key := fun {grp : Fin (workItems .cuda d) → Nat} {k c} (hs' : Steps grp ⟨fun t => elementKernel .cuda s dst (f.body src) t, M⟩ k c)
    (hst : Stuck grp c) => threads_sound (E := fun _ i => E i) (workItems_le (be := .cuda) hn) (fun i h1 h2 => hd i (hw i h1 h2))
      (fun b i hb hi => by rw [f.reads hb]; exact hE i hi) hs' hst
  cases h with
  | refused h00 hr ha => simp only [launched] at h00; omega
  | ignored h00 hr ha => simp only [launched] at h00; omega
  | ok h00 hs' hst hdn =>
    obtain ⟨-, h2, h3⟩ := key hs' hst
    refine ⟨_, rfl, fun i hi hi' => ?_, fun x hx => h3 x fun i h1 h2 => hx i (hw i h1 h2) h2⟩
    rw [h2 i (Nat.lt_of_lt_of_le hi workItems_ge) hi', f.body_eval]
  | wrong h00 hs' hst hdn => exact absurd (key hs' hst).1 hdn

/-- **C142** fails on CUDA for every smaller destination of more than 512 elements that does not fill its last block: the threads of the
last block write past its end. -/
theorem C142_cuda_smaller_false {asserts refuses : Bool} {d s dst src : Nat} {f : Pass V} {M : Mem Cell V} {o : Out (Mem Cell V)}
    (hn : s ≤ 2 ^ 32) (hs : d < s) (h5 : 512 < d) (hm : d % 512 ≠ 0) (hd : Sized M dst d)
    (h : Activate .cuda asserts refuses d s dst src f M o) : o = .ub := by
  cases h with
  | refused h00 hr ha => simp only [launched] at h00; omega
  | ignored h00 hr ha => simp only [launched] at h00; omega
  | ok h00 hs' hst hdn =>
    have hm' : M (dst, d) = none := by
      cases e : M (dst, d) with
      | none => rfl
      | some v => exact absurd ((hd d).1 ⟨v, e⟩) (Nat.lt_irrefl _)
    have hw : d < workItems .cuda d := by simp only [workItems]; split <;> omega
    have := (mustWrite_steps (t := ⟨d, hw⟩) (l := (dst, d)) (by
      show (elementKernel .cuda s dst (f.body src) d).MustWrite _
      rw [elementKernel_in (be := .cuda) hn hs]; exact body_mustWrite _) hm' hs').1
    rw [hdn] at this
    exact this.elim
  | wrong => rfl

/-- **C142**: empty arrays are refused with assertions on devices that refuse launches of no work items. -/
theorem C142_empty_false {be : Backend} {dst src : Nat} {f : Pass V} {M : Mem Cell V} {o : Out (Mem Cell V)}
    (h : Activate be true true 0 0 dst src f M o) : o = .throw .runtimeError := by
  have e : launched be 0 0 = 0 := by cases be <;> rfl
  cases h with
  | refused => rfl
  | ignored h00 hr ha => cases ha
  | ok h00 => exact absurd (h00 e) (by decide)
  | wrong h00 => exact absurd (h00 e) (by decide)

/-- An outcome exists: the statements above are not empty. -/
theorem activate_exists (be : Backend) (asserts refuses : Bool) (d s dst src : Nat) (f : Pass V) (M : Mem Cell V) :
    ∃ o, Activate be asserts refuses d s dst src f M o := by
  by_cases h0 : launched be d s = 0 → refuses = false
  · have hb : (f.body src).AtMost 2 := by cases f <;> simp [Pass.body, unBody, Body.AtMost]
    obtain ⟨k, c, hs, hst⟩ := exists_complete (grp := fun _ : Fin (workItems be (launched be d s)) => 0)
      (c := ⟨fun t => elementKernel be s dst (f.body src) t, M⟩) (List.finRange _) List.mem_finRange (fun _ => 2 + 1) fun t =>
        elementKernel_atMost hb
    by_cases hd : Done c
    · exact ⟨_, .ok h0 hs hst hd⟩
    · exact ⟨_, .wrong h0 hs hst hd⟩
  · push Not at h0
    obtain ⟨h0, hr⟩ := h0
    have hr : refuses = true := by cases refuses <;> simp_all
    cases asserts with
    | true => exact ⟨_, .refused h0 hr rfl⟩
    | false => exact ⟨_, .ignored h0 hr rfl⟩

/-- The source has two elements, the destination one. -/
theorem C142_false : ¬ C142Claim := by
  intro h
  let M : Mem Cell ℤ := fun x => if x.2 < x.1 then some 5 else none
  have sz : ∀ b, Sized M b b := by
    intro b i
    simp only [M]
    constructor
    · rintro ⟨v, hv⟩
      by_contra hc
      simp [hc] at hv
    · intro hi
      exact ⟨5, by simp [hi]⟩
  obtain ⟨o, ho⟩ := activate_exists .opencl false false 1 2 1 2 (Pass.forward (· + 1)) M
  obtain ⟨M', e, -⟩ := h .opencl false false 1 2 1 2 (.forward (· + 1)) M (fun _ => 5) o (by decide) (sz 1) (sz 2)
    (fun i hi => by simp [M, hi]) ho
  rw [C142_opencl_smaller_false (by decide) (by decide) (sz 1) ho] at e
  cases e

/-- In place, with three elements. -/
example : ∃ o M', Activate .cuda true true 3 3 0 0 (Pass.forward (fun x : ℤ => x + 1)) (fun _ => some 5) o ∧ o = .ok M' ∧
    M' (0, 2) = some 6 := by
  obtain ⟨o, ho⟩ := activate_exists .cuda true true 3 3 0 0 (Pass.forward (fun x : ℤ => x + 1)) (fun _ => some 5)
  obtain ⟨M', e, h, -⟩ := C142_equal_partial (E := fun _ => 5) (by decide) (.inl (by decide)) (fun _ _ => by simp) (fun _ _ => rfl) ho
  exact ⟨o, M', ho, e, h 2 (by decide)⟩

/-- A destination of 600 elements and a source of 601. -/
example : (601 ≤ 2 ^ 32 ∧ 600 < 601 ∧ 512 < 600 ∧ 600 % 512 ≠ 0) ∧ Sized (fun x : Cell => if x.2 < 600 then some (1 : ℤ) else none) 0 600 := by
  refine ⟨by decide, fun i => ?_⟩
  by_cases h : i < 600 <;> simp [h]

end Verif.Gpu
