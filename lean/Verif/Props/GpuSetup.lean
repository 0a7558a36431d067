import Verif.Model.GpuSetup
import Mathlib.Tactic.Linarith

/-!
# C102, C103: loading of kernels, choice of a device
-/

namespace Verif.GpuSetup

/-! ### Kernels -/

/-- The file a kernel is to be read from: `path` below the directory of kernels, or the path itself. -/
def fileOf (src path : String) (relative : Bool) : String :=
  if relative then src ++ "/include/librapid/cuda/kernels/" ++ "/" ++ path ++ ".cu" else path ++ ".cu"

/-- The texts that have to be in front of each kernel. -/
def headers (src : String) : List String :=
  [src ++ "/include/librapid/cuda/kernels/" ++ "/kernelHelper.cuh", src ++ "/include/librapid/cuda/kernels/" ++ "/vectorOps.cuh",
   src ++ "/include/librapid/autodiff/dual.hpp"]

/-- The text of a file that is there. -/
def textOf (fs : Fs) (p : String) : String := ((fs p).map File.text).getD ""

/-- The text to be compiled for a kernel. -/
def wanted (src : String) (fs : Fs) (path : String) (relative : Bool) : String :=
  path ++ "\n" ++ (headers src).foldr (fun p s => textOf fs p ++ ("\n\n" ++ s)) (textOf fs (fileOf src path relative))

/-- A file that is there, is not empty and may be written to. -/
def Good (fs : Fs) (p : String) : Prop := ∃ t, fs p = some ⟨t, true⟩ ∧ t ≠ ""

/-- C102: each load returns the text of the headers and of the kernel asked for. -/
def C102Claim : Prop :=
  ∀ (asserts : Bool) (src : String) (fs : Fs) (l : List (String × Bool)), (∀ p ∈ headers src, Good fs p) →
    (∀ q ∈ l, Good fs (fileOf src q.1 q.2)) → loadAll asserts src fs (fun _ => none) l = .ok (l.map fun q => wanted src fs q.1 q.2)

theorem openRW_good {fs : Fs} {p : String} (h : Good fs p) : openRW fs p = some (textOf fs p) ∧ textOf fs p ≠ "" := by
  obtain ⟨t, h, ht⟩ := h
  simp [openRW, textOf, h, ht]

theorem kernelPath_eq (src path : String) (relative : Bool) : kernelPath src path relative = fileOf src path relative := by
  cases relative <;> simp [kernelPath, fileOf, basePath]

theorem load_fresh {asserts : Bool} {src : String} {fs : Fs} {cache : Cache} {path : String} {relative : Bool}
    (hh : ∀ p ∈ headers src, Good fs p) (hk : Good fs (fileOf src path relative)) (hc : cache path = none) :
    loadKernel asserts src fs cache path relative =
      .ok (wanted src fs path relative, fun p => if p = path then some (wanted src fs path relative) else cache p) := by
  obtain ⟨a1, a2⟩ := openRW_good (hh (src ++ "/include/librapid/cuda/kernels/" ++ "/kernelHelper.cuh") (by simp [headers]))
  obtain ⟨b1, b2⟩ := openRW_good (hh (src ++ "/include/librapid/cuda/kernels/" ++ "/vectorOps.cuh") (by simp [headers]))
  obtain ⟨c1, c2⟩ := openRW_good (hh (src ++ "/include/librapid/autodiff/dual.hpp") (by simp [headers]))
  obtain ⟨d1, d2⟩ := openRW_good hk
  unfold loadKernel
  rw [hc]
  simp only [basePath, kernelPath_eq, a1, b1, c1, d1, Option.isSome_some, Out.assert, Bool.not_true, Bool.and_false,
    Bool.false_eq_true, if_false, Out.ok_bind, Buf.putFile, Buf.put, a2, b2, c2, d2, if_true, wanted, headers, List.foldr_cons,
    List.foldr_nil, String.empty_append]
  generalize textOf fs (src ++ "/include/librapid/cuda/kernels/" ++ "/kernelHelper.cuh") = A
  generalize textOf fs (src ++ "/include/librapid/cuda/kernels/" ++ "/vectorOps.cuh") = B
  generalize textOf fs (src ++ "/include/librapid/autodiff/dual.hpp") = C
  simp only [String.append_assoc]

/-- **C102** (partial) Each load returns the right text if every path is always used with the same `relative`, and all files may be
written to. The full statement is `C102Claim` (and `C102ReadClaim`). -/
theorem C102_load_partial (asserts : Bool) (src : String) (fs : Fs) (l : List (String × Bool)) (hh : ∀ p ∈ headers src, Good fs p)
    (hk : ∀ q ∈ l, Good fs (fileOf src q.1 q.2)) (hs : ∀ q ∈ l, ∀ q' ∈ l, q.1 = q'.1 → q.2 = q'.2) :
    loadAll asserts src fs (fun _ => none) l = .ok (l.map fun q => wanted src fs q.1 q.2) := by
  suffices H : ∀ cache : Cache, (∀ q ∈ l, ∀ s, cache q.1 = some s → s = wanted src fs q.1 q.2) →
      loadAll asserts src fs cache l = .ok (l.map fun q => wanted src fs q.1 q.2) from H _ (by simp)
  induction l with
  | nil => intro cache _; rfl
  | cons q l ih =>
    intro cache hc
    have ih' := ih (fun q hq => hk q (List.mem_cons_of_mem _ hq))
      (fun a ha b hb => hs a (List.mem_cons_of_mem _ ha) b (List.mem_cons_of_mem _ hb))
    obtain ⟨path, relative⟩ := q
    have hq : ∃ cache', loadKernel asserts src fs cache path relative = .ok (wanted src fs path relative, cache') ∧
        ∀ q ∈ l, ∀ s, cache' q.1 = some s → s = wanted src fs q.1 q.2 := by
      cases e : cache path with
      | some s =>
        refine ⟨cache, ?_, fun q hq => hc q (List.mem_cons_of_mem _ hq)⟩
        rw [← hc _ List.mem_cons_self s e]
        simp [loadKernel, e]
      | none =>
        refine ⟨_, load_fresh hh (hk _ List.mem_cons_self) e, fun q hq s hs' => ?_⟩
        by_cases ep : q.1 = path
        · rw [if_pos ep] at hs'
          have := hs q (List.mem_cons_of_mem _ hq) (path, relative) List.mem_cons_self ep
          rw [ep, this]
          exact (Option.some.inj hs').symm
        · rw [if_neg ep] at hs'
          exact hc q (List.mem_cons_of_mem _ hq) s hs'
    obtain ⟨cache', h1, h2⟩ := hq
    simp only [loadAll, h1, Out.ok_bind, ih' cache' h2, List.map_cons]

/-- Every file has its path as text. -/
def exFs : Fs := fun p => some ⟨p, true⟩

theorem exGood (p : String) (h : p ≠ "") : Good exFs p := ⟨p, rfl, h⟩

/-- **C102** is false: the cache does not tell the kernel `k` of the library from the file `k.cu`. -/
theorem C102_false : ¬C102Claim := by
  intro h
  have e := h true "" exFs [("k", true), ("k", false)] (by
    intro p hp
    simp only [headers, List.mem_cons, List.not_mem_nil, or_false] at hp
    rcases hp with rfl | rfl | rfl <;> exact exGood _ (by decide)) (by
    intro q hq
    simp only [List.mem_cons, List.not_mem_nil, or_false] at hq
    rcases hq with rfl | rfl <;> exact exGood _ (by decide))
  revert e
  decide +kernel

/-- The hypotheses of `C102_load_partial` hold for three loads of two kernels. -/
example : (∀ p ∈ headers "/s", Good exFs p) ∧ (∀ q ∈ [("a", true), ("/s/b", false), ("a", true)], Good exFs (fileOf "/s" q.1 q.2)) ∧
    ∀ q ∈ [("a", true), ("/s/b", false), ("a", true)], ∀ q' ∈ [("a", true), ("/s/b", false), ("a", true)], q.1 = q'.1 → q.2 = q'.2 := by
  refine ⟨?_, ?_, by decide⟩
  · intro p hp
    simp only [headers, List.mem_cons, List.not_mem_nil, or_false] at hp
    rcases hp with rfl | rfl | rfl <;> exact exGood _ (by decide)
  · intro q hq
    simp only [List.mem_cons, List.not_mem_nil, or_false] at hq
    rcases hq with rfl | rfl | rfl <;> exact exGood _ (by decide)

/-- C102 for files that can only be read. -/
def C102ReadClaim : Prop :=
  ∀ (asserts : Bool) (src : String) (fs : Fs) (path : String) (relative : Bool), (∀ p ∈ headers src, textOf fs p ≠ "") →
    textOf fs (fileOf src path relative) ≠ "" → loadAll asserts src fs (fun _ => none) [(path, relative)] = .ok [wanted src fs path relative]

/-- **C102** is false for a library of which the files may not be written to: they are opened for reading and writing. -/
theorem C102_read_false : ¬C102ReadClaim := by
  intro h
  have e := h true "" (fun p => some ⟨p, false⟩) "k" true (by
    intro p hp
    simp only [headers, List.mem_cons, List.not_mem_nil, or_false] at hp
    rcases hp with rfl | rfl | rfl <;> decide) (by decide)
  revert e
  decide +kernel

/-- **C102** With assertions a kernel that cannot be opened is reported. -/
theorem C102_missing {src : String} {fs : Fs} {cache : Cache} {path : String} {relative : Bool}
    (hk : fs (fileOf src path relative) = none) (hc : cache path = none) :
    loadKernel true src fs cache path relative = .throw .assertion := by
  have e : openRW fs (fileOf src path relative) = none := by simp [openRW, hk]
  unfold loadKernel
  rw [hc, kernelPath_eq, e]
  cases h1 : openRW fs (basePath src ++ "/kernelHelper.cuh") <;> cases h2 : openRW fs (basePath src ++ "/vectorOps.cuh") <;>
    cases h3 : openRW fs (src ++ "/include/librapid/autodiff/dual.hpp") <;> simp [Out.assert, h1, h2, h3]

/-- **C102** Without assertions it is left out, and this text is returned ever after, also if the file is there then. -/
theorem C102_missing_cached {src : String} {fs fs' : Fs} {cache : Cache} {path : String} {relative relative' asserts : Bool}
    (hh : ∀ p ∈ headers src, Good fs p) (hk : fs (fileOf src path relative) = none) (hc : cache path = none) :
    ∃ cache', loadKernel false src fs cache path relative = .ok (wanted src fs path relative, cache') ∧
      loadKernel asserts src fs' cache' path relative' = .ok (wanted src fs path relative, cache') := by
  obtain ⟨a1, a2⟩ := openRW_good (hh (src ++ "/include/librapid/cuda/kernels/" ++ "/kernelHelper.cuh") (by simp [headers]))
  obtain ⟨b1, b2⟩ := openRW_good (hh (src ++ "/include/librapid/cuda/kernels/" ++ "/vectorOps.cuh") (by simp [headers]))
  obtain ⟨c1, c2⟩ := openRW_good (hh (src ++ "/include/librapid/autodiff/dual.hpp") (by simp [headers]))
  have d1 : openRW fs (fileOf src path relative) = none := by simp [openRW, hk]
  have d2 : textOf fs (fileOf src path relative) = "" := by simp [textOf, hk]
  refine ⟨fun p => if p = path then some (wanted src fs path relative) else cache p, ?_, by simp [loadKernel]⟩
  unfold loadKernel
  rw [hc]
  simp only [basePath, kernelPath_eq, a1, b1, c1, d1, Out.assert, Bool.false_and,
    Bool.false_eq_true, if_false, Out.ok_bind, Buf.putFile, Buf.put, a2, b2, c2, if_true, wanted, headers, List.foldr_cons,
    List.foldr_nil, String.empty_append, d2, String.append_empty]
  generalize textOf fs (src ++ "/include/librapid/cuda/kernels/" ++ "/kernelHelper.cuh") = A
  generalize textOf fs (src ++ "/include/librapid/cuda/kernels/" ++ "/vectorOps.cuh") = B
  generalize textOf fs (src ++ "/include/librapid/autodiff/dual.hpp") = C
  simp only [String.append_assoc]

/-! ### Devices -/

/-- C103: of any list of devices, one with the greatest score is chosen. -/
def C103Claim : Prop :=
  ∀ (asserts : Bool) (l : List Dev), l ≠ [] → ∃ d ∈ l, findFastest asserts l = .ok (some d) ∧ ∀ d' ∈ l, compute d' ≤ compute d

theorem fold_fast (l : List Dev) (o : Option Dev) (b : Int) :
    (l.foldl fastStep (o, b) = (o, b) ∧ ∀ d ∈ l, compute d ≤ b) ∨
      ∃ p d r, l = p ++ d :: r ∧ l.foldl fastStep (o, b) = (some d, compute d) ∧ b < compute d ∧ (∀ d' ∈ p, compute d' < compute d) ∧
        ∀ d' ∈ r, compute d' ≤ compute d := by
  induction l generalizing o b with
  | nil => left; simp
  | cons x l ih =>
    rw [List.foldl_cons]
    by_cases h : compute x > b
    · rw [show fastStep (o, b) x = (some x, compute x) by simp [fastStep, h]]
      rcases ih (some x) (compute x) with ⟨h1, h2⟩ | ⟨p, d, r, h1, h2, h3, h4, h5⟩
      · right
        exact ⟨[], x, l, rfl, h1, h, by simp, h2⟩
      · right
        refine ⟨x :: p, d, r, by rw [h1]; rfl, h2, by omega, ?_, h5⟩
        intro d' hd'
        rcases List.mem_cons.1 hd' with rfl | hd'
        · exact h3
        · exact h4 d' hd'
    · rw [show fastStep (o, b) x = (o, b) by simp [fastStep, h]]
      rcases ih o b with ⟨h1, h2⟩ | ⟨p, d, r, h1, h2, h3, h4, h5⟩
      · left
        refine ⟨h1, fun d' hd' => ?_⟩
        rcases List.mem_cons.1 hd' with rfl | hd'
        · omega
        · exact h2 d' hd'
      · right
        refine ⟨x :: p, d, r, by rw [h1]; rfl, h2, h3, ?_, h5⟩
        intro d' hd'
        rcases List.mem_cons.1 hd' with rfl | hd'
        · omega
        · exact h4 d' hd'

/-- **C103** (partial) If some device has a positive score, the first of those with the greatest score is chosen. -/
theorem C103_fastest_partial (asserts : Bool) (l : List Dev) (h : ∃ d ∈ l, 0 < compute d) :
    ∃ p d r, l = p ++ d :: r ∧ findFastest asserts l = .ok (some d) ∧ (∀ d' ∈ p, compute d' < compute d) ∧
      ∀ d' ∈ r, compute d' ≤ compute d := by
  obtain ⟨d0, hd0, hp⟩ := h
  rcases fold_fast l none 0 with ⟨-, h2⟩ | ⟨p, d, r, h1, h2, -, h4, h5⟩
  · have := h2 d0 hd0
    omega
  · refine ⟨p, d, r, h1, ?_, h4, h5⟩
    have : l.isEmpty = false := by rw [h1]; simp
    simp [findFastest, Out.assert, this, h2]

/-- **C103** A graphics processor always has a positive score. -/
theorem C103_gpu {d : Dev} (h : d.gpu = true) : 0 < compute d := by
  unfold compute
  rw [h]
  have : (0 : Int) ≤ if d.nvidia = true then (1000000 : Int) else 0 := by split <;> decide
  simp only [if_true]
  omega

/-- **C103** is false: a device that reports nothing is not chosen even if it is the only one; the result is no device. -/
theorem C103_false : ¬C103Claim := by
  intro h
  obtain ⟨d, -, h1, -⟩ := h true [⟨0, 0, 0, false, false⟩] (by simp)
  revert h1
  simp [findFastest, Out.assert, fastStep, compute]

/-- **C103** With assertions an empty list is reported. -/
theorem C103_empty : findFastest true [] = .throw .assertion := rfl

/-- C103 for the product of units and frequency: of two devices equal otherwise, the one with the greater product has the greater score. -/
def C103MonoClaim : Prop :=
  ∀ d d' : Dev, d.units < 2 ^ 32 → d.freq < 2 ^ 32 → d'.units < 2 ^ 32 → d'.freq < 2 ^ 32 → d.mem = d'.mem → d.gpu = d'.gpu →
    d.nvidia = d'.nvidia → d.units * d.freq < d'.units * d'.freq → compute d < compute d'

/-- **C103** is false for the products that do not fit in 32 bits. -/
theorem C103_mono_false : ¬C103MonoClaim := by
  intro h
  have := h ⟨1, 1, 0, true, true⟩ ⟨65536, 65536, 0, true, true⟩ (by decide) (by decide) (by decide) (by decide) rfl rfl rfl (by decide)
  revert this
  decide

/-- **C103** (partial) It is true for those that do. -/
theorem C103_mono_partial {d d' : Dev} (hb : d'.units * d'.freq < 2 ^ 32) (h1 : d.mem = d'.mem) (h2 : d.gpu = d'.gpu)
    (h3 : d.nvidia = d'.nvidia) (h : d.units * d.freq < d'.units * d'.freq) : compute d < compute d' := by
  unfold compute
  rw [h1, h2, h3, Nat.mod_eq_of_lt hb, Nat.mod_eq_of_lt (h.trans hb)]
  omega

example : findFastest true [⟨8, 3000, 2 ^ 34, false, false⟩, ⟨30, 1500, 2 ^ 33, true, false⟩, ⟨30, 1500, 2 ^ 33, true, false⟩] =
    .ok (some ⟨30, 1500, 2 ^ 33, true, false⟩) := by decide +kernel

end Verif.GpuSetup
