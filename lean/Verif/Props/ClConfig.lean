import Verif.Model.ClConfig
import Verif.Props.GpuSetup
import Mathlib.Tactic.Linarith
import Mathlib.Data.List.SplitOn

/-!
# C126, C127: configuring OpenCL
-/

namespace Verif.ClConfig

open Verif.GpuSetup

/-! ### The answer of the user -/

/-- The number a word denotes: digits, possibly after a sign. -/
def number : List Char → Option Int
  | '-' :: ds => if ds ≠ [] ∧ ds.all isDigit then some (-(value ds)) else none
  | '+' :: ds => if ds ≠ [] ∧ ds.all isDigit then some (value ds) else none
  | ds => if ds ≠ [] ∧ ds.all isDigit then some (value ds) else none

/-- The words of a text. -/
def words (l : List Char) : List (List Char) := (l.splitOnP isSpace).filter (fun w => !w.isEmpty)

/-- The device the user wants: the first word that is the number of a device. -/
def wanted (n : Nat) (l : List Char) : Option Int :=
  (words l).findSome? fun w => (number w).bind fun v => if 0 ≤ v ∧ v < n then some v else none

/-- C126: the loop ends with the device the user wants. -/
def C126Claim : Prop :=
  ∀ (n : Nat) (l : List Char) (k : Int), wanted n l = some k → ∃ fuel s, select n fuel ⟨l, true⟩ (-1) = some (k, s)

/-- Of two devices, "x 1" picks the first. -/
theorem C126_false : ¬ C126Claim := by
  intro h
  obtain ⟨fuel, s, h⟩ := h 2 ['x', ' ', '1'] 1 (by decide +kernel)
  match fuel with
  | 0 => simp [select] at h
  | 1 => simp [select] at h
  | f + 2 =>
    have e : extract ⟨['x', ' ', '1'], true⟩ (-1) = (0, ⟨['x', ' ', '1'], false⟩) := by decide +kernel
    simp [select, e] at h

theorem takeWhile_digits {ds rest : List Char} (h : ds.all isDigit = true) (hr : ∀ c ∈ rest.head?, isDigit c = false) :
    (ds ++ rest).takeWhile isDigit = ds ∧ (ds ++ rest).dropWhile isDigit = rest := by
  induction ds with
  | nil =>
    cases rest with
    | nil => simp
    | cons c cs => have := hr c (by simp); simp [this]
  | cons d ds ih =>
    simp only [List.all_cons, Bool.and_eq_true] at h
    obtain ⟨a, b⟩ := ih h.2
    simp [h.1, a, b]

theorem dropWhile_spaces {ws l : List Char} (h : ws.all isSpace = true) (hl : ∀ c ∈ l.head?, isSpace c = false) :
    (ws ++ l).dropWhile isSpace = l := by
  induction ws with
  | nil =>
    cases l with
    | nil => simp
    | cons c cs => have := hl c (by simp); simp [this]
  | cons d ds ih =>
    simp only [List.all_cons, Bool.and_eq_true] at h
    simp [h.1, ih h.2]

theorem digit_not_space {c : Char} (h : isDigit c = true) : isSpace c = false ∧ c ≠ '-' ∧ c ≠ '+' := by
  simp only [isDigit, Bool.and_eq_true, decide_eq_true_eq] at h
  have h0 : '0'.toNat = 48 := rfl
  have h9 : '9'.toNat = 57 := rfl
  rw [h0, h9] at h
  have key : ∀ d : Char, d.toNat < 48 → c ≠ d := by
    intro d hd hc
    subst hc
    omega
  refine ⟨?_, key '-' (by decide), key '+' (by decide)⟩
  simp only [isSpace, Bool.or_eq_false_iff, decide_eq_false_iff_not]
  exact ⟨⟨⟨⟨⟨key _ (by decide), key _ (by decide)⟩, key _ (by decide)⟩, key _ (by decide)⟩, key _ (by decide)⟩, key _ (by decide)⟩

theorem convert_ok {neg : Bool} {ds rest : List Char} {v : Int} (hd : ds ≠ []) (hv : (if neg then -(value ds : Int) else value ds) = v)
    (h1 : minInt64 ≤ v) (h2 : v ≤ maxInt64) : convert neg ds rest = (v, ⟨rest, !rest.isEmpty⟩) := by
  unfold convert
  simp only [hd, if_false, hv]
  rw [if_neg (by omega), if_neg (by omega)]

/-- A number in front of something else is read, and nothing more. -/
theorem extract_number {ws w rest : List Char} {v old : Int} (hw : ws.all isSpace = true) (hn : number w = some v)
    (hr : ∀ c ∈ rest.head?, isDigit c = false) (h1 : minInt64 ≤ v) (h2 : v ≤ maxInt64) :
    extract ⟨ws ++ (w ++ rest), true⟩ old = (v, ⟨rest, !rest.isEmpty⟩) := by
  unfold number at hn
  split at hn
  · rename_i ds
    split at hn
    · rename_i h
      obtain ⟨a, b⟩ := takeWhile_digits h.2 hr
      have hv : -(value ds : Int) = v := by simpa using hn
      have hs : (ws ++ ('-' :: ds ++ rest)).dropWhile isSpace = '-' :: (ds ++ rest) :=
        dropWhile_spaces hw (by intro c hc; simp at hc; subst hc; rfl)
      simp only [extract, if_true, hs, a, b]
      exact convert_ok h.1 (by simpa using hv) h1 h2
    · simp at hn
  · rename_i ds
    split at hn
    · rename_i h
      obtain ⟨a, b⟩ := takeWhile_digits h.2 hr
      have hv : (value ds : Int) = v := by simpa using hn
      have hs : (ws ++ ('+' :: ds ++ rest)).dropWhile isSpace = '+' :: (ds ++ rest) :=
        dropWhile_spaces hw (by intro c hc; simp at hc; subst hc; rfl)
      simp only [extract, if_true, hs, a, b]
      rw [if_neg (by decide)]
      exact convert_ok h.1 (by simpa using hv) h1 h2
    · simp at hn
  · split at hn
    · rename_i h
      have hv : (value w : Int) = v := by simpa using hn
      cases w with
      | nil => exact absurd rfl h.1
      | cons d ds =>
        have hd : isDigit d = true := by have := h.2; simp at this; exact this.1
        obtain ⟨a, b⟩ := takeWhile_digits h.2 hr
        obtain ⟨s1, s2, s3⟩ := digit_not_space hd
        have hs : (ws ++ (d :: ds ++ rest)).dropWhile isSpace = d :: (ds ++ rest) :=
          dropWhile_spaces hw (by intro c hc; simp at hc; subst hc; exact s1)
        simp only [List.cons_append] at a b
        simp only [extract, if_true, hs, s2, s3, if_false, a, b]
        exact convert_ok h.1 (by simpa using hv) h1 h2
    · simp at hn

/-- An answer that is a number of 64 bits but not that of one of `n` devices, with white space in front. -/
def Refused (n : Nat) (p : List Char × List Char) : Prop :=
  p.1 ≠ [] ∧ p.1.all isSpace = true ∧ ∃ v, number p.2 = some v ∧ minInt64 ≤ v ∧ v ≤ maxInt64 ∧ (v < 0 ∨ v ≥ n)

/-- The text of a list of answers. -/
def text (l : List (List Char × List Char)) : List Char := l.flatMap fun p => p.1 ++ p.2

theorem space_not_digit {c : Char} (h : isSpace c = true) : isDigit c = false := by
  cases hd : isDigit c with
  | false => rfl
  | true => rw [(digit_not_space hd).1] at h; exact absurd h (by decide)

theorem head_of_spaces {ws l : List Char} (h0 : ws ≠ []) (h : ws.all isSpace = true) : ∀ c ∈ (ws ++ l).head?, isDigit c = false := by
  cases ws with
  | nil => exact absurd rfl h0
  | cons d ds =>
    intro c hc
    simp at hc h
    subst hc
    exact space_not_digit h.1

/-- One refused answer costs one pass of the loop. -/
theorem select_refused {n : Nat} {p : List Char × List Char} {rest : List Char} {old : Int} {fuel : Nat} (hp : Refused n p)
    (hr : ∀ c ∈ rest.head?, isDigit c = false) (ho : old < 0 ∨ old ≥ n) :
    ∃ v : Int, (v < 0 ∨ v ≥ n) ∧
      select n (fuel + 1) ⟨p.1 ++ p.2 ++ rest, true⟩ old = select n fuel ⟨rest, !rest.isEmpty⟩ v := by
  obtain ⟨_, hw, v, hn, h1, h2, hv⟩ := hp
  refine ⟨v, hv, ?_⟩
  rw [select, if_pos ho, List.append_assoc, extract_number hw hn hr h1 h2]

/-- C126 (partial: every answer before is a number of 64 bits): after any number of numbers that are not those of a device, the first number of a
device picks this device. -/
theorem C126_partial (n : Nat) (pre : List (List Char × List Char)) (ws w rest : List Char) (k : Int) (hpre : ∀ p ∈ pre, Refused n p)
    (hw0 : ws ≠ []) (hw : ws.all isSpace = true) (hk : number w = some k) (h0 : 0 ≤ k) (hn : k < n) (hmax : k ≤ maxInt64)
    (hr : ∀ c ∈ rest.head?, isDigit c = false) (fuel : Nat) :
    select n (pre.length + 2 + fuel) ⟨text pre ++ (ws ++ (w ++ rest)), true⟩ (-1) = some (k, ⟨rest, !rest.isEmpty⟩) := by
  have key : ∀ (pre : List (List Char × List Char)) (old : Int), (∀ p ∈ pre, Refused n p) → (old < 0 ∨ old ≥ n) →
      select n (pre.length + 2 + fuel) ⟨text pre ++ (ws ++ (w ++ rest)), true⟩ old = some (k, ⟨rest, !rest.isEmpty⟩) := by
    intro pre
    induction pre with
    | nil =>
      intro old _ ho
      have e : ([] : List (List Char × List Char)).length + 2 + fuel = (fuel + 1) + 1 := by simp; omega
      rw [e, select, if_pos ho]
      simp only [text, List.flatMap_nil, List.nil_append]
      rw [extract_number hw hk hr (by unfold minInt64; omega) hmax]
      simp only
      rw [select, if_neg (by omega)]
    | cons p pre ih =>
      intro old hp ho
      have hne : ∀ c ∈ (text pre ++ (ws ++ (w ++ rest))).head?, isDigit c = false := by
        cases pre with
        | nil => simpa [text] using head_of_spaces (l := w ++ rest) hw0 hw
        | cons q qs =>
          obtain ⟨q0, q1, _⟩ := hp q (by simp)
          have e : text (q :: qs) ++ (ws ++ (w ++ rest)) = q.1 ++ (q.2 ++ (text qs ++ (ws ++ (w ++ rest)))) := by simp [text]
          rw [e]
          exact head_of_spaces q0 q1
      have hg : (text pre ++ (ws ++ (w ++ rest))).isEmpty = false := by
        cases ws with
        | nil => exact absurd rfl hw0
        | cons => simp
      have e : text (p :: pre) ++ (ws ++ (w ++ rest)) = p.1 ++ p.2 ++ (text pre ++ (ws ++ (w ++ rest))) := by simp [text]
      have e2 : (p :: pre).length + 2 + fuel = (pre.length + 2 + fuel) + 1 := by simp; omega
      obtain ⟨v, hv, hs⟩ := select_refused (fuel := pre.length + 2 + fuel) (hp p (by simp)) hne ho
      rw [e, e2, hs, hg]
      exact ih v (fun q hq => hp q (by simp [hq])) hv
  exact key pre (-1) hpre (by omega)

/-- Three devices; the answers 7 and -1 are refused, then 2 is taken. -/
example : ∃ s, select 3 4 ⟨" 7\n -1\n 2\n".toList, true⟩ (-1) = some (2, s) := ⟨⟨['\n'], true⟩, by
  have := C126_partial 3 [([' '], ['7']), (['\n', ' '], ['-', '1'])] ['\n', ' '] ['2'] ['\n'] 2
    (by
      intro p hp
      simp only [List.mem_cons, List.not_mem_nil, or_false] at hp
      rcases hp with rfl | rfl
      · exact ⟨by simp, by decide, 7, by decide, by decide, by decide, by decide⟩
      · exact ⟨by simp, by decide, -1, by decide, by decide, by decide, by decide⟩)
    (by simp) (by decide) (by decide) (by decide) (by decide) (by decide) (by intro c hc; simp at hc; subst hc; rfl) 0
  exact this⟩

/-- A stream that is not good any more leaves the loop where it is, for ever. -/
theorem select_stuck {n : Nat} {s : In} {i : Int} (hs : s.good = false) (hi : i < 0 ∨ i ≥ n) (fuel : Nat) : select n fuel s i = none := by
  induction fuel with
  | zero => rfl
  | succ f ih =>
    rw [select, if_pos hi]
    simp only [extract, hs, Bool.false_eq_true, if_false]
    exact ih

/-- C126: an input that ends before the number of a device has been read makes `configureOpenCL` loop for ever. -/
theorem C126_end_of_input (n : Nat) (pre : List (List Char × List Char)) (ws : List Char) (hpre : ∀ p ∈ pre, Refused n p)
    (hw : ws.all isSpace = true) (fuel : Nat) : select n fuel ⟨text pre ++ ws, true⟩ (-1) = none := by
  have key : ∀ (pre : List (List Char × List Char)) (old : Int) (g : Bool) (fuel : Nat), (∀ p ∈ pre, Refused n p) → (old < 0 ∨ old ≥ n) →
      select n fuel ⟨text pre ++ ws, g⟩ old = none := by
    intro pre
    induction pre with
    | nil =>
      intro old g fuel _ ho
      cases fuel with
      | zero => rfl
      | succ f =>
        cases g with
        | false => exact select_stuck rfl ho _
        | true =>
          have e : (ws ++ []).dropWhile isSpace = [] := dropWhile_spaces hw (by simp)
          rw [List.append_nil] at e
          rw [select, if_pos ho]
          simp only [text, List.flatMap_nil, List.nil_append, extract, if_true, e]
          exact select_stuck rfl ho _
    | cons p pre ih =>
      intro old g fuel hp ho
      cases fuel with
      | zero => rfl
      | succ f =>
        cases g with
        | false => exact select_stuck rfl ho _
        | true =>
          have hne : ∀ c ∈ (text pre ++ ws).head?, isDigit c = false := by
            cases pre with
            | nil =>
              cases ws with
              | nil => simp [text]
              | cons d ds => simpa [text] using head_of_spaces (l := []) (by simp) hw
            | cons q qs =>
              obtain ⟨q0, q1, _⟩ := hp q (by simp)
              have e : text (q :: qs) ++ ws = q.1 ++ (q.2 ++ (text qs ++ ws)) := by simp [text]
              rw [e]
              exact head_of_spaces q0 q1
          have e : text (p :: pre) ++ ws = p.1 ++ p.2 ++ (text pre ++ ws) := by simp [text]
          obtain ⟨v, hv, hs⟩ := select_refused (fuel := f) (hp p (by simp)) hne ho
          rw [e, hs]
          exact ih v _ f (fun q hq => hp q (by simp [hq])) hv
  exact key pre (-1) true fuel hpre (by omega)

/-- C126: without devices the loop never ends, whatever is entered. -/
theorem C126_no_devices (s : In) (i : Int) (fuel : Nat) : select 0 fuel s i = none := by
  induction fuel generalizing s i with
  | zero => rfl
  | succ f ih =>
    rw [select, if_pos (by omega)]
    exact ih _ _

/-- C126: an answer that starts with neither a digit nor a sign picks device 0. -/
theorem C126_not_a_number (n : Nat) (hn : 0 < n) (ws : List Char) (c : Char) (cs : List Char) (hw : ws.all isSpace = true)
    (hc : isSpace c = false) (hd : isDigit c = false) (h1 : c ≠ '-') (h2 : c ≠ '+') (fuel : Nat) :
    ∃ s, select n (fuel + 2) ⟨ws ++ c :: cs, true⟩ (-1) = some (0, s) := by
  have e : (ws ++ c :: cs).dropWhile isSpace = c :: cs := dropWhile_spaces hw (by intro d hd'; simp at hd'; subst hd'; exact hc)
  refine ⟨⟨c :: cs, false⟩, ?_⟩
  rw [select, if_pos (by omega)]
  simp only [extract, if_true, e, h1, h2, if_false, List.takeWhile_cons, List.dropWhile_cons, hd, Bool.false_eq_true, convert]
  rw [select, if_neg (by omega)]

example : ∃ s, select 5 2 ⟨"CPU\n3\n".toList, true⟩ (-1) = some (0, s) :=
  C126_not_a_number 5 (by decide) [] 'C' "PU\n3\n".toList (by decide) (by decide) (by decide) (by decide) (by decide) 0

/-- C126: after a number above 2^63 - 1 no further answer is read; the loop never ends. -/
theorem C126_too_large (n : Nat) (hn : (n : Int) ≤ maxInt64) (ws ds rest : List Char) (hw : ws.all isSpace = true) (hd0 : ds ≠ [])
    (hd : ds.all isDigit = true) (hv : (value ds : Int) > maxInt64) (hr : ∀ c ∈ rest.head?, isDigit c = false) (fuel : Nat) :
    select n fuel ⟨ws ++ (ds ++ rest), true⟩ (-1) = none := by
  cases fuel with
  | zero => rfl
  | succ f =>
    obtain ⟨a, b⟩ := takeWhile_digits hd hr
    cases ds with
    | nil => exact absurd rfl hd0
    | cons d ds =>
      have h0 : isDigit d = true := by simp at hd; exact hd.1
      obtain ⟨s1, s2, s3⟩ := digit_not_space h0
      have hs : (ws ++ (d :: ds ++ rest)).dropWhile isSpace = d :: (ds ++ rest) :=
        dropWhile_spaces hw (by intro c hc; simp at hc; subst hc; exact s1)
      simp only [List.cons_append] at a b
      rw [select, if_pos (by omega)]
      simp only [extract, if_true, hs, s2, s3, if_false, a, b, convert, hd0, Bool.false_eq_true, hv]
      exact select_stuck rfl (by right; exact hn) _

/-- 20 digits, and then a number that would do. -/
example (fuel : Nat) : select 2 fuel ⟨"99999999999999999999\n1\n".toList, true⟩ (-1) = none :=
  C126_too_large 2 (by decide) [] "99999999999999999999".toList "\n1\n".toList (by decide) (by decide) (by decide) (by decide)
    (by intro c hc; simp at hc; subst hc; rfl) fuel

/-! ### The program -/

/-- The texts of the kernel files of the library. -/
def library (env : Env) (src : String) : List String := (kernelFiles src).map fun p => (env.files p).getD "" ++ "\n\n\n"

theorem addFiles_eq (env : Env) (l : List String) (s : St) :
    l.foldl (fun s p => addFile env p s) s = { s with sources := s.sources ++ l.map fun p => (env.files p).getD "" ++ "\n\n\n" } := by
  induction l generalizing s with
  | nil => simp
  | cons p l ih =>
    rw [List.foldl_cons, ih]
    simp [addFile, addSource]

/-- What `prepare` does once there is a device. -/
theorem prepare_eq (env : Env) (src : String) (s : St) (d : Dev) :
    prepare env src s (some d) =
      if env.builds d (s.sources ++ library env src) then
        .ok { s with device := some d, sources := s.sources ++ library env src, program := s.sources ++ library env src, built := true,
                     configured := true }
      else .throw .runtimeError { s with device := some d, sources := s.sources ++ library env src,
                                         program := s.sources ++ library env src, built := false } := by
  unfold prepare compile
  rw [addFiles_eq]
  simp only [library]
  by_cases hb : env.builds d (s.sources ++ (kernelFiles src).map fun p => (env.files p).getD "" ++ "\n\n\n") = true
  · simp only [hb, if_true]
  · simp only [hb, Bool.false_eq_true, if_false]

/-- C127: a configured OpenCL has a program that is compiled and holds each kernel file once, and a configuration that failed can be tried again. -/
def C127Claim : Prop :=
  ∀ (asserts : Bool) (src : String) (l : List (Env × Call)) (s : St), steps asserts src l {} = some s →
    (s.configured = true → s.built = true) ∧
    (s.configured = false → ∀ env : Env, (env.platforms.flatten.filter (·.2)).map (·.1) ≠ [] →
      (∀ d, env.builds d (library env src) = true) → (∀ p ∈ env.platforms.flatten, compute p.1 > 0) →
      ∃ s', configure asserts env src none s = some (.ok s'))

/-- The devices that passed their test. -/
def working (env : Env) : List Dev := (env.platforms.flatten.filter (·.2)).map (·.1)

/-- C127 (partial: the first configuration, the device chosen by the library): it picks a working device with the greatest score, compiles the
sources added before and then each kernel file once, and succeeds exactly if the compiler does. -/
theorem C127_first_partial (asserts : Bool) (env : Env) (src : String) (s : St) (hc : s.configured = false) (hd : s.devices = [])
    (hw : ∃ d ∈ working env, 0 < compute d) :
    ∃ d ∈ working env, (∀ d' ∈ working env, compute d' ≤ compute d) ∧
      configure asserts env src none s = some (
        if env.builds d (s.sources ++ library env src) then
          .ok { devices := working env, device := some d, sources := s.sources ++ library env src,
                program := s.sources ++ library env src, built := true, configured := true }
        else .throw .runtimeError { devices := working env, device := some d, sources := s.sources ++ library env src,
                                    program := s.sources ++ library env src, built := false, configured := false }) := by
  obtain ⟨p, d, r, hl, hf, h1, h2⟩ := C103_fastest_partial asserts (working env) hw
  refine ⟨d, by rw [hl]; simp, ?_, ?_⟩
  · intro d' hd'
    rw [hl] at hd'
    simp only [List.mem_append, List.mem_cons] at hd'
    rcases hd' with h | h | h
    · exact (h1 d' h).le
    · rw [h]
    · exact h2 d' h
  · have hu : (updateDevices env s).devices = working env := by simp [updateDevices, working, hd]
    unfold configure
    simp only [hc, Bool.and_false, Bool.false_eq_true, if_false, pick, hu, hf]
    rw [prepare_eq]
    have hs : (updateDevices env s).sources = s.sources := rfl
    rw [hs, hu]
    simp only [updateDevices, hc]

/-- A GPU whose compiler takes the kernels. -/
def demoEnv : Env := ⟨[[(⟨8, 3000, 0, false, false⟩, true)], [(⟨30, 1500, 0, true, false⟩, true), (⟨99, 9999, 0, true, true⟩, false)]], fun _ => none,
  fun _ l => decide (l.length ≤ 13)⟩

example : ∃ s, configure true demoEnv "src" none {} = some (.ok s) ∧ s.device = some ⟨30, 1500, 0, true, false⟩ ∧ s.program.length = 13 := by
  refine ⟨{ devices := working demoEnv, device := some ⟨30, 1500, 0, true, false⟩, sources := library demoEnv "src",
            program := library demoEnv "src", built := true, configured := true }, ?_, rfl, rfl⟩
  obtain ⟨d, hd, hm, h⟩ := C127_first_partial true demoEnv "src" {} rfl rfl ⟨⟨8, 3000, 0, false, false⟩, by decide, by decide⟩
  have hd' : d = ⟨30, 1500, 0, true, false⟩ := by
    have h1 : working demoEnv = [⟨8, 3000, 0, false, false⟩, ⟨30, 1500, 0, true, false⟩] := by decide
    rw [h1] at hd hm
    simp only [List.mem_cons, List.not_mem_nil, or_false] at hd
    rcases hd with rfl | rfl
    · exact absurd (hm ⟨30, 1500, 0, true, false⟩ (by simp)) (by decide)
    · rfl
  subst hd'
  rw [h]
  have hb : demoEnv.builds ⟨30, 1500, 0, true, false⟩ (({} : St).sources ++ library demoEnv "src") = true := by
    simp [demoEnv, library, kernelFiles]
  rw [if_pos hb]
  simp

/-- The text of a kernel file is in the sources. -/
def Loaded (t : String) (s : St) : Prop := t ∈ s.sources

theorem steps_keep {asserts : Bool} {src : String} {t : String} : ∀ (l : List (Env × Call)) {s s' : St}, Loaded t s →
    steps asserts src l s = some s' → Loaded t s' := by
  have step_keep : ∀ {env : Env} {s s' : St} {c : Call}, Loaded t s → step asserts src env s c = some s' → Loaded t s' := by
    intro env s s' c ht h
    have comp : ∀ {s s' : St}, Loaded t s → (compile env s = .ok s' ∨ ∃ e, compile env s = .throw e s') → Loaded t s' := by
      intro s s' ht h
      unfold compile at h
      split at h
      · simp at h
      · simp only at h
        split at h
        · simp at h; rw [← h]; exact ht
        · simp at h; rw [← h]; exact ht
    cases c with
    | update => simp [step, updateDevices] at h; rw [← h]; exact ht
    | source x => simp [step, addSource] at h; rw [← h]; simp [Loaded] at *; exact Or.inl ht
    | file p => simp [step, addFile, addSource] at h; rw [← h]; simp [Loaded] at *; exact Or.inl ht
    | compile =>
      simp only [step] at h
      split at h
      · rename_i h'; simp at h; subst h; exact comp ht (Or.inl h')
      · rename_i e _ h'; simp at h; subst h; exact comp ht (Or.inr ⟨_, h'⟩)
      · simp at h
    | configure ask =>
      have hp : ∀ {d : Option Dev} {s s' : St}, Loaded t s →
          (prepare env src s d = .ok s' ∨ ∃ e, prepare env src s d = .throw e s') → Loaded t s' := by
        intro d s s' ht h
        cases d with
        | none => unfold prepare compile at h; rw [addFiles_eq] at h; simp at h
        | some d =>
          rw [prepare_eq] at h
          split at h
          · simp at h; rw [← h]; simp [Loaded] at *; exact Or.inl ht
          · simp at h; rw [← h]; simp [Loaded] at *; exact Or.inl ht
      have hu : Loaded t (updateDevices env s) := ht
      have hconf : ∀ r, configure asserts env src ask s = some r → ∀ s', (r = .ok s' ∨ ∃ e, r = .throw e s') → Loaded t s' := by
        intro r hr s' hs
        unfold configure at hr
        split at hr
        · simp at hr; subst hr; simp at hs; rw [← hs]; exact ht
        · split at hr
          · simp at hr
          · simp at hr; subst hr; simp at hs; rw [← hs]; exact hu
          · simp at hr; subst hr; simp at hs
          · rename_i d _
            simp at hr
            exact hp hu (by rw [hr]; exact hs)
      simp only [step] at h
      split at h
      · rename_i h'; simp at h; subst h; exact hconf _ h' _ (Or.inl rfl)
      · rename_i e _ h'; simp at h; subst h; exact hconf _ h' _ (Or.inr ⟨_, rfl⟩)
      · simp at h
  intro l
  induction l with
  | nil => intro s s' ht h; simp [steps] at h; rw [← h]; exact ht
  | cons x l ih =>
    intro s s' ht h
    simp only [steps] at h
    cases hs : step asserts src x.1 s x.2 with
    | none => simp [hs] at h
    | some s1 => simp [hs] at h; exact ih (step_keep ht hs) h

/-- C127: once a configuration has got as far as compiling, successfully or not, and after any further calls, no configuration succeeds any more:
it adds the kernel files a second time, and a compiler rejects kernels defined twice. `p` is a kernel file that has not changed. -/
theorem C127_never_again (asserts : Bool) (src : String) (env env' : Env) (s0 : St) (d : Dev) (p : String) (hp : p ∈ kernelFiles src)
    (hf : env.files p = env'.files p) (htwice : ∀ d l, 2 ≤ l.count ((env'.files p).getD "" ++ "\n\n\n") → env'.builds d l = false)
    (s1 : St) (h1 : prepare env src s0 (some d) = .ok s1 ∨ prepare env src s0 (some d) = .throw .runtimeError s1)
    (l : List (Env × Call)) (s : St) (h2 : steps asserts src l s1 = some s) (ask : Option (Nat × In)) (s' : St) :
    configure asserts env' src ask s ≠ some (.ok s') := by
  have hl : Loaded ((env'.files p).getD "" ++ "\n\n\n") s1 := by
    have : (env'.files p).getD "" ++ "\n\n\n" ∈ library env src := by
      rw [← hf]
      exact List.mem_map.2 ⟨p, hp, rfl⟩
    rw [prepare_eq] at h1
    split at h1
    · simp at h1; rw [← h1]; simp only [Loaded, List.mem_append]; exact Or.inr this
    · simp at h1; rw [← h1]; simp only [Loaded, List.mem_append]; exact Or.inr this
  have hs := steps_keep l hl h2
  unfold configure
  split
  · simp
  · split
    · simp
    · simp
    · simp
    · rename_i e _
      cases e with
      | none =>
        unfold prepare compile
        rw [addFiles_eq]
        simp
      | some e =>
        rw [prepare_eq, if_neg]
        · simp
        · rw [htwice]
          · simp
          · have h1 : 1 ≤ (updateDevices env' s).sources.count ((env'.files p).getD "" ++ "\n\n\n") := List.count_pos_iff.2 hs
            have h2 : 1 ≤ (library env' src).count ((env'.files p).getD "" ++ "\n\n\n") :=
              List.count_pos_iff.2 (List.mem_map.2 ⟨p, hp, rfl⟩)
            rw [List.count_append]
            omega

/-- C127: with assertions compiled out, a second `configureOpenCL` does not report that OpenCL is configured: it throws away the program that was
compiled, and OpenCL stays marked as configured. -/
theorem C127_broken (env : Env) (src : String) (s : St) (hc : s.configured = true) (p : String) (hp : p ∈ kernelFiles src)
    (hl : (env.files p).getD "" ++ "\n\n\n" ∈ s.sources)
    (htwice : ∀ d l, 2 ≤ l.count ((env.files p).getD "" ++ "\n\n\n") → env.builds d l = false)
    (hd : ∃ d ∈ (updateDevices env s).devices, 0 < compute d) :
    ∃ s', configure false env src none s = some (.throw .runtimeError s') ∧ s'.configured = true ∧ s'.built = false := by
  obtain ⟨_, d, _, _, hf, _, _⟩ := C103_fastest_partial false (updateDevices env s).devices hd
  unfold configure
  simp only [Bool.false_and, Bool.false_eq_true, if_false, pick, hf]
  rw [prepare_eq, if_neg]
  · exact ⟨_, rfl, hc, rfl⟩
  · rw [htwice]
    · simp
    · have h1 : 1 ≤ (updateDevices env s).sources.count ((env.files p).getD "" ++ "\n\n\n") := List.count_pos_iff.2 hl
      have h2 : 1 ≤ (library env src).count ((env.files p).getD "" ++ "\n\n\n") := List.count_pos_iff.2 (List.mem_map.2 ⟨p, hp, rfl⟩)
      rw [List.count_append]
      omega

/-- C127 is false: a configuration that failed cannot be repeated. -/
theorem C127_false : ¬ C127Claim := by
  intro h
  obtain ⟨_, h⟩ := h true "src" [(⟨[[(⟨1, 1, 0, true, false⟩, true)]], fun _ => none, fun _ _ => false⟩, .configure none)]
    { devices := [⟨1, 1, 0, true, false⟩], device := some ⟨1, 1, 0, true, false⟩, sources := library ⟨[], fun _ => none, fun _ _ => false⟩ "src",
      program := library ⟨[], fun _ => none, fun _ _ => false⟩ "src" } (by decide +kernel)
  obtain ⟨s', h⟩ := h rfl ⟨[[(⟨1, 1, 0, true, false⟩, true)]], fun _ => none, fun _ l => decide (l.length ≤ 13)⟩ (by decide) (by intro d; rfl)
    (by decide)
  simp only [configure, pick] at h
  revert h
  have hf : findFastest true (updateDevices ⟨[[(⟨1, 1, 0, true, false⟩, true)]], fun _ => none, fun _ l => decide (l.length ≤ 13)⟩
    { devices := [⟨1, 1, 0, true, false⟩], device := some ⟨1, 1, 0, true, false⟩, sources := library ⟨[], fun _ => none, fun _ _ => false⟩ "src",
      program := library ⟨[], fun _ => none, fun _ _ => false⟩ "src" }).devices = .ok (some ⟨1, 1, 0, true, false⟩) := by decide +kernel
  rw [hf]
  simp only [Bool.and_false, Bool.false_eq_true, if_false]
  rw [prepare_eq, if_neg (by simp [updateDevices, library, kernelFiles])]
  simp

/-- C127 (partial: assertions on, `compileOpenCLKernels` is not called by itself): after any sequence of calls, failed ones included, a configured
OpenCL has a compiled program. -/
theorem C127_ready_partial (src : String) (l : List (Env × Call)) (hl : ∀ x ∈ l, x.2 ≠ .compile) (s : St)
    (h : steps true src l {} = some s) : s.configured = true → s.built = true ∧ s.device ≠ none := by
  have key : ∀ (l : List (Env × Call)) (s0 s : St), (∀ x ∈ l, x.2 ≠ .compile) → (s0.configured = true → s0.built = true ∧ s0.device ≠ none) →
      steps true src l s0 = some s → (s.configured = true → s.built = true ∧ s.device ≠ none) := by
    intro l
    induction l with
    | nil => intro s0 s _ h0 h; simp [steps] at h; rw [← h]; exact h0
    | cons x l ih =>
      intro s0 s hl h0 h
      obtain ⟨env, c⟩ := x
      simp only [steps] at h
      cases hs : step true src env s0 c with
      | none => simp [hs] at h
      | some s1 =>
        simp [hs] at h
        refine ih s1 s (fun y hy => hl y (by simp [hy])) ?_ h
        cases c with
        | update => simp [step, updateDevices] at hs; rw [← hs]; exact h0
        | source t => simp [step, addSource] at hs; rw [← hs]; exact h0
        | file p => simp [step, addFile, addSource] at hs; rw [← hs]; exact h0
        | compile => exact absurd rfl (hl (env, .compile) List.mem_cons_self)
        | configure ask =>
          simp only [step, configure, Bool.true_and] at hs
          cases hc : s0.configured with
          | true => simp [hc] at hs; rw [← hs]; exact h0
          | false =>
            simp only [hc, Bool.false_eq_true, if_false] at hs
            have hcu : (updateDevices env s0).configured = false := hc
            split at hs
            · rename_i s2 heq
              simp at hs; subst hs
              split at heq
              · simp at heq
              · simp at heq
              · simp at heq
              · rename_i d _
                cases d with
                | none => unfold prepare compile at heq; rw [addFiles_eq] at heq; simp at heq
                | some d =>
                  rw [prepare_eq] at heq
                  split at heq
                  · simp at heq; rw [← heq]; simp
                  · simp at heq
            · rename_i e s2 heq
              simp at hs; subst hs
              split at heq
              · simp at heq
              · simp at heq; rw [← heq.2, hcu]; simp
              · simp at heq
              · rename_i d _
                cases d with
                | none => unfold prepare compile at heq; rw [addFiles_eq] at heq; simp at heq
                | some d =>
                  rw [prepare_eq] at heq
                  split at heq
                  · simp at heq
                  · simp at heq; rw [← heq.2]; simp [hcu]
            · simp at hs
  exact key l {} s hl (by simp) h

/-- Whether a call looks for devices. -/
def looks : Call → Bool
  | .update => true
  | .configure _ => true
  | _ => false

theorem step_devices (src : String) (env : Env) (s s' : St) (c : Call) (h : step false src env s c = some s') :
    s'.devices = s.devices ++ (if looks c then working env else []) := by
  cases c with
  | update => simp [step] at h; rw [← h]; rfl
  | source t => simp [step] at h; rw [← h]; simp [addSource, looks]
  | file p => simp [step] at h; rw [← h]; simp [addFile, addSource, looks]
  | compile =>
    simp only [step, ClConfig.compile] at h
    cases hd : s.device with
    | none => simp [hd] at h
    | some d =>
      simp only [hd] at h
      by_cases hb : env.builds d s.sources = true
      · simp [hb] at h; rw [← h]; simp [looks]
      · simp [hb] at h; rw [← h]; simp [looks]
  | configure ask =>
    simp only [step, configure, Bool.false_and, Bool.false_eq_true, if_false] at h
    have hu : (updateDevices env s).devices = s.devices ++ working env := rfl
    simp only [looks, if_true]
    rw [← hu]
    cases hp : pick false (updateDevices env s).devices ask with
    | none => simp [hp] at h
    | some r =>
      cases r with
      | throw e => simp [hp] at h; rw [← h]
      | ub => simp [hp] at h
      | ok d =>
        cases d with
        | none => simp only [hp] at h; unfold prepare compile at h; rw [addFiles_eq] at h; simp at h
        | some d =>
          simp only [hp, prepare_eq] at h
          split at h
          · next heq => split at heq <;> simp at heq; simp at h; rw [← h, ← heq]
          · next heq => split at heq <;> simp at heq; simp at h; rw [← h, ← heq.2]
          · simp at h

/-- C127: without assertions the list of devices after any sequence of calls holds the working devices once for every call that looked for them:
configuring twice lists each device twice. -/
theorem C127_devices (src : String) (l : List (Env × Call)) (s : St) (h : steps false src l {} = some s) :
    s.devices = (l.filter fun x => looks x.2).flatMap fun x => working x.1 := by
  have key : ∀ (l : List (Env × Call)) (s0 s : St), steps false src l s0 = some s →
      s.devices = s0.devices ++ (l.filter fun x => looks x.2).flatMap fun x => working x.1 := by
    intro l
    induction l with
    | nil => intro s0 s h; simp [steps] at h; simp [h]
    | cons x l ih =>
      intro s0 s h
      rw [steps] at h
      obtain ⟨s1, h1, h2⟩ := Option.bind_eq_some_iff.1 h
      rw [ih s1 s h2, step_devices src x.1 s0 s1 x.2 h1]
      by_cases hx : looks x.2 = true <;> simp [hx]
  simpa using key l {} s h

example : ∃ s, steps false "src" [(demoEnv, .update), (demoEnv, .update)] {} = some s ∧ s.devices = working demoEnv ++ working demoEnv := ⟨_, rfl, rfl⟩

/-! ### The progress messages -/

/-- C127: with `verbose`, the thread that prints dots reads `finished`, a plain `bool`, while the main thread writes it: every call has a race. -/
theorem C127_verbose_race (passes : Nat) (h : 0 < passes) : Conc.Race (verboseStart passes) := by
  obtain ⟨n, rfl⟩ : ∃ n, passes = n + 1 := ⟨passes - 1, by omega⟩
  exact ⟨0, 1, builder, printer (n + 1), (0, 0), true, false, by decide, rfl, rfl, rfl, rfl, rfl⟩

end Verif.ClConfig
