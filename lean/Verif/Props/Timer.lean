import Verif.Model.Timer
import Verif.Lemmas.Ieee
import Verif.Lemmas.IeeeRel
import Mathlib.Tactic.Linarith
import Mathlib.Tactic.NormNum
import Mathlib.Tactic.IntervalCases

/-!
# C99, C100: timers and `sleep`
-/

namespace Verif.Timer

open Ieee

variable {fl : ℚ → ℚ}

/-! ### The measured interval -/

/-- The operations that begin a new measurement. -/
def Op.begins : Op → Bool
  | .setTargetTime _ _ => true
  | .start => true
  | .reset => true
  | _ => false

/-- The reading at which the measurement began: at the last operation that begins one, or at the construction. -/
def beginOf (c0 : Int) (h : List (Op × Int)) : Int := ((h.reverse.find? fun p => p.1.begins).map (·.2)).getD c0

/-- The reading of the last `stop` with no later beginning. -/
def stopOf (h : List (Op × Int)) : Option Int :=
  ((h.reverse.takeWhile fun p => !p.1.begins).find? fun p => p.1 = .stop).map (·.2)

/-- `setTargetTime` is used on running timers only. -/
def NoStale (h : List (Op × Int)) : Prop :=
  ∀ a b scale time c, h = a ++ (Op.setTargetTime scale time, c) :: b → stopOf a = none

theorem NoStale.init {h : List (Op × Int)} {p : Op × Int} (hs : NoStale (h ++ [p])) : NoStale h := by
  intro a b scale time c e
  exact hs a (b ++ [p]) scale time c (by rw [e]; simp)

/-- The state of a timer after any history. -/
theorem run_state (hfl : ∀ c : Int, 0 ≤ c → 0 ≤ now fl 1 c) (c0 : Int) (h : List (Op × Int)) (hs : NoStale h) :
    ((Timer.new fl c0).run fl h).start = now fl 1 (beginOf c0 h) ∧
      ((Timer.new fl c0).run fl h).stop = ((stopOf h).map (now fl 1)).getD (-1) := by
  induction h using List.reverseRecOn with
  | nil => simp [Timer.run, Timer.new, beginOf, stopOf]
  | append_singleton h p ih =>
    obtain ⟨op, c⟩ := p
    obtain ⟨h1, h2⟩ := ih hs.init
    have er : (Timer.new fl c0).run fl (h ++ [(op, c)]) = ((Timer.new fl c0).run fl h).step fl (op, c) := by
      simp [Timer.run]
    rw [er]
    cases op with
    | setTargetTime scale time =>
      have hn := hs h [] scale time c rfl
      rw [hn] at h2
      refine ⟨by simp [Timer.step, beginOf, Op.begins], ?_⟩
      simpa [Timer.step, stopOf, Op.begins] using h2
    | start => exact ⟨by simp [Timer.step, beginOf, Op.begins], by simp [Timer.step, stopOf, Op.begins]⟩
    | reset => exact ⟨by simp [Timer.step, beginOf, Op.begins], by simp [Timer.step, stopOf, Op.begins]⟩
    | stop =>
      refine ⟨?_, by simp [Timer.step, stopOf, Op.begins]⟩
      simpa [Timer.step, beginOf, Op.begins] using h1
    | isRunning =>
      refine ⟨?_, ?_⟩
      · simpa [Timer.step, beginOf, Op.begins] using h1
      · simpa [Timer.step, stopOf, Op.begins] using h2

/-- C99: at any time `elapsed<scale>()` is the time from the last operation that begins a measurement to the last `stop` after it, or
to the present, in units of `scale` nanoseconds (exact arithmetic). -/
def C99Claim : Prop :=
  ∀ (c0 : Int) (h : List (Op × Int)) (scale c : Int), 0 ≤ c0 → (∀ p ∈ h, 0 ≤ p.2) → 0 ≤ c → 0 < scale →
    ((Timer.new id c0).run id h).elapsed id scale c = (((stopOf h).getD c - beginOf c0 h : Int) : ℚ) / scale

theorem stopOf_mem {h : List (Op × Int)} {s : Int} (e : stopOf h = some s) : ∃ p ∈ h, p.2 = s := by
  simp only [stopOf, Option.map_eq_some_iff] at e
  obtain ⟨p, hp, rfl⟩ := e
  exact ⟨p, List.mem_reverse.1 ((List.takeWhile_sublist _).subset (List.mem_of_find?_eq_some hp)), rfl⟩

/-- **C99** (partial) `elapsed`, if `setTargetTime` is not applied to a stopped timer: with any rounding, it is the rounded difference
of the rounded readings. The full statement is `C99Claim`. -/
theorem C99_elapsed_partial (hfl : ∀ c : Int, 0 ≤ c → 0 ≤ now fl 1 c) (c0 : Int) (h : List (Op × Int)) (hs : NoStale h)
    (hh : ∀ p ∈ h, 0 ≤ p.2) (scale c : Int) :
    ((Timer.new fl c0).run fl h).elapsed fl scale c =
      fl (fl (now fl 1 ((stopOf h).getD c) - now fl 1 (beginOf c0 h)) / scale) := by
  obtain ⟨h1, h2⟩ := run_state hfl c0 h hs
  unfold Timer.elapsed
  rw [h1, h2]
  cases e : stopOf h with
  | none => simp
  | some s =>
    obtain ⟨p, hp, rfl⟩ := stopOf_mem e
    have := hfl p.2 (hh p hp)
    rw [if_neg (by simp; linarith)]
    simp

/-- **C99** (partial) The statement in exact arithmetic. -/
theorem C99_exact_partial (c0 : Int) (h : List (Op × Int)) (hs : NoStale h) (hh : ∀ p ∈ h, 0 ≤ p.2) (scale c : Int) :
    ((Timer.new id c0).run id h).elapsed id scale c = (((stopOf h).getD c - beginOf c0 h : Int) : ℚ) / scale := by
  rw [C99_elapsed_partial (fun c hc => by simp [now]; exact_mod_cast hc) c0 h hs hh]
  simp [now]

/-- **C99** is false: `setTargetTime` begins a new measurement and leaves the old end in place; the elapsed time is then negative. -/
theorem C99_false : ¬C99Claim := by
  intro h
  have := h 0 [(.stop, 5), (.setTargetTime 1 1, 10)] 1 12 (by norm_num) (by simp) (by norm_num) (by norm_num)
  simp [Timer.run, Timer.step, Timer.new, Timer.elapsed, now, stopOf, beginOf, Op.begins] at this
  norm_num at this

/-- A history that meets the hypotheses of `C99_exact_partial`: 7 units of 1000 ns. -/
example : ((Timer.new id 100).run id [(.setTargetTime 1000 1, 200), (.isRunning, 300), (.start, 1000), (.isRunning, 5000), (.stop, 8000)]).elapsed
    id 1000 90000 = 7 := by
  rw [C99_exact_partial _ _ ?_ (by simp)]
  · simp [stopOf, beginOf, Op.begins]; norm_num
  · intro a b scale time c e
    rcases a with _ | ⟨x, a⟩
    · rfl
    · exfalso
      simp only [List.cons_append, List.cons.injEq] at e
      obtain ⟨-, e⟩ := e
      have := congrArg (fun l => l.any fun p : Op × Int => match p.1 with | .setTargetTime _ _ => true | _ => false) e
      simp at this

/-! ### Rounding of the readings -/

/-- A number below `2 ^ 61` is rounded by at most `2 ^ 7`. -/
theorem rnd_below {x : ℚ} (hx : |x| ≤ 2 ^ 61) : |rnd binary64 x - x| ≤ 128 := by
  by_cases h0 : x = 0
  · rw [h0, rnd_of_repr (repr_zero _)]; norm_num
  have hpos : 0 < |x| := abs_pos.2 h0
  rcases hx.lt_or_eq with hx | hx
  · refine (rnd_close binary64 x).trans ?_
    have h1 : Int.log 2 |x| ≤ 60 := by
      have a := log_le_self hpos
      have b : (2 : ℚ) ^ Int.log 2 |x| < 2 ^ (61 : Int) := lt_of_le_of_lt a (by exact_mod_cast hx)
      have := zpow_lt_zpow.1 b
      omega
    have h2 : ulpExp binary64 x ≤ 8 := by
      unfold ulpExp
      simp only [binary64]
      omega
    have h3 : (2 : ℚ) ^ ulpExp binary64 x ≤ 2 ^ (8 : Int) := zpow_le_zpow.2 h2
    norm_num at h3 ⊢
    linarith
  · have : rnd binary64 x = x := by
      refine rnd_of_repr ?_
      rcases abs_cases x with ⟨e, _⟩ | ⟨e, _⟩
      · rw [show x = 2 ^ (61 : Int) by rw [← e, hx]; norm_num]
        exact repr_two_zpow (by decide)
      · rw [show x = -2 ^ (61 : Int) by rw [show x = -|x| by linarith, hx]; norm_num]
        exact repr_neg (repr_two_zpow (by decide))
    rw [this]; norm_num

theorem now_one (c : Int) : now (rnd binary64) 1 c = rnd binary64 c := by
  simp only [now, Int.cast_one, div_one]
  exact rnd_of_repr (repr_rnd _ _)

theorem now_nonneg (c : Int) (h : 0 ≤ c) : 0 ≤ now (rnd binary64) 1 c := by
  rw [now_one]; exact rnd_nonneg (by exact_mod_cast h)

/-- The difference of two readings below `2 ^ 61` (in the year 2043, for a clock that counts from 1970) is off by at most 384. -/
theorem diff_close {a b : Int} (ha : 0 ≤ a) (ha' : a < 2 ^ 61) (hb : 0 ≤ b) (hb' : b < 2 ^ 61) :
    |rnd binary64 (now (rnd binary64) 1 a - now (rnd binary64) 1 b) - ((a - b : Int) : ℚ)| ≤ 384 := by
  rw [now_one, now_one]
  have bound : ∀ c : Int, 0 ≤ c → c < 2 ^ 61 → |rnd binary64 c - c| ≤ 128 ∧ 0 ≤ rnd binary64 c ∧ rnd binary64 c ≤ 2 ^ 61 := by
    intro c h h'
    have h1 : (0 : ℚ) ≤ c := by exact_mod_cast h
    have h2 : (c : ℚ) ≤ 2 ^ 61 := by exact_mod_cast h'.le
    refine ⟨rnd_below (by rw [abs_of_nonneg h1]; exact h2), rnd_nonneg h1, ?_⟩
    have : rnd binary64 c ≤ 2 ^ (61 : Int) := rnd_le_of_repr (repr_two_zpow (by decide)) (by
      rw [show (2 : ℚ) ^ (61 : Int) = 2 ^ 61 by norm_num]; exact h2)
    norm_num at this ⊢
    exact this
  obtain ⟨a1, a2, a3⟩ := bound a ha ha'
  obtain ⟨b1, b2, b3⟩ := bound b hb hb'
  have h3 := rnd_below (x := rnd binary64 a - rnd binary64 b) (abs_le.2 ⟨by linarith, by linarith⟩)
  push_cast
  rw [abs_le] at *
  constructor <;> linarith [a1.1, a1.2, b1.1, b1.2, h3.1, h3.2]

theorem beginOf_mem {c0 : Int} {h : List (Op × Int)} : beginOf c0 h = c0 ∨ ∃ p ∈ h, p.2 = beginOf c0 h := by
  unfold beginOf
  cases e : h.reverse.find? fun p => p.1.begins with
  | none => left; rfl
  | some p => right; exact ⟨p, List.mem_reverse.1 (List.mem_of_find?_eq_some e), rfl⟩

/-- **C99** (partial) In `double` arithmetic the elapsed time is, up to the last rounding, a duration that is off by at most 384 ns. -/
theorem C99_accuracy_partial (c0 : Int) (h : List (Op × Int)) (hs : NoStale h) (scale c : Int) (h0 : 0 ≤ c0 ∧ c0 < 2 ^ 61)
    (hh : ∀ p ∈ h, 0 ≤ p.2 ∧ p.2 < 2 ^ 61) (hc : 0 ≤ c ∧ c < 2 ^ 61) :
    ∃ y : ℚ, ((Timer.new (rnd binary64) c0).run (rnd binary64) h).elapsed (rnd binary64) scale c = rnd binary64 (y / scale) ∧
      |y - (((stopOf h).getD c - beginOf c0 h : Int) : ℚ)| ≤ 384 := by
  refine ⟨_, C99_elapsed_partial now_nonneg c0 h hs (fun p hp => (hh p hp).1) scale c, ?_⟩
  have hb : 0 ≤ beginOf c0 h ∧ beginOf c0 h < 2 ^ 61 := by
    rcases beginOf_mem (c0 := c0) (h := h) with e | ⟨p, hp, e⟩
    · rw [e]; exact h0
    · rw [← e]; exact hh p hp
  have he : 0 ≤ (stopOf h).getD c ∧ (stopOf h).getD c < 2 ^ 61 := by
    cases e : stopOf h with
    | none => exact hc
    | some s =>
      obtain ⟨p, hp, rfl⟩ := stopOf_mem e
      exact hh p hp
  exact diff_close he.1 he.2 hb.1 hb.2

/-- C99 in `double` arithmetic, for durations that are `double` numbers. -/
def C99MachineClaim : Prop :=
  ∀ c0 c : Int, 0 ≤ c0 → c0 ≤ c → c < 2 ^ 61 → c - c0 < 2 ^ 53 →
    (Timer.new (rnd binary64) c0).elapsed (rnd binary64) 1 c = ((c - c0 : Int) : ℚ)

/-- **C99** is false in `double` arithmetic: at present (1.7e18 ns after 1970) 100 ns are measured as 0. -/
theorem C99_machine_false : ¬C99MachineClaim := by
  intro h
  have e := h 1700000000000000000 1700000000000000100 (by norm_num) (by norm_num) (by norm_num) (by norm_num)
  have key : ∀ c : Int, 1700000000000000000 ≤ c → c < 1700000000000000128 → rnd binary64 c = 1700000000000000000 := by
    intro c h1 h2
    have h1' : (1700000000000000000 : ℚ) ≤ c := by exact_mod_cast h1
    have h2' : (c : ℚ) < 1700000000000000128 := by exact_mod_cast h2
    have hu : ulpExp binary64 c = 8 := by
      rw [ulpExp_of_pos (by linarith), log_eq (k := 60) (by norm_num; linarith) (by norm_num; linarith)]
      decide
    unfold rnd
    rw [hu, rne_eq_of_lt_half (n := 6640625000000000) (by norm_num; rw [le_div_iff₀ (by norm_num)]; linarith)
      (by norm_num; rw [div_lt_iff₀ (by norm_num)]; linarith)]
    norm_num
  simp only [Timer.elapsed, Timer.new, if_true, now_one] at e
  rw [key _ (by norm_num) (by norm_num), key _ (by norm_num) (by norm_num)] at e
  simp [rnd_of_repr (repr_zero _)] at e

/-! ### Iterations -/

/-- The calls of `isRunning` since the last `setTargetTime`. -/
def callsOf (h : List (Op × Int)) : Nat :=
  ((h.reverse.takeWhile fun p => match p.1 with | .setTargetTime _ _ => false | _ => true).filter fun p => p.1 = .isRunning).length

/-- **C100** The counter has the number of calls of `isRunning` since the last `setTargetTime`. -/
theorem C100_iters (c0 : Int) (h : List (Op × Int)) : ((Timer.new fl c0).run fl h).iters = callsOf h := by
  induction h using List.reverseRecOn with
  | nil => simp [Timer.run, Timer.new, callsOf]
  | append_singleton h p ih =>
    obtain ⟨op, c⟩ := p
    have er : (Timer.new fl c0).run fl (h ++ [(op, c)]) = ((Timer.new fl c0).run fl h).step fl (op, c) := by
      simp [Timer.run]
    rw [er]
    cases op <;> simp [Timer.step, callsOf] at ih ⊢ <;> omega

/-- **C100** A loop on `isRunning` ends with the first reading at which the target time is over, and counts one call more than passes. -/
theorem C100_loop {t t' : Timer} {cs : List Int} {k : Nat} (h : t.loop fl cs = some (k, t')) :
    (∃ pre c rest, cs = pre ++ c :: rest ∧ pre.length = k ∧ (∀ c' ∈ pre, fl (now fl 1 c' - t.start) < t.target) ∧
      t.target ≤ fl (now fl 1 c - t.start)) ∧ t' = { t with iters := t.iters + k + 1 } := by
  induction cs generalizing t k t' with
  | nil => simp [Timer.loop] at h
  | cons c cs ih =>
    unfold Timer.loop at h
    by_cases hr : t.running fl c = true
    · rw [if_pos hr] at h
      simp only [Option.map_eq_some_iff] at h
      obtain ⟨⟨k', t1⟩, h1, h2⟩ := h
      simp only [Prod.mk.injEq] at h2
      obtain ⟨rfl, rfl⟩ := h2
      obtain ⟨⟨pre, d, rest, e1, e2, e3, e4⟩, e5⟩ := ih h1
      simp only [Timer.step] at e3 e4 e5
      refine ⟨⟨c :: pre, d, rest, by rw [e1]; rfl, by simp [e2], ?_, e4⟩, ?_⟩
      · intro c' hc'
        rcases List.mem_cons.1 hc' with rfl | hc'
        · simpa [Timer.running] using hr
        · exact e3 c' hc'
      · rw [e5]
        congr 1
        omega
    · rw [if_neg hr] at h
      simp only [Option.some.injEq, Prod.mk.injEq] at h
      obtain ⟨rfl, rfl⟩ := h
      refine ⟨⟨[], c, cs, rfl, rfl, by simp, ?_⟩, by simp [Timer.step]⟩
      simpa [Timer.running] using hr

/-- **C100** A loop on `isRunning` ends as soon as there is a reading at which the target time is over. -/
theorem C100_loop_ends {t : Timer} {cs : List Int} {c : Int} (hc : c ∈ cs) (h : t.target ≤ fl (now fl 1 c - t.start)) :
    ∃ p, t.loop fl cs = some p := by
  induction cs generalizing t with
  | nil => simp at hc
  | cons d cs ih =>
    unfold Timer.loop
    by_cases hr : t.running fl d = true
    · rw [if_pos hr]
      rcases List.mem_cons.1 hc with rfl | hc
      · exfalso
        simp only [Timer.running, decide_eq_true_eq] at hr
        linarith
      · obtain ⟨p, hp⟩ := ih (t := t.step fl (.isRunning, d)) hc h
        exact ⟨_, by rw [hp]; rfl⟩
    · rw [if_neg hr]; exact ⟨_, rfl⟩

/-- C100: after `setTargetTime` and a loop on `isRunning` of which the body ran `k` times, `average` is the elapsed time by `k`. -/
def C100Claim : Prop :=
  ∀ (t t' : Timer) (scale' : Int) (time : ℚ) (c0 : Int) (cs : List Int) (k : Nat) (scale c : Int), 0 < k → 0 < scale →
    (t.step id (.setTargetTime scale' time, c0)).loop id cs = some (k, t') → t'.average id scale c = some (t'.elapsed id scale c / k)

/-- **C100** (partial) The elapsed time is divided by one more than the number of passes. -/
theorem C100_average_partial {t t' : Timer} {scale' : Int} {time : ℚ} {c0 : Int} {cs : List Int} {k : Nat}
    (h : (t.step fl (.setTargetTime scale' time, c0)).loop fl cs = some (k, t')) (scale c : Int) :
    t'.average fl scale c = some (fl (t'.elapsed fl scale c / (k + 1))) := by
  obtain ⟨-, e⟩ := C100_loop h
  have hi : t'.iters = k + 1 := by rw [e]; simp [Timer.step]
  unfold Timer.average
  rw [hi]
  simp

/-- **C100** is false: one pass of 10 ns has an average of 5 ns. -/
theorem C100_false : ¬C100Claim := by
  intro h
  have h1 : ((Timer.new id 0).step id (.setTargetTime 1 10, 0)).loop id [0, 10] = some (1, ⟨0, -1, 2, 10⟩) := by decide +kernel
  have e := h _ _ _ _ _ _ _ 1 10 (by norm_num) (by norm_num) h1
  rw [C100_average_partial h1] at e
  simp [Timer.elapsed, now] at e
  norm_num at e

/-- C100 for the other way to begin a measurement: `start` and `reset` begin a new count. -/
def C100StartClaim : Prop :=
  ∀ (c0 : Int) (h : List (Op × Int)) (c : Int) (op : Op), op.begins = true → ((Timer.new id c0).run id (h ++ [(op, c)])).iters = 0

/-- **C100** is false for `start` (and `reset`): the calls before it still count, while their time does not. -/
theorem C100_start_false : ¬C100StartClaim := by
  intro h
  have := h 0 [(.isRunning, 1)] 2 .start rfl
  simp [Timer.run, Timer.step, Timer.new] at this

/-- **C100** (partial) `setTargetTime` begins a new count. -/
theorem C100_start_partial (c0 : Int) (h : List (Op × Int)) (c scale : Int) (time : ℚ) :
    ((Timer.new fl c0).run fl (h ++ [(.setTargetTime scale time, c)])).iters = 0 := by
  rw [C100_iters]; simp [callsOf]

/-! ### Sleeping -/

/-- **C101** `sleep` returns with the first reading at which the time is over. -/
theorem C101_sleep {scale : Int} {time : ℚ} {c0 : Int} {cs : List Int} {k : Nat} (h : sleep fl scale time c0 cs = some k) :
    ∃ pre c rest, cs = pre ++ c :: rest ∧ pre.length = k ∧
      (∀ c' ∈ pre, fl (now fl 1 c' - now fl 1 c0) < fl (fl (time * scale) - 0)) ∧
      fl (fl (time * scale) - 0) ≤ fl (now fl 1 c - now fl 1 c0) := by
  unfold sleep at h
  generalize fl (time * scale) = T at *
  generalize now fl 1 c0 = s at *
  induction cs generalizing k with
  | nil => simp [sleepLoop] at h
  | cons c cs ih =>
    unfold sleepLoop at h
    split at h
    · next hr =>
      simp only [Option.map_eq_some_iff] at h
      obtain ⟨k', h1, rfl⟩ := h
      obtain ⟨pre, d, rest, e1, e2, e3, e4⟩ := ih h1
      refine ⟨c :: pre, d, rest, by rw [e1]; rfl, by simp [e2], ?_, e4⟩
      intro c' hc'
      rcases List.mem_cons.1 hc' with rfl | hc'
      · exact hr
      · exact e3 c' hc'
    · next hr =>
      simp only [Option.some.injEq] at h
      subst h
      exact ⟨[], c, cs, rfl, rfl, by simp, not_lt.1 hr⟩

/-- **C101** `sleep` returns as soon as there is a reading at which the time is over. -/
theorem C101_sleep_ends {scale : Int} {time : ℚ} {c0 c : Int} {cs : List Int} (hc : c ∈ cs)
    (h : fl (fl (time * scale) - 0) ≤ fl (now fl 1 c - now fl 1 c0)) : ∃ k, sleep fl scale time c0 cs = some k := by
  unfold sleep
  generalize fl (time * scale) = T at *
  generalize now fl 1 c0 = s at *
  induction cs with
  | nil => simp at hc
  | cons d cs ih =>
    unfold sleepLoop
    split
    · next hr =>
      rcases List.mem_cons.1 hc with rfl | hc
      · exfalso; linarith
      · obtain ⟨k, hk⟩ := ih hc
        exact ⟨k + 1, by rw [hk]; rfl⟩
    · exact ⟨0, rfl⟩

/-- **C101** In `double` arithmetic the time from the first to the last reading is the time asked for, less at most 384 ns and the
rounding of `time * scale`, and at all earlier readings less time had passed, up to the same error. -/
theorem C101_accuracy {scale : Int} {time : ℚ} {c0 : Int} {cs : List Int} {k : Nat}
    (h : sleep (rnd binary64) scale time c0 cs = some k) (h0 : 0 ≤ c0 ∧ c0 < 2 ^ 61) (hh : ∀ c ∈ cs, 0 ≤ c ∧ c < 2 ^ 61) :
    ∃ pre c rest, cs = pre ++ c :: rest ∧ pre.length = k ∧ rnd binary64 (time * scale) - 384 ≤ ((c - c0 : Int) : ℚ) ∧
      ∀ c' ∈ pre, ((c' - c0 : Int) : ℚ) < rnd binary64 (time * scale) + 384 := by
  obtain ⟨pre, c, rest, rfl, e2, e3, e4⟩ := C101_sleep h
  rw [sub_zero, rnd_of_repr (repr_rnd _ _)] at e3 e4
  refine ⟨pre, c, rest, rfl, e2, ?_, fun c' hc' => ?_⟩
  · have hc := hh c (by simp)
    have := (abs_le.1 (diff_close hc.1 hc.2 h0.1 h0.2)).2
    linarith
  · have hc := hh c' (by simp [hc'])
    have := (abs_le.1 (diff_close hc.1 hc.2 h0.1 h0.2)).1
    linarith [e3 c' hc']

/-- **C101** In exact arithmetic: the time asked for is over, and was not at any earlier reading. -/
theorem C101_exact {scale : Int} {time : ℚ} {c0 : Int} {cs : List Int} {k : Nat} (h : sleep id scale time c0 cs = some k) :
    ∃ pre c rest, cs = pre ++ c :: rest ∧ pre.length = k ∧ time * scale ≤ ((c - c0 : Int) : ℚ) ∧
      ∀ c' ∈ pre, ((c' - c0 : Int) : ℚ) < time * scale := by
  obtain ⟨pre, c, rest, e1, e2, e3, e4⟩ := C101_sleep h
  exact ⟨pre, c, rest, e1, e2, by simpa [now] using e4, fun c' hc' => by simpa [now] using e3 c' hc'⟩

/-- Sleeping for 2 units of 1000 ns, with four readings. -/
example : sleep id 1000 2 5000 [5500, 6999, 7010, 8000] = some 2 := by decide +kernel

/-- A loop of three passes, with the counter at 4 after it. -/
example : ((Timer.new id 0).step id (.setTargetTime 1000 2, 100)).loop id [100, 800, 1900, 2150, 3000] = some (3, ⟨100, -1, 4, 2000⟩) := by
  decide +kernel

end Verif.Timer
