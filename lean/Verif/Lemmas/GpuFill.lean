import Verif.Lemmas.GpuRandom
import Verif.Lemmas.Random

/-! Executions of `fillRandom`. -/

namespace Verif.Gpu

section
variable {T G L V : Type} [DecidableEq T] [DecidableEq L]

/-! ### Programs that cannot go wrong -/

/-- Every access is to a location in `A`, whatever is read; no barriers. -/
def Prog.Total (A : L → Prop) : Prog L V → Prop
  | .ret => True
  | .fail => False
  | .read l k => A l ∧ ∀ v, (k v).Total A
  | .write l _ k => A l ∧ k.Total A
  | .barrier _ => False

theorem total_steps {A : L → Prop} {grp : T → G} {c d : Cfg T L V} {n : Nat} (h : ∀ t, (c.prog t).Total A) (hm : ∀ l, A l → c.mem l ≠ none) (hs : Steps grp c n d) :
    (∀ t, (d.prog t).Total A) ∧ ∀ l, A l → d.mem l ≠ none := by
  induction hs with
  | refl => exact ⟨h, hm⟩
  | step _ s ih =>
    obtain ⟨i1, i2⟩ := ih
    cases s with
    | @read t l k v hp hm' =>
      refine ⟨fun t' => ?_, i2⟩
      have := i1 t
      rw [hp] at this
      by_cases e : t' = t
      · subst e; simpa using this.2 v
      · simpa [Function.update_of_ne e] using i1 t'
    | @write t l v k w hp hm' =>
      have := i1 t
      rw [hp] at this
      refine ⟨fun t' => ?_, fun l' hl' => ?_⟩
      · by_cases e : t' = t
        · subst e; simpa using this.2
        · simpa [Function.update_of_ne e] using i1 t'
      · dsimp only
        by_cases e : l' = l
        · subst e; simp
        · rw [Function.update_of_ne e]; exact i2 l' hl'
    | barrier g p ne hp hp' =>
      obtain ⟨t, ht⟩ := ne
      have := i1 t
      rw [hp t ht] at this; exact this.elim

/-- Complete executions of such programs end well. -/
theorem total_done {A : L → Prop} {grp : T → G} {c : Cfg T L V} (h : ∀ t, (c.prog t).Total A) (hm : ∀ l, A l → c.mem l ≠ none) (hst : Stuck grp c) : Done c := by
  intro t
  have ht := h t
  cases hp : c.prog t with
  | ret => rfl
  | fail => rw [hp] at ht; exact ht.elim
  | barrier k => rw [hp] at ht; exact ht.elim
  | read l k =>
    rw [hp] at ht
    obtain ⟨v, hv⟩ := Option.ne_none_iff_exists'.1 (hm l ht.1)
    exact absurd (Step.read hp hv) (hst _)
  | write l v k =>
    rw [hp] at ht
    obtain ⟨w, hw⟩ := Option.ne_none_iff_exists'.1 (hm l ht.1)
    exact absurd (Step.write hp hw) (hst _)

/-! ### What is written -/

/-- Every value written satisfies `P`. -/
def Prog.WritesOk (P : L → V → Prop) : Prog L V → Prop
  | .ret => True
  | .fail => True
  | .read _ k => ∀ v, (k v).WritesOk P
  | .write l v k => P l v ∧ k.WritesOk P
  | .barrier k => k.WritesOk P

/-- If all values written at `l` satisfy `P` and a work item will write there, the final one satisfies it. -/
theorem written_steps {P : L → V → Prop} {grp : T → G} {c d : Cfg T L V} {n : Nat} {t₀ : T} {l₀ : L} (h : ∀ t, (c.prog t).WritesOk P)
    (h' : (c.prog t₀).MustWrite l₀ ∨ ∃ v, c.mem l₀ = some v ∧ P l₀ v) (hs : Steps grp c n d) :
    (∀ t, (d.prog t).WritesOk P) ∧ ((d.prog t₀).MustWrite l₀ ∨ ∃ v, d.mem l₀ = some v ∧ P l₀ v) := by
  induction hs with
  | refl => exact ⟨h, h'⟩
  | step _ s ih =>
    obtain ⟨i1, i2⟩ := ih
    cases s with
    | @read t l k v hp hm =>
      have := i1 t
      rw [hp] at this
      refine ⟨fun t' => ?_, ?_⟩
      · by_cases e : t' = t
        · subst e; simpa using this v
        · simpa [Function.update_of_ne e] using i1 t'
      · rcases i2 with i2 | i2
        · refine .inl ?_
          by_cases e : t₀ = t
          · subst e; rw [hp] at i2; simpa using i2 v
          · simpa [Function.update_of_ne e] using i2
        · exact .inr i2
    | @write t l v k w hp hm =>
      have := i1 t
      rw [hp] at this
      refine ⟨fun t' => ?_, ?_⟩
      · by_cases e : t' = t
        · subst e; simpa using this.2
        · simpa [Function.update_of_ne e] using i1 t'
      · by_cases el : l₀ = l
        · subst el; exact .inr ⟨v, by simp, this.1⟩
        · rcases i2 with i2 | ⟨v', i2, i3⟩
          · refine .inl ?_
            by_cases e : t₀ = t
            · subst e; rw [hp] at i2
              rcases i2 with i2 | i2
              · exact absurd i2.symm el
              · simpa using i2
            · simpa [Function.update_of_ne e] using i2
          · exact .inr ⟨v', by simpa [Function.update_of_ne el] using i2, i3⟩
    | barrier g p ne hp hp' =>
      refine ⟨fun t => ?_, ?_⟩
      · by_cases e : grp t = g
        · have := i1 t
          rw [hp t e] at this; exact this
        · show (p t).WritesOk P
          rw [hp' t e]; exact i1 t
      · rcases i2 with i2 | i2
        · refine .inl ?_
          by_cases e : grp t₀ = g
          · rw [hp t₀ e] at i2; exact i2
          · show (p t₀).MustWrite l₀
            rw [hp' t₀ e]; exact i2
        · exact .inr i2

theorem Steps.trans {grp : T → G} {c d e : Cfg T L V} {n m : Nat} (h : Steps grp c n d) (h' : Steps grp d m e) : Steps grp c (n + m) e := by
  induction h' with
  | refl => exact h
  | step _ s ih => exact .step ih s
end

/-! ### The kernel -/

variable {V G : Type} {n S W : Nat} {draw next : V → Nat → V}

/-- The allocated buffers. -/
def FAlloc (n S : Nat) : FLoc → Prop
  | .seed j => j < S
  | .data i => i < n

theorem fillLoop_eq {gid r : Nat} {v : V} (hW : n ≤ W) (hr : 2 ≤ r) : fillLoop n S W gid draw next v r gid 0 =
    if gid < n then .write (.data gid) (draw v 0) (.write (.seed (gid % S)) (next v 1) .ret) else .write (.seed (gid % S)) (next v 0) .ret := by
  obtain ⟨r, rfl⟩ : ∃ r', r = r' + 1 + 1 := ⟨r - 2, by omega⟩
  rw [fillLoop]
  split
  · rw [fillLoop, if_neg (by omega)]
  · rfl

/-- After the seed has been read. -/
def fillTail (n S gid : Nat) (draw next : V → Nat → V) (v : V) : Prog FLoc V :=
  if gid < n then .write (.data gid) (draw v 0) (.write (.seed (gid % S)) (next v 1) .ret) else .write (.seed (gid % S)) (next v 0) .ret

theorem fillRandom_eq {gid : Nat} (hW : n ≤ W) (h0 : 0 < n) : fillRandom n S W draw next gid = .read (.seed (gid % S)) (fillTail n S gid draw next) := by
  unfold fillRandom
  congr 1
  funext v
  exact fillLoop_eq hW (by omega)

theorem fillTail_total {gid : Nat} {v : V} (hS : 0 < S) : (fillTail n S gid draw next v).Total (FAlloc n S) := by
  unfold fillTail
  split
  · next h => exact ⟨h, Nat.mod_lt _ hS, trivial⟩
  · exact ⟨Nat.mod_lt _ hS, trivial⟩

theorem fillTail_atMost {gid : Nat} {v : V} : (fillTail n S gid draw next v).AtMost 2 := by
  unfold fillTail
  split <;> exact trivial

theorem fillRandom_total {gid : Nat} (hW : n ≤ W) (h0 : 0 < n) (hS : 0 < S) : (fillRandom n S W draw next gid).Total (FAlloc n S) := by
  rw [fillRandom_eq hW h0]
  exact ⟨Nat.mod_lt _ hS, fun v => fillTail_total hS⟩

theorem fillRandom_atMost {gid : Nat} (hW : n ≤ W) (h0 : 0 < n) : (fillRandom n S W draw next gid).AtMost 3 := by
  rw [fillRandom_eq hW h0]
  exact fun v => fillTail_atMost

/-- All work items that are in the list read their seeds. -/
theorem reads_first {grp : Fin W → G} {M : Mem FLoc V} {sd : Nat → V} (hW : n ≤ W) (h0 : 0 < n) (hS : 0 < S) (hM : ∀ j, j < S → M (.seed j) = some (sd j)) :
    ∀ ts : List (Fin W), ts.Nodup → ∃ s, Steps grp ⟨fun t => fillRandom n S W draw next t, M⟩ s
      ⟨fun t => if t ∈ ts then fillTail n S t draw next (sd (t % S)) else fillRandom n S W draw next t, M⟩
  | [], _ => ⟨0, by simpa using Steps.refl⟩
  | t :: ts, hn => by
    rw [List.nodup_cons] at hn
    obtain ⟨s, hs⟩ := reads_first (grp := grp) hW h0 hS hM ts hn.2
    refine ⟨s + 1, .step hs ?_⟩
    have hp : (if t ∈ ts then fillTail n S t draw next (sd (t % S)) else fillRandom n S W draw next t) = .read (.seed (t % S)) (fillTail n S t draw next) := by
      rw [if_neg hn.1, fillRandom_eq hW h0]
    have := Step.read (grp := grp) (c := ⟨fun t => if t ∈ ts then fillTail n S t draw next (sd (t % S)) else fillRandom n S W draw next t, M⟩) (t := t) hp (hM (t % S) (Nat.mod_lt _ hS))
    have e : (fun t' => if t' ∈ t :: ts then fillTail n S t' draw next (sd (t' % S)) else fillRandom n S W draw next t') =
        Function.update (fun t => if t ∈ ts then fillTail n S t draw next (sd (t % S)) else fillRandom n S W draw next t) t (fillTail n S t draw next (sd (t % S))) := by
      funext t'
      by_cases h : t' = t
      · subst h; simp
      · rw [Function.update_of_ne h]
        simp [h]
    rw [e]; exact this

/-- Complete an execution from any state the kernel can be in. -/
theorem complete {grp : Fin W → G} {c : Cfg (Fin W) FLoc V} (h : ∀ t, (c.prog t).Total (FAlloc n S)) (hb : ∀ t, (c.prog t).AtMost 3) (hm : ∀ l, FAlloc n S l → c.mem l ≠ none) :
    ∃ s d, Steps grp c s d ∧ Stuck grp d ∧ Done d := by
  obtain ⟨s, d, hs, hst⟩ := exists_complete (grp := grp) (c := c) (List.finRange W) List.mem_finRange (fun _ => 3) hb
  obtain ⟨h1, h2⟩ := total_steps h hm hs
  exact ⟨s, d, hs, hst, total_done h1 h2 hst⟩

theorem fillTail_mustWrite {gid : Nat} {v : V} (h : gid < n) : (fillTail n S gid draw next v).MustWrite (.data gid) := by
  unfold fillTail
  rw [if_pos h]; exact .inl rfl

/-! ### The conversion to `[0, 1]` -/

section
open Verif.Ieee

theorem toUnit_aux {u : Nat} (h : u < 2 ^ 64 - 2 ^ 10) : rnd binary64 (u : ℚ) ≤ 2 ^ 64 - 2 ^ 11 := by
  have hr : Repr binary64 (2 ^ 64 - 2 ^ 11) := ⟨2 ^ 53 - 1, 11, by decide, by decide, by norm_num⟩
  rcases le_or_gt (u : ℚ) (2 ^ 64 - 2 ^ 11) with hc | hc
  · exact rnd_le_of_repr hr hc
  · have hu : (u : ℚ) < 2 ^ 64 - 2 ^ 10 := by
      have : (u : ℚ) + 1 ≤ ((2 ^ 64 - 2 ^ 10 : Nat) : ℚ) := by exact_mod_cast h
      rw [Nat.cast_sub (by norm_num)] at this
      push_cast at this
      linarith
    have hlog : Int.log 2 (u : ℚ) = 63 := log_eq (by norm_num at hc ⊢; linarith) (by norm_num at hu ⊢; linarith)
    have hE : ulpExp binary64 (u : ℚ) = 11 := by
      rw [ulpExp_of_pos (by norm_num at hc ⊢; linarith), hlog]; rfl
    unfold rnd
    rw [hE, rne_eq_of_lt_half (n := 2 ^ 53 - 1) (by rw [le_div_iff₀ (by positivity)]; norm_num at hc ⊢; linarith) (by rw [div_lt_iff₀ (by positivity)]; norm_num at hu ⊢; linarith)]
    norm_num

theorem repr_toUnit (u : Nat) : Repr binary64 (toUnit u) := by
  obtain ⟨m, e, he, hm, hx⟩ := repr_rnd binary64 (u : ℚ)
  unfold toUnit
  rcases le_or_gt (-1010) e with hc | hc
  · refine ⟨m, e - 64, by show (-1074 : Int) ≤ e - 64; omega, hm, ?_⟩
    rw [hx, ← zpow_div]
    norm_num [mul_div_assoc]
  · rcases Nat.eq_zero_or_pos u with h0 | h0
    · subst h0
      have : rnd binary64 ((0 : Nat) : ℚ) = 0 := by rw [Nat.cast_zero]; exact rnd_of_repr (repr_zero _)
      rw [this, zero_div]; exact repr_zero _
    · exfalso
      have h1 : (1 : ℚ) ≤ rnd binary64 (u : ℚ) := le_rnd_of_repr ⟨1, 0, by decide, by decide, by norm_num⟩ (by exact_mod_cast h0)
      have h2 : (m : ℚ) < 2 ^ 53 := by
        have : m < 2 ^ 53 := lt_of_le_of_lt (le_abs_self m) hm
        exact_mod_cast this
      have h3 : (2 : ℚ) ^ e ≤ 2 ^ (-1010 : Int) := zpow_le_zpow.2 (by omega)
      have h4 : (0 : ℚ) < 2 ^ e := two_zpow_pos e
      have h5 : (m : ℚ) * 2 ^ e ≤ 2 ^ 53 * 2 ^ e := mul_le_mul_of_nonneg_right h2.le h4.le
      have h6 : (2 : ℚ) ^ 53 * 2 ^ e ≤ 2 ^ (53 : Int) * 2 ^ (-1010 : Int) := by
        refine mul_le_mul_of_nonneg_left h3 (by positivity)
      rw [zpow_mul] at h6
      have h7 : (2 : ℚ) ^ (53 + -1010 : Int) < 2 ^ (0 : Int) := zpow_lt_zpow.2 (by omega)
      rw [zpow_zero] at h7
      rw [hx] at h1
      linarith
end

end Verif.Gpu
