import Mathlib.Data.List.Basic
import Mathlib.Tactic.Tauto
import Mathlib.Tactic.NormNum
import Mathlib.Tactic.SplitIfs
import Verif.Model.PyShape

/-!
# C129: a `Shape` in Python is a list of extents

The specification is a program over lists. Statements that raise change nothing.
-/

namespace Verif.PyShape

/-! ## The specification -/

/-- What a statement means; `none`: it raises. -/
def means (t : State (List Nat)) : Stmt → Option (State (List Nat))
  | .empty x => some (t.bind x [])
  | .new x vals => if ∀ v ∈ vals, 0 ≤ v ∧ v < 2 ^ 32 then some (t.bind x (vals.map Int.toNat)) else none
  | .copy x y => (t.find y).map fun o => t.bind x o.2
  | .name x y => (t.vars y).map fun r => { t with vars := fun z => if z = x then some r else t.vars z }
  | .zeros x n => if 0 ≤ n then some (t.bind x (List.replicate n.toNat 0)) else none
  | .ones x n => if 0 ≤ n then some (t.bind x (List.replicate n.toNat 1)) else none
  | .set x i v => (t.find x).bind fun o =>
      if 0 ≤ i ∧ i < o.2.length ∧ 0 ≤ v ∧ v < 2 ^ 32 then some (t.put o.1 (o.2.set i.toNat v.toNat)) else none
  | .sub x y a b => (t.find y).bind fun o =>
      let a' : Int := if a < 0 then 0 else a
      let b' : Int := if b < 0 then o.2.length else b
      if a' ≤ b' ∧ b' ≤ o.2.length then some (t.bind x ((o.2.take b'.toNat).drop a'.toNat)) else none

/-- What a program means. -/
def meansAll : List Stmt → State (List Nat) → State (List Nat)
  | [], t => t
  | c :: cs, t => meansAll cs ((means t c).getD t)

/-- The text of a list of extents. -/
def text (l : List Nat) : String := "Shape(" ++ String.intercalate ", " (l.map toString) ++ ")"

/-- The value of an expression; `none`: it raises. -/
def value (t : State (List Nat)) : Query → Option Val
  | .get x i => (t.find x).bind fun o => if 0 ≤ i then (o.2[i.toNat]?).map fun v => .int v else none
  | .len x => (t.find x).map fun o => .int o.2.length
  | .ndim x => (t.find x).map fun o => .int o.2.length
  | .eq x y => (t.find x).bind fun o => (t.find y).map fun o' => .bool (decide (o.2 = o'.2))
  | .str x => (t.find x).map fun o => .text (text o.2)

/-- A value, or an exception. -/
def Res.ofOption {α : Type} : Option α → Res α
  | some a => .ok a
  | none => .raises

/-- C129: every program runs as it does over lists. -/
def C129Claim (asserts : Bool) : Prop :=
  ∀ prog : List Stmt, ∃ s, run asserts prog {} = some s ∧ ∀ q, query asserts s q = .ofOption (value (meansAll prog {}) q)

/-! ## Objects that hold a list -/

/-- The object holds these extents. -/
structure Rep (r : Raw) (l : List Nat) : Prop where
  dims : r.dims = l.length
  few : l.length ≤ 16
  size : r.data.length = maxDims
  data : ∀ i (h : i < l.length), r.data[i]? = some (some l[i])

theorem load_rep {r : Raw} {l : List Nat} (h : Rep r l) (i : Nat) (hi : i < l.length) : load r.data i = .ok l[i] := by
  have := h.few
  unfold load
  rw [if_pos ⟨by omega, by rw [show ((maxDims : Nat) : Int) = 16 from rfl]; omega⟩]
  simp only [Int.toNat_natCast, h.data i hi]

theorem fill_ok : ∀ (vs : List Nat) (d : List (Option Nat)) (i : Nat), i + vs.length ≤ maxDims → d.length = maxDims →
    ∃ d', fill d i vs = .ok d' ∧ d'.length = maxDims ∧ (∀ j < i, d'[j]? = d[j]?) ∧
      ∀ j (h : j < vs.length), d'[i + j]? = some (some vs[j])
  | [], d, i, _, hd => ⟨d, rfl, hd, fun _ _ => rfl, fun j h => absurd h (by simp)⟩
  | v :: vs, d, i, hi, hd => by
    simp only [List.length_cons] at hi
    obtain ⟨d', h1, h2, h3, h4⟩ := fill_ok vs (d.set i (some v)) (i + 1) (by omega) (by simpa using hd)
    refine ⟨d', ?_, h2, fun j hj => ?_, fun j hj => ?_⟩
    · rw [fill, store, if_pos (by omega)]; exact h1
    · rw [h3 j (by omega), List.getElem?_set_ne (by omega)]
    · cases j with
      | zero =>
        rw [Nat.add_zero, h3 i (by omega), List.getElem?_set_self (by omega)]; rfl
      | succ j =>
        rw [show i + (j + 1) = i + 1 + j by omega, h4 j (by simpa using hj)]; rfl

theorem rep_of_fill {vs : List Nat} (h : vs.length ≤ 16) : ∃ d, fill junk 0 vs = .ok d ∧ ∀ n : Int, n = vs.length → Rep ⟨n, d⟩ vs := by
  obtain ⟨d, h1, h2, -, h4⟩ := fill_ok vs junk 0 (by simpa using h) (by simp [junk])
  exact ⟨d, h1, fun n hn => ⟨hn, h, h2, fun i hi => by simpa using h4 i hi⟩⟩

theorem int16_small {n : Int} (h0 : -2 ^ 15 ≤ n) (h1 : n < 2 ^ 15) : int16 n = n := by unfold int16; omega

theorem rep_zeroed : Rep zeroed [] := ⟨rfl, by simp, rfl, fun i h => absurd h (by simp)⟩

theorem rep_ofVec {vs : List Nat} (h : vs.length ≤ 16) : ∃ r, ofVec vs = .ok r ∧ Rep r vs := by
  obtain ⟨d, h1, h2⟩ := rep_of_fill h
  refine ⟨⟨int16 vs.length, d⟩, by rw [ofVec, h1]; rfl, h2 _ (int16_small (by omega) (by omega))⟩

theorem rep_const (v : Nat) {n : Int} (h0 : 0 ≤ n) (h : n ≤ 16) : ∃ r, const v n = .ok r ∧ Rep r (List.replicate n.toNat v) := by
  obtain ⟨d, h1, h2⟩ := rep_of_fill (vs := List.replicate n.toNat v) (by simp; omega)
  exact ⟨⟨n, d⟩, by rw [const, h1]; rfl, h2 n (by simp; omega)⟩

theorem rep_set {r : Raw} {l : List Nat} (h : Rep r l) (i : Int) (v : Nat) :
    (0 ≤ i ∧ i < l.length → ∃ r', set true r i v = .ok r' ∧ Rep r' (l.set i.toNat v)) ∧
      (¬ (0 ≤ i ∧ i < l.length) → ∃ e, set true r i v = .throw e) := by
  have := h.few
  have hd := h.dims
  constructor
  · rintro ⟨h0, h1⟩
    refine ⟨{ r with data := r.data.set i.toNat (some v) }, ?_, ?_⟩
    · simp only [set, hd]
      simp only [h0, h1, decide_true, Bool.not_true, Bool.and_false, Bool.false_eq_true, if_false]
      rw [if_neg (by omega), store, if_pos (by rw [show maxDims = 16 from rfl]; omega)]
      rfl
    · refine ⟨by simpa using hd, by simpa using h.few, by simpa using h.size, fun j hj => ?_⟩
      simp only [List.length_set] at hj
      simp only
      by_cases hij : i.toNat = j
      · subst hij
        rw [List.getElem?_set_self (by rw [h.size, show maxDims = 16 from rfl]; omega)]
        simp
      · rw [List.getElem?_set_ne hij, h.data j hj]
        simp [List.getElem_set_ne hij]
  · intro hn
    by_cases h1 : i < l.length
    · refine ⟨.rangeError, ?_⟩
      simp [set, hd, h1, show ¬ 0 ≤ i by tauto]
    · exact ⟨.outOfRange, by simp [set, hd, h1]⟩

theorem loads_ok {r : Raw} {l : List Nat} (h : Rep r l) : ∀ (n i : Nat), i + n ≤ l.length → loads r.data n i = .ok ((l.drop i).take n)
  | 0, i, _ => by simp [loads]
  | n + 1, i, hi => by
    have h1 := load_rep h i (by omega)
    have h2 := loads_ok h n (i + 1) (by omega)
    rw [loads, h1]
    push_cast at h2
    simp only [Out.bind, h2]
    rw [List.drop_eq_getElem_cons (by omega : i < l.length), List.take_succ_cons]

theorem rep_sub {r : Raw} {l : List Nat} (h : Rep r l) (a b a' b' : Int) (ha : a' = if a < 0 then 0 else a)
    (hb : b' = if b < 0 then (l.length : Int) else b) :
    (a' ≤ b' ∧ b' ≤ l.length → ∃ r', subshape true r a b = .ok r' ∧ Rep r' ((l.take b'.toNat).drop a'.toNat)) ∧
      (¬ (a' ≤ b' ∧ b' ≤ l.length) → ∃ e, subshape true r a b = .throw e) := by
  have hf := h.few
  have hd := h.dims
  have a0 : 0 ≤ a' := by rw [ha]; split_ifs <;> omega
  have b0 : 0 ≤ b' := by rw [hb]; split_ifs <;> omega
  have e : subshape true r a b = if !decide (a' ≤ b') then .throw .rangeError else if !decide (b' ≤ l.length) then .throw .outOfRange
      else (loads r.data (int16 (b' - a')).toNat a').bind fun l => (fill junk 0 l).bind fun d => .ok ⟨int16 (b' - a'), d⟩ := by
    simp only [subshape, hd, ← ha, ← hb, Bool.true_and]
  constructor
  · rintro ⟨h1, h2⟩
    have hl := loads_ok h (b' - a').toNat a'.toNat (by omega)
    rw [Int.toNat_of_nonneg a0] at hl
    obtain ⟨d, h3, h4⟩ := rep_of_fill (vs := (l.drop a'.toNat).take (b' - a').toNat) (by simp; omega)
    refine ⟨⟨b' - a', d⟩, ?_, ?_⟩
    · rw [e]
      simp only [h1, h2, decide_true, Bool.not_true, Bool.false_eq_true, if_false]
      rw [int16_small (by omega) (by omega), hl]
      simp only [Out.bind, h3]
    · have : (l.take b'.toNat).drop a'.toNat = (l.drop a'.toNat).take (b' - a').toNat := by
        rw [List.drop_take]; congr 1; omega
      rw [this]
      exact h4 _ (by simp; omega)
  · intro hn
    rw [e]
    by_cases h1 : a' ≤ b'
    · exact ⟨.outOfRange, by simp [h1, show ¬ b' ≤ l.length by tauto]⟩
    · exact ⟨.rangeError, by simp [h1]⟩

theorem rep_get {r : Raw} {l : List Nat} (h : Rep r l) (i : Int) :
    (∀ hi : 0 ≤ i ∧ i < l.length, get true r i = .ok (l[i.toNat]'(by omega))) ∧
      (¬ (0 ≤ i ∧ i < l.length) → ∃ e, get true r i = .throw e) := by
  have hd := h.dims
  constructor
  · rintro ⟨h0, h1⟩
    have := load_rep h i.toNat (by omega)
    rw [Int.toNat_of_nonneg h0] at this
    simp [get, hd, h0, h1, this]
  · intro hn
    by_cases h1 : i < l.length
    · exact ⟨.outOfRange, by simp [get, hd, h1, show ¬ 0 ≤ i by tauto]⟩
    · exact ⟨.outOfRange, by simp [get, hd, h1]⟩

theorem rep_eq {r r' : Raw} {l l' : List Nat} (h : Rep r l) (h' : Rep r' l') : eq r r' = .ok (decide (l = l')) := by
  have hd := h.dims
  have hd' := h'.dims
  unfold eq
  by_cases hlen : l.length = l'.length
  · rw [if_neg (by rw [hd, hd']; omega), hd, Int.toNat_natCast]
    have key : ∀ n i, i + n = l.length → same r.data r'.data n i = .ok (decide (l.drop i = l'.drop i)) := by
      intro n
      induction n with
      | zero =>
        intro i hi
        rw [same, List.drop_of_length_le (by omega), List.drop_of_length_le (by omega)]
        simp
      | succ n ih =>
        intro i hi
        rw [same, load_rep h i (by omega), load_rep h' i (by omega)]
        simp only [Out.bind]
        have e1 := List.drop_eq_getElem_cons (by omega : i < l.length)
        have e2 := List.drop_eq_getElem_cons (by omega : i < l'.length)
        by_cases hx : l[i] = l'[i]
        · rw [if_neg (by simpa using hx), ih (i + 1) (by omega)]
          congr 1
          apply decide_eq_decide.2
          rw [e1, e2, hx]
          exact ⟨fun e => by rw [e], fun e => (List.cons.inj e).2⟩
        · rw [if_pos hx, e1, e2]
          have : l[i] :: l.drop (i + 1) ≠ l'[i] :: l'.drop (i + 1) := fun e => hx (List.cons.inj e).1
          simp only [decide_eq_false this]
    simpa using key l.length 0 (by omega)
  · rw [if_pos (by rw [hd, hd']; omega)]
    have : l ≠ l' := fun e => hlen (by rw [e])
    simp [this]

theorem intercalate_cons (a : String) (l : List String) (h : l ≠ []) :
    String.intercalate ", " (a :: l) = a ++ ", " ++ String.intercalate ", " l := by
  cases l with
  | nil => exact absurd rfl h
  | cons b l => rw [String.intercalate_cons_cons]

theorem rep_str {r : Raw} {l : List Nat} (h : Rep r l) : str r = .ok (text l) := by
  have hd := h.dims
  unfold str
  have key : ∀ n i, i + n = l.length → strFrom r.data (r.dims - 1) n (i : Int) = .ok (String.intercalate ", " ((l.drop i).map toString)) := by
    intro n
    induction n with
    | zero =>
      intro i hi
      rw [strFrom, List.drop_of_length_le (by omega)]
      rfl
    | succ n ih =>
      intro i hi
      have e := ih (i + 1) (by omega)
      push_cast at e
      rw [strFrom, load_rep h i (by omega)]
      simp only [Out.bind, e]
      rw [List.drop_eq_getElem_cons (by omega : i < l.length), List.map_cons]
      by_cases hn : n = 0
      · subst hn
        rw [List.drop_of_length_le (by omega), if_neg (by rw [hd]; omega)]
        simp
      · rw [if_pos (by rw [hd]; omega), intercalate_cons]
        intro hc
        have := congrArg List.length hc
        simp at this
        omega
  have := key l.length 0 (by omega)
  rw [hd, Int.toNat_natCast]
  rw [hd] at this
  simp only [Nat.cast_zero, List.drop_zero] at this
  rw [this]
  rfl

/-! ## Programs -/

/-- A state of the objects and the state of the lists they hold. -/
structure Sim (s : State Raw) (t : State (List Nat)) : Prop where
  vars : s.vars = t.vars
  next : s.next = t.next
  heap : ∀ r, (s.heap r = none ∧ t.heap r = none) ∨ ∃ o l, s.heap r = some o ∧ t.heap r = some l ∧ Rep o l

theorem sim_bind {s : State Raw} {t : State (List Nat)} (h : Sim s t) (x : Nat) {o : Raw} {l : List Nat} (hr : Rep o l) :
    Sim (s.bind x o) (t.bind x l) := by
  refine ⟨?_, by simp [State.bind, h.next], fun r => ?_⟩
  · simp only [State.bind, h.vars, h.next]
  · simp only [State.bind, h.next]
    by_cases e : r = t.next
    · simp only [if_pos e]; exact Or.inr ⟨o, l, rfl, rfl, hr⟩
    · simp only [if_neg e]; exact h.heap r

theorem sim_put {s : State Raw} {t : State (List Nat)} (h : Sim s t) (q : Nat) {o : Raw} {l : List Nat} (hr : Rep o l) :
    Sim (s.put q o) (t.put q l) := by
  refine ⟨h.vars, h.next, fun r => ?_⟩
  simp only [State.put]
  by_cases e : r = q
  · simp only [if_pos e]; exact Or.inr ⟨o, l, rfl, rfl, hr⟩
  · simp only [if_neg e]; exact h.heap r

theorem sim_find {s : State Raw} {t : State (List Nat)} (h : Sim s t) (x : Nat) :
    (s.find x = none ∧ t.find x = none) ∨ ∃ r o l, s.find x = some (r, o) ∧ t.find x = some (r, l) ∧ Rep o l := by
  unfold State.find
  rw [h.vars]
  cases hv : t.vars x with
  | none => exact Or.inl ⟨rfl, rfl⟩
  | some r =>
    rcases h.heap r with ⟨h1, h2⟩ | ⟨o, l, h1, h2, h3⟩
    · exact Or.inl ⟨by simp [h1], by simp [h2]⟩
    · exact Or.inr ⟨r, o, l, by simp [h1], by simp [h2], h3⟩

/-- At most 16 dimensions, and arguments of `subshape` of 16 bits. -/
def Modest : Stmt → Prop
  | .new _ vals => vals.length ≤ 16
  | .zeros _ n => 0 ≤ n ∧ n ≤ 16
  | .ones _ n => 0 ≤ n ∧ n ≤ 16
  | .sub _ _ a b => (-2 ^ 15 ≤ a ∧ a < 2 ^ 15) ∧ -2 ^ 15 ≤ b ∧ b < 2 ^ 15
  | _ => True

theorem exec_sim {s : State Raw} {t : State (List Nat)} (h : Sim s t) (c : Stmt) (hm : Modest c) :
    (∃ s' t', exec true s c = .ok s' ∧ means t c = some t' ∧ Sim s' t') ∨ (exec true s c = .raises ∧ means t c = none) := by
  cases c with
  | empty x => exact Or.inl ⟨_, _, rfl, rfl, sim_bind h x rep_zeroed⟩
  | new x vals =>
    by_cases hv : ∀ v ∈ vals, 0 ≤ v ∧ v < 2 ^ 32
    · obtain ⟨r, h1, h2⟩ := rep_ofVec (vs := vals.map Int.toNat) (by simp only [Modest] at hm; simpa using hm)
      have : vals.all isU32 = true := by simpa [isU32] using hv
      exact Or.inl ⟨_, _, by simp only [exec, this, if_true, h1]; rfl, by simp only [means, if_pos hv], sim_bind h x h2⟩
    · have : vals.all isU32 = false := by
        rw [← Bool.not_eq_true]; simpa [isU32] using hv
      exact Or.inr ⟨by simp only [exec, this]; rfl, by simp only [means, if_neg hv]⟩
  | copy x y =>
    rcases sim_find h y with ⟨h1, h2⟩ | ⟨r, o, l, h1, h2, h3⟩
    · exact Or.inr ⟨by simp only [exec, h1], by simp only [means, h2]; rfl⟩
    · exact Or.inl ⟨_, _, by simp only [exec, h1], by simp only [means, h2]; rfl, sim_bind h x h3⟩
  | name x y =>
    have hv := congrFun h.vars y
    cases e : t.vars y with
    | none => exact Or.inr ⟨by simp only [exec, hv, e], by simp only [means, e]; rfl⟩
    | some r =>
      refine Or.inl ⟨{ s with vars := fun z => if z = x then some r else s.vars z },
        { t with vars := fun z => if z = x then some r else t.vars z }, by simp only [exec, hv, e], by simp only [means, e]; rfl,
        ⟨?_, h.next, h.heap⟩⟩
      simp only [h.vars]
  | zeros x n =>
    obtain ⟨h0, h1⟩ := hm
    obtain ⟨r, h2, h3⟩ := rep_const 0 h0 (by simpa using h1)
    have : isInt n = true := by simp only [isInt, Bool.and_eq_true, decide_eq_true_eq]; omega
    refine Or.inl ⟨_, _, ?_, by simp only [means, if_pos h0], sim_bind h x h3⟩
    simp only [exec, this, if_true, int16_small (by omega : -2 ^ 15 ≤ n) (by omega), h2]
    rfl
  | ones x n =>
    obtain ⟨h0, h1⟩ := hm
    obtain ⟨r, h2, h3⟩ := rep_const 1 h0 (by simpa using h1)
    have : isInt n = true := by simp only [isInt, Bool.and_eq_true, decide_eq_true_eq]; omega
    refine Or.inl ⟨_, _, ?_, by simp only [means, if_pos h0], sim_bind h x h3⟩
    simp only [exec, this, if_true, int16_small (by omega : -2 ^ 15 ≤ n) (by omega), h2]
    rfl
  | set x i v =>
    rcases sim_find h x with ⟨h1, h2⟩ | ⟨r, o, l, h1, h2, h3⟩
    · exact Or.inr ⟨by simp only [exec, h1], by simp only [means, h2]; rfl⟩
    · have few := h3.few
      by_cases hv : 0 ≤ v ∧ v < 2 ^ 32
      · have hu : isU32 v = true := by simp only [isU32, Bool.and_eq_true, decide_eq_true_eq]; exact hv
        by_cases hi : 0 ≤ i ∧ i < l.length
        · have hii : isInt i = true := by simp only [isInt, Bool.and_eq_true, decide_eq_true_eq]; omega
          obtain ⟨o', e1, e2⟩ := (rep_set h3 i v.toNat).1 hi
          refine Or.inl ⟨s.put r o', t.put r (l.set i.toNat v.toNat), ?_, ?_, sim_put h r e2⟩
          · simp only [exec, h1, hii, hu, Bool.and_true, if_true, e1]
          · simp only [means, h2, Option.bind_some]
            rw [if_pos ⟨hi.1, hi.2, hv⟩]
        · refine Or.inr ⟨?_, ?_⟩
          · simp only [exec, h1]
            obtain ⟨e, he⟩ := (rep_set h3 i v.toNat).2 hi
            rw [he]
            split <;> rfl
          · simp only [means, h2, Option.bind_some]
            rw [if_neg (by tauto)]
      · refine Or.inr ⟨?_, ?_⟩
        · have hu : isU32 v = false := by
            rw [← Bool.not_eq_true]; simp only [isU32, Bool.and_eq_true, decide_eq_true_eq]; exact hv
          simp only [exec, h1, hu, Bool.and_false, Bool.false_eq_true, if_false]
        · simp only [means, h2, Option.bind_some]
          rw [if_neg (by tauto)]
  | sub x y a b =>
    obtain ⟨⟨a0, a1⟩, b0, b1⟩ := hm
    have ia : isInt a = true := by simp only [isInt, Bool.and_eq_true, decide_eq_true_eq]; omega
    have ib : isInt b = true := by simp only [isInt, Bool.and_eq_true, decide_eq_true_eq]; omega
    rcases sim_find h y with ⟨h1, h2⟩ | ⟨r, o, l, h1, h2, h3⟩
    · exact Or.inr ⟨by simp only [exec, h1], by simp only [means, h2]; rfl⟩
    · obtain ⟨k1, k2⟩ := rep_sub h3 a b _ _ rfl rfl
      by_cases hc : (if a < 0 then 0 else a) ≤ (if b < 0 then (l.length : Int) else b) ∧ (if b < 0 then (l.length : Int) else b) ≤ l.length
      · obtain ⟨o', e1, e2⟩ := k1 hc
        refine Or.inl ⟨_, _, ?_, ?_, sim_bind h x e2⟩
        · simp only [exec, h1, ia, ib, Bool.and_true, if_true, int16_small a0 a1, int16_small b0 b1, e1]
          rfl
        · simp only [means, h2, Option.bind_some]
          rw [if_pos hc]
      · obtain ⟨e, he⟩ := k2 hc
        refine Or.inr ⟨?_, ?_⟩
        · simp only [exec, h1, ia, ib, Bool.and_true, if_true, int16_small a0 a1, int16_small b0 b1, he]
          rfl
        · simp only [means, h2, Option.bind_some]
          rw [if_neg hc]

theorem run_sim : ∀ (prog : List Stmt) (s : State Raw) (t : State (List Nat)), Sim s t → (∀ c ∈ prog, Modest c) →
    ∃ s', run true prog s = some s' ∧ Sim s' (meansAll prog t)
  | [], s, t, h, _ => ⟨s, rfl, h⟩
  | c :: cs, s, t, h, hm => by
    rcases exec_sim h c (hm c (by simp)) with ⟨s', t', e1, e2, h'⟩ | ⟨e1, e2⟩
    · obtain ⟨s2, h1, h2⟩ := run_sim cs s' t' h' (fun d hd => hm d (by simp [hd]))
      exact ⟨s2, by simp only [run, e1, h1], by simpa [meansAll, e2] using h2⟩
    · obtain ⟨s2, h1, h2⟩ := run_sim cs s t h (fun d hd => hm d (by simp [hd]))
      exact ⟨s2, by simp only [run, e1, h1], by simpa [meansAll, e2] using h2⟩

theorem query_sim {s : State Raw} {t : State (List Nat)} (h : Sim s t) (q : Query) : query true s q = .ofOption (value t q) := by
  cases q with
  | get x i =>
    rcases sim_find h x with ⟨h1, h2⟩ | ⟨r, o, l, h1, h2, h3⟩
    · simp only [query, h1, value, h2]; rfl
    · have few := h3.few
      simp only [query, h1, value, h2, Option.bind_some]
      by_cases hi : 0 ≤ i ∧ i < l.length
      · have hii : isInt i = true := by simp only [isInt, Bool.and_eq_true, decide_eq_true_eq]; omega
        rw [if_pos hii, (rep_get h3 i).1 hi, if_pos hi.1, List.getElem?_eq_getElem (by omega)]
        rfl
      · obtain ⟨e, he⟩ := (rep_get h3 i).2 hi
        rw [he]
        have : (if 0 ≤ i then (l[i.toNat]?).map fun v => Val.int v else none) = none := by
          split
          · rw [List.getElem?_eq_none (by omega)]; rfl
          · rfl
        rw [this]
        split <;> rfl
  | len x =>
    rcases sim_find h x with ⟨h1, h2⟩ | ⟨r, o, l, h1, h2, h3⟩
    · simp only [query, h1, value, h2]; rfl
    · simp only [query, h1, value, h2, h3.dims, pyLen]
      rw [if_neg (by omega)]; rfl
  | ndim x =>
    rcases sim_find h x with ⟨h1, h2⟩ | ⟨r, o, l, h1, h2, h3⟩
    · simp only [query, h1, value, h2]; rfl
    · simp only [query, h1, value, h2, h3.dims]; rfl
  | eq x y =>
    rcases sim_find h x with ⟨h1, h2⟩ | ⟨r, o, l, h1, h2, h3⟩
    · simp only [query, h1, value, h2]; rfl
    · rcases sim_find h y with ⟨h1', h2'⟩ | ⟨r', o', l', h1', h2', h3'⟩
      · simp only [query, h1, h1', value, h2, h2']; rfl
      · simp only [query, h1, h1', value, h2, h2', rep_eq h3 h3']; rfl
  | str x =>
    rcases sim_find h x with ⟨h1, h2⟩ | ⟨r, o, l, h1, h2, h3⟩
    · simp only [query, h1, value, h2]; rfl
    · simp only [query, h1, value, h2, rep_str h3]; rfl

/-! ## C129 -/

/-- **C129 (partial: assertions on, at most 16 dimensions, arguments of `subshape` of 16 bits).** Every program, of any length and with
exceptions caught anywhere, runs as it does over lists: no undefined behaviour, every expression has the value of the list program, or
both raise. -/
theorem C129_partial (prog : List Stmt) (h : ∀ c ∈ prog, Modest c) :
    ∃ s, run true prog {} = some s ∧ ∀ q, query true s q = .ofOption (value (meansAll prog {}) q) := by
  obtain ⟨s, h1, h2⟩ := run_sim prog {} {} ⟨rfl, rfl, fun _ => Or.inl ⟨rfl, rfl⟩⟩ h
  exact ⟨s, h1, query_sim h2⟩

/-- `a = Shape([2, 3, 4]); b = a; a[1] = 7; c = b.subshape(1, -1); c[5] = 1`, then `str(c)`. -/
example : ∃ s, run true [.new 0 [2, 3, 4], .name 1 0, .set 0 1 7, .sub 2 1 1 (-1), .set 2 5 1] {} = some s ∧
    query true s (.str 2) = .ok (.text "Shape(7, 4)") := by
  obtain ⟨s, h1, h2⟩ := C129_partial [.new 0 [2, 3, 4], .name 1 0, .set 0 1 7, .sub 2 1 1 (-1), .set 2 5 1] (by
    intro c hc
    simp at hc
    rcases hc with rfl | rfl | rfl | rfl | rfl <;> simp [Modest])
  refine ⟨s, h1, ?_⟩
  rw [h2]
  rfl

theorem fill_ub : ∀ (vs : List Nat) (d : List (Option Nat)) (i : Nat), i ≤ maxDims → maxDims < i + vs.length → fill d i vs = .ub
  | [], d, i, h, h' => by simp at h'; omega
  | v :: vs, d, i, h, h' => by
    simp only [List.length_cons] at h'
    rw [fill, store]
    by_cases hi : i < maxDims
    · rw [if_pos hi]; exact fill_ub vs _ (i + 1) (by omega) (by omega)
    · rw [if_neg hi]; rfl

/-- **C129: more than 16 dimensions.** `Shape([...])` with more than 16 values writes beyond the object, with assertions or not. So do
`zeros` and `ones`. -/
theorem C129_too_many (asserts : Bool) (s : State Raw) (x : Nat) :
    (∀ vals : List Int, (∀ v ∈ vals, 0 ≤ v ∧ v < 2 ^ 32) → 16 < vals.length → exec asserts s (.new x vals) = .ub) ∧
      ∀ n : Int, 16 < n → n < 2 ^ 15 → exec asserts s (.zeros x n) = .ub ∧ exec asserts s (.ones x n) = .ub := by
  constructor
  · intro vals hv hl
    have : vals.all isU32 = true := by simpa [isU32] using hv
    simp only [exec, this, if_true, ofVec, fill_ub (vals.map Int.toNat) junk 0 (by simp) (by simpa using hl)]
    rfl
  · intro n h0 h1
    have hi : isInt n = true := by simp only [isInt, Bool.and_eq_true, decide_eq_true_eq]; omega
    have e : ∀ v, const v (int16 n) = .ub := by
      intro v
      rw [int16_small (by omega) h1, const, fill_ub _ _ _ (by simp) (by simp; omega)]
      rfl
    simp only [exec, hi, if_true, e]
    exact ⟨rfl, rfl⟩

/-- **C129 is false**, with and without assertions. -/
theorem C129_false (asserts : Bool) : ¬ C129Claim asserts := by
  intro h
  obtain ⟨s, h1, -⟩ := h [.new 0 (List.replicate 17 1)]
  rw [run, (C129_too_many asserts {} 0).1 _ (by intro v hv; rw [List.eq_of_mem_replicate hv]; decide) (by simp)] at h1
  cases h1

/-- **C129: the number of dimensions is taken modulo 2^16.** `Shape.zeros(n + 65536)` is `Shape.zeros(n)`, for `ones` and for the arguments of
`subshape` likewise. -/
theorem C129_wraps (asserts : Bool) (s : State Raw) (x y : Nat) (n m : Int) (hn : 0 ≤ n) (hn' : n < 2 ^ 15) (hm : 0 ≤ m) (hm' : m < 2 ^ 15) :
    exec asserts s (.zeros x (n + 65536)) = exec asserts s (.zeros x n) ∧ exec asserts s (.ones x (n + 65536)) = exec asserts s (.ones x n) ∧
      exec asserts s (.sub x y (n + 65536) (m + 65536)) = exec asserts s (.sub x y n m) := by
  have e : ∀ k : Int, int16 (k + 65536) = int16 k := by intro k; unfold int16; omega
  have i1 : isInt n = true := by simp only [isInt, Bool.and_eq_true, decide_eq_true_eq]; omega
  have i2 : isInt (n + 65536) = true := by simp only [isInt, Bool.and_eq_true, decide_eq_true_eq]; omega
  have i3 : isInt m = true := by simp only [isInt, Bool.and_eq_true, decide_eq_true_eq]; omega
  have i4 : isInt (m + 65536) = true := by simp only [isInt, Bool.and_eq_true, decide_eq_true_eq]; omega
  simp only [exec, i1, i2, i3, i4, e, and_self]

example : ∃ s, exec true {} (.zeros 0 65537) = .ok s ∧ query true s (.str 0) = .ok (.text "Shape(0)") := ⟨_, rfl, rfl⟩

/-- **C129: a negative number of dimensions is accepted.** `s = Shape.zeros(-n)` succeeds, `s.ndim()` is negative, `len(s)` raises and
`str(s)` is `Shape()`. -/
theorem C129_negative (asserts : Bool) (s : State Raw) (x : Nat) (n : Int) (h0 : n < 0) (h1 : -2 ^ 15 ≤ n) :
    ∃ s', exec asserts s (.zeros x n) = .ok s' ∧ query asserts s' (.ndim x) = .ok (.int n) ∧ query asserts s' (.len x) = .raises ∧
      query asserts s' (.str x) = .ok (.text "Shape()") := by
  have hi : isInt n = true := by simp only [isInt, Bool.and_eq_true, decide_eq_true_eq]; omega
  have hn : n.toNat = 0 := by omega
  have e : const 0 (int16 n) = .ok ⟨n, junk⟩ := by
    rw [int16_small h1 (by omega), const, hn]; rfl
  refine ⟨s.bind x ⟨n, junk⟩, by simp only [exec, hi, if_true, e]; rfl, ?_⟩
  have hf : (s.bind x ⟨n, junk⟩).find x = some (s.next, ⟨n, junk⟩) := by simp [State.find, State.bind]
  refine ⟨by simp only [query, hf], by simp only [query, hf, pyLen, if_pos h0], ?_⟩
  simp only [query, hf, str, hn]
  rfl

/-- **C129: without assertions** nothing is checked: reading or writing an index from 16 on, or below 0, is undefined. -/
theorem C129_unchecked (s : State Raw) (x r : Nat) (o : Raw) (h : s.find x = some (r, o)) (i v : Int) (hi : isInt i = true) (hv : isU32 v = true)
    (hb : i < 0 ∨ 16 ≤ i) : query false s (.get x i) = .ub ∧ exec false s (.set x i v) = .ub := by
  constructor
  · simp only [query, h, hi, if_true, get, Bool.false_and, Bool.false_eq_true, if_false, load]
    rw [if_neg (by simp; omega)]
    rfl
  · simp only [exec, h, hi, hv, Bool.and_true, if_true, PyShape.set, Bool.false_and, Bool.false_eq_true, if_false]
    by_cases hn : i < 0
    · simp [hn]
    · simp only [if_neg hn, store]
      rw [if_neg (by simp; omega)]
      rfl

/-! ### The text -/

/-- The characters of a list of extents between the brackets. -/
def chars : List Nat → List Char
  | [] => []
  | [n] => (toString n).toList
  | n :: m :: l => (toString n).toList ++ [',', ' '] ++ chars (m :: l)

theorem chars_eq (l : List Nat) : (String.intercalate ", " (l.map toString)).toList = chars l := by
  induction l with
  | nil => rfl
  | cons a l ih =>
    cases l with
    | nil => simp [chars]
    | cons b l =>
      rw [List.map_cons, intercalate_cons _ _ (by simp), chars, ← ih]
      simp

theorem digits_no_comma (n : Nat) : ∀ c ∈ (toString n).toList, c ≠ ',' := by
  intro c hc h
  subst h
  have : (toString n).toList = Nat.toDigits 10 n := by
    simp [toString, Nat.repr]
  rw [this] at hc
  have := Nat.isDigit_of_mem_toDigits (by norm_num) (by norm_num) hc
  revert this
  decide

theorem split_comma : ∀ (a b r r' : List Char), (∀ c ∈ a, c ≠ ',') → (∀ c ∈ b, c ≠ ',') → a ++ ',' :: r = b ++ ',' :: r' → a = b ∧ r = r'
  | [], [], r, r', _, _, h => ⟨rfl, by simpa using h⟩
  | [], b :: bs, r, r', _, hb, h => by
    simp at h
    exact absurd h.1.symm (hb b (by simp))
  | a :: as, [], r, r', ha, _, h => by
    simp at h
    exact absurd h.1 (ha a (by simp))
  | a :: as, b :: bs, r, r', ha, hb, h => by
    simp at h
    obtain ⟨h1, h2⟩ := split_comma as bs r r' (fun c hc => ha c (by simp [hc])) (fun c hc => hb c (by simp [hc])) h.2
    exact ⟨by rw [h.1, h1], h2⟩

theorem toString_inj {n m : Nat} (h : (toString n).toList = (toString m).toList) : n = m := by
  have : toString n = toString m := String.ext_iff.2 h
  have e := congrArg String.toList this
  simp only [toString, Nat.repr, String.toList_ofList] at e
  have e' := congrArg (fun d => Nat.ofDigitChars 10 d 0) e
  simpa only [Nat.ofDigitChars_toDigits (b := 10) (by decide) (by decide)] using e'

theorem chars_inj : ∀ l l' : List Nat, chars l = chars l' → l = l'
  | [], [], _ => rfl
  | [], [n], h => by
    have := Nat.length_toDigits_pos (b := 10) (n := n)
    have e : (toString n).toList = Nat.toDigits 10 n := by simp [toString, Nat.repr]
    simp only [chars, e] at h
    rw [← h] at this; simp at this
  | [], n :: m :: l, h => by
    have := congrArg List.length h
    simp [chars] at this
  | [n], [], h => by
    have := Nat.length_toDigits_pos (b := 10) (n := n)
    have e : (toString n).toList = Nat.toDigits 10 n := by simp [toString, Nat.repr]
    simp only [chars, e] at h
    rw [h] at this; simp at this
  | [n], [m], h => by rw [toString_inj h]
  | [n], m :: k :: l, h => by
    exfalso
    have : ',' ∈ chars [n] := by rw [h]; simp [chars]
    exact digits_no_comma n ',' this rfl
  | n :: m :: l, [], h => by
    have := congrArg List.length h
    simp [chars] at this
  | n :: m :: l, [k], h => by
    exfalso
    have : ',' ∈ chars [k] := by rw [← h]; simp [chars]
    exact digits_no_comma k ',' this rfl
  | n :: m :: l, n' :: m' :: l', h => by
    simp only [chars, List.append_assoc, List.cons_append, List.nil_append] at h
    obtain ⟨h1, h2⟩ := split_comma _ _ _ _ (digits_no_comma n) (digits_no_comma n') h
    simp at h2
    rw [toString_inj h1, chars_inj (m :: l) (m' :: l') h2]

/-- **C129: the text says what the extents are.** Shapes with the same text are equal. -/
theorem C129_text_partial (l l' : List Nat) (h : text l = text l') : l = l' := by
  apply chars_inj
  have := congrArg String.toList h
  simp only [text, String.toList_append, List.append_assoc] at this
  have := List.append_cancel_left this
  have := List.append_cancel_right this
  rwa [chars_eq, chars_eq] at this

end Verif.PyShape
