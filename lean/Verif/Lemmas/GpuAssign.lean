import Verif.Spec.GpuAssign
import Verif.Lemmas.GpuMore

/-! Lemmas about element-wise kernels. -/

namespace Verif.Gpu

/-! ### Where a program may write -/

section
variable {T G L V : Type} [DecidableEq T] [DecidableEq L]

/-- Every write goes to a location in `S`, whatever is read. -/
def Prog.WritesIn (S : L → Prop) : Prog L V → Prop
  | .ret => True
  | .fail => True
  | .read _ k => ∀ v, (k v).WritesIn S
  | .write l _ k => S l ∧ k.WritesIn S
  | .barrier k => k.WritesIn S

theorem writesIn_step {S : L → Prop} {grp : T → G} {c d : Cfg T L V} (h : ∀ t, (c.prog t).WritesIn S) (hs : Step grp c d) :
    (∀ t, (d.prog t).WritesIn S) ∧ ∀ x, ¬ S x → d.mem x = c.mem x := by
  cases hs with
  | @read t l k v hp hm =>
    refine ⟨fun t' => ?_, fun _ _ => rfl⟩
    have := h t
    rw [hp] at this
    by_cases e : t' = t
    · subst e; simpa using this v
    · simpa [Function.update_of_ne e] using h t'
  | @write t l v k w hp hm =>
    have := h t
    rw [hp] at this
    refine ⟨fun t' => ?_, fun x hx => Function.update_of_ne (fun e : x = l => hx (by rw [e]; exact this.1)) _ _⟩
    by_cases e : t' = t
    · subst e; simpa using this.2
    · simpa [Function.update_of_ne e] using h t'
  | barrier g p ne hp hp' =>
    refine ⟨fun t => ?_, fun _ _ => rfl⟩
    by_cases e : grp t = g
    · have := h t
      rw [hp t e] at this; exact this
    · show (p t).WritesIn S
      rw [hp' t e]; exact h t

theorem writesIn_steps {S : L → Prop} {grp : T → G} {c d : Cfg T L V} {n : Nat} (h : ∀ t, (c.prog t).WritesIn S) (hs : Steps grp c n d) :
    (∀ t, (d.prog t).WritesIn S) ∧ ∀ x, ¬ S x → d.mem x = c.mem x := by
  induction hs with
  | refl => exact ⟨h, fun _ _ => rfl⟩
  | step _ s ih =>
    obtain ⟨h1, h2⟩ := writesIn_step ih.1 s
    exact ⟨h1, fun x hx => (h2 x hx).trans (ih.2 x hx)⟩

/-- A work item that has failed stays failed. -/
theorem fail_steps {grp : T → G} {c d : Cfg T L V} {n : Nat} {t : T} (h : c.prog t = .fail) (hs : Steps grp c n d) : d.prog t = .fail := by
  induction hs with
  | refl => exact h
  | step _ s ih =>
    cases s with
    | @read t' l k v hp hm =>
      have : t ≠ t' := fun e => by subst e; rw [hp] at ih; cases ih
      simpa [Function.update_of_ne this] using ih
    | @write t' l v k w hp hm =>
      have : t ≠ t' := fun e => by subst e; rw [hp] at ih; cases ih
      simpa [Function.update_of_ne this] using ih
    | barrier g p ne hp hp' =>
      by_cases e : grp t = g
      · have := hp t e
        rw [this] at ih; cases ih
      · show p t = .fail
        rw [hp' t e]; exact ih
end

/-! ### One element -/

variable {V : Type}

theorem body_eff {dst i : Nat} {m : Nat → V} {M : Mem Cell V} (hd : M (dst, i) ≠ none) : ∀ (body : Body V), (∀ b, body.Reads b → M (b, i) = some (m b)) →
    Eff M (body.prog dst i) (Function.update M (dst, i) (some (body.eval m))) .ret (fun x => x.2 = i) (fun x => x = (dst, i))
  | .done v, _ => by
    refine (Eff.write (v := v) hd Eff.ret).congr (fun x hx => ?_) fun x => ?_
    · rcases hx with rfl | h
      · rfl
      · exact h.elim
    · simp
  | .fetch (.buf b) k, h => by
    have hb := h b (.inl rfl)
    have := body_eff hd (k (m b)) fun b' hb' => h b' (.inr ⟨_, hb'⟩)
    refine (Eff.read hb this).congr (fun x hx => ?_) fun x => Iff.rfl
    rcases hx with rfl | h
    · rfl
    · exact h
  | .fetch (.scalar v) k, h => body_eff hd (k v) fun b' hb' => h b' (.inr ⟨_, hb'⟩)

theorem body_writesIn {dst i : Nat} {S : Cell → Prop} (h : S (dst, i)) : ∀ body : Body V, (body.prog dst i).WritesIn S
  | .done _ => ⟨h, trivial⟩
  | .fetch (.buf _) k => fun v => body_writesIn h (k v)
  | .fetch (.scalar v) k => body_writesIn h (k v)

theorem workItems_ge {be : Backend} {n : Nat} : n ≤ workItems be n := by
  cases be
  · exact Nat.le_refl _
  · simp only [workItems]; split <;> omega

theorem workItems_le {be : Backend} {n : Nat} (h : n ≤ be.limit) : workItems be n ≤ be.limit := by
  cases be
  · exact h
  · simp only [workItems, Backend.limit] at *; split <;> omega

theorem elementKernel_in {be : Backend} {n dst i : Nat} {body : Body V} (hn : n ≤ be.limit) (hi : i < n) : elementKernel be n dst body i = body.prog dst i := by
  cases be
  · simp only [Backend.limit] at hn
    exact within_eq (by omega)
  · simp only [Backend.limit] at hn
    simp only [elementKernel]
    rw [Nat.mod_eq_of_lt (by omega), if_pos hi]

theorem elementKernel_out {be : Backend} {n dst i : Nat} {body : Body V} (hn : n ≤ be.limit) (hw : i < workItems be n) (hi : ¬ i < n) : elementKernel be n dst body i = .ret := by
  have := workItems_le hn
  cases be
  · exact absurd hw hi
  · simp only [Backend.limit] at this
    simp only [elementKernel]
    rw [Nat.mod_eq_of_lt (by omega), if_neg hi]

theorem elementKernel_sound {G : Type} {be : Backend} {n dst : Nat} {grp : Fin (workItems be n) → G} {body : Body V} {M : Mem Cell V} {E : Nat → Nat → V}
    (hn : n ≤ be.limit) (hd : ∀ i, i < n → M (dst, i) ≠ none) (hr : ∀ b i, body.Reads b → i < n → M (b, i) = some (E b i))
    {s : Nat} {c : Cfg (Fin (workItems be n)) Cell V} (hs : Steps grp ⟨fun t => elementKernel be n dst body t, M⟩ s c) (hst : Stuck grp c) :
    Done c ∧ (∀ i, i < n → c.mem (dst, i) = some (body.eval fun b => E b i)) ∧ ∀ x, (∀ i, i < n → x ≠ (dst, i)) → c.mem x = M x := by
  have eff : ∀ i, i < n → Eff M (elementKernel be n dst body i) (Function.update M (dst, i) (some (body.eval fun b => E b i))) .ret (fun x => x.2 = i) (fun x => x = (dst, i)) := by
    intro i hi
    rw [elementKernel_in hn hi]
    exact body_eff (hd i hi) body fun b hb => hr b i hb hi
  have out : ∀ t : Fin (workItems be n), ¬ (t : Nat) < n → Eff M (elementKernel be n dst body t) M .ret (fun _ => False) (fun _ => False) := by
    intro t ht
    rw [elementKernel_out hn t.2 ht]; exact Eff.ret
  have key : ∀ t : Fin (workItems be n), safe M (elementKernel be n dst body t) ∧ (solo M (elementKernel be n dst body t)).2 = .ret ∧
      (∀ x, wr M (elementKernel be n dst body t) x → (t : Nat) < n ∧ x = (dst, (t : Nat))) ∧ ∀ x, acc M (elementKernel be n dst body t) x → x.2 = t := by
    intro t
    by_cases ht : (t : Nat) < n
    · have e := eff t ht
      exact ⟨e.safe, by rw [e.solo], fun x hx => ⟨ht, (e.wr x).1 hx⟩, fun x hx => e.acc _ hx⟩
    · have e := out t ht
      exact ⟨e.safe, by rw [e.solo], fun x hx => ((e.wr x).1 hx).elim, fun x hx => (e.acc _ hx).elim⟩
  obtain ⟨h1, h2, h3⟩ := indep_sound (fun t => (key t).1) (fun t => (key t).2.1) (fun t t' x hw ha => by
    obtain ⟨-, hx⟩ := (key t).2.2.1 x hw
    have := (key t').2.2.2 x ha
    rw [hx] at this
    exact Fin.ext this) hs hst
  refine ⟨h1, fun i hi => ?_, fun x hx => h3 x fun t hw => ?_⟩
  · have e := eff i hi
    have := h2 ⟨i, Nat.lt_of_lt_of_le hi workItems_ge⟩ (dst, i) ((e.wr _).2 rfl)
    rw [this, e.solo]; exact Function.update_self ..
  · obtain ⟨ht, he⟩ := (key t).2.2.1 x hw
    exact hx t ht he

/-! ### Termination -/

theorem body_atMost {dst i : Nat} : ∀ (n : Nat) (body : Body V), body.AtMost n → (body.prog dst i).AtMost (n + 1)
  | n, .done v, _ => Prog.AtMost.write Prog.AtMost.ret
  | 0, .fetch _ _, h => h.elim
  | n + 1, .fetch (.buf b) k, h => Prog.AtMost.read fun v => body_atMost n (k v) (h v)
  | n + 1, .fetch (.scalar v) k, h => (body_atMost n (k v) (h v)).succ

theorem elementKernel_atMost {be : Backend} {n dst i b : Nat} {body : Body V} (h : body.AtMost b) : (elementKernel be n dst body i).AtMost (b + 1) := by
  cases be
  · exact Prog.AtMost.within (body_atMost b body h)
  · simp only [elementKernel]; split
    · exact body_atMost b body h
    · exact Prog.AtMost.ret

/-! ### Expressions -/

/-- The arrays of the expression hold `E`. -/
def Holds (n : Nat) (E : Nat → Nat → V) (e : GExpr V) (M : Mem Cell V) : Prop := ∀ b i, e.Uses b → i < n → M (b, i) = some (E b i)

/-- Nothing that is allocated changes. -/
def Keeps (M M' : Mem Cell V) : Prop := ∀ x, M x ≠ none → M' x = M x

theorem Keeps.trans {M M' M'' : Mem Cell V} (h : Keeps M M') (h' : Keeps M' M'') : Keeps M M'' := fun x hx => by
  rw [h' x (by rw [h x hx]; exact hx), h x hx]

theorem Holds.keep {n : Nat} {E : Nat → Nat → V} {e : GExpr V} {M M' : Mem Cell V} (h : Holds n E e M) (k : Keeps M M') : Holds n E e M' := fun b i hb hi => by
  have := h b i hb hi
  rw [k _ (by rw [this]; simp), this]

/-- What an evaluated argument stands for. -/
def ArgIs (n : Nat) (M : Mem Cell V) (a : Arg V) (f : Nat → V) : Prop :=
  match a with
  | .buf b => ∀ i, i < n → M (b, i) = some (f i)
  | .scalar v => ∀ i, f i = v

theorem ArgIs.keep {n : Nat} {M M' : Mem Cell V} {a : Arg V} {f : Nat → V} (h : ArgIs n M a f) (k : Keeps M M') : ArgIs n M' a f := by
  cases a with
  | buf b => exact fun i hi => by rw [k _ (by rw [h i hi]; simp), h i hi]
  | scalar v => exact h

theorem ArgIs.val {n : Nat} {M : Mem Cell V} {a : Arg V} {f : Nat → V} (h : ArgIs n M a f) {d : V} {i : Nat} (hi : i < n) : a.val (fun b => (M (b, i)).getD d) = f i := by
  cases a with
  | buf b => show (M (b, i)).getD d = f i; rw [h i hi]; rfl
  | scalar v => exact (h i).symm

/-- Assigning an expression gives its value. -/
def AssignOk (be : Backend) (n : Nat) (E : Nat → Nat → V) (e : GExpr V) : Prop :=
  ∀ dst M o, (∀ i, i < n → M (dst, i) ≠ none) → Holds n E e M → Assign be n dst e M o →
    ∃ M', o = some M' ∧ (∀ i, i < n → M' (dst, i) = some (e.den E i)) ∧ ∀ x, M x ≠ none → (∀ i, i < n → x ≠ (dst, i)) → M' x = M x

theorem evalArg_ok {be : Backend} {n : Nat} {E : Nat → Nat → V} {e : GExpr V} (ha : AssignOk be n E e) {M : Mem Cell V} {o} (hh : Holds n E e M) (h : EvalArg be n e M o) :
    ∃ a M', o = some (a, M') ∧ Keeps M M' ∧ ArgIs n M' a fun i => e.den E i := by
  have fresh : ∀ {t M₁}, Fresh n t M M₁ → Keeps M M₁ := fun {t M₁} hf => fun ⟨b, i⟩ hx => hf.2.1 b i fun e => hx (e ▸ hf.1 i)
  cases h with
  | @arr b => exact ⟨.buf b, M, rfl, fun _ _ => rfl, fun i hi => hh b i rfl hi⟩
  | @scalar v => exact ⟨.scalar v, M, rfl, fun _ _ => rfl, fun _ => rfl⟩
  | @fn _ t _ M₁ M₂ hf h =>
    obtain ⟨M', h1, h2, h3⟩ := ha t M₁ _ hf.2.2 (hh.keep (fresh hf)) h
    cases h1
    refine ⟨.buf t, M₂, rfl, fun ⟨b, i⟩ hx => ?_, h2⟩
    have hne : b ≠ t := fun e => hx (e ▸ hf.1 i)
    rw [h3 (b, i) (by rw [fresh hf _ hx]; exact hx) (fun j _ he => hne (congrArg Prod.fst he)), fresh hf _ hx]
  | @fnWrong _ t _ M₁ hf h =>
    obtain ⟨M', h1, -⟩ := ha t M₁ _ hf.2.2 (hh.keep (fresh hf)) h
    cases h1

theorem launch_ok {be : Backend} {n dst : Nat} {body : Body V} {M : Mem Cell V} {o} (hn : n ≤ be.limit) (hd : ∀ i, i < n → M (dst, i) ≠ none)
    (E : Nat → Nat → V) (hr : ∀ b i, body.Reads b → i < n → M (b, i) = some (E b i)) (h : Launch be n dst body M o) :
    ∃ M', o = some M' ∧ (∀ i, i < n → M' (dst, i) = some (body.eval fun b => E b i)) ∧ ∀ x, (∀ i, i < n → x ≠ (dst, i)) → M' x = M x := by
  cases h with
  | ok hs hst hdn =>
    obtain ⟨-, h2, h3⟩ := elementKernel_sound hn hd hr hs hst
    exact ⟨_, rfl, h2, h3⟩
  | wrong hs hst hdn => exact absurd (elementKernel_sound hn hd hr hs hst).1 hdn

theorem launch_bin {be : Backend} {n dst : Nat} {k : BinKernel V} {a b : Arg V} {f g : Nat → V} {M : Mem Cell V} {o} (hn : n ≤ be.limit) (hd : ∀ i, i < n → M (dst, i) ≠ none)
    (ha : ArgIs n M a f) (hb : ArgIs n M b g) (h : Launch be n dst (k.body a b) M o) :
    ∃ M', o = some M' ∧ (∀ i, i < n → M' (dst, i) = some (k.op (f i) (g i))) ∧ ∀ x, (∀ i, i < n → x ≠ (dst, i)) → M' x = M x := by
  obtain ⟨M', h1, h2, h3⟩ := launch_ok hn hd (fun b i => (M (b, i)).getD (f i)) (fun c i hc hi => by
    rcases k.reads a b c hc with rfl | rfl
    · have := ha i hi; show M (c, i) = some ((M (c, i)).getD (f i)); rw [this]; rfl
    · have := hb i hi; show M (c, i) = some ((M (c, i)).getD (f i)); rw [this]; rfl) h
  exact ⟨M', h1, fun i hi => by rw [h2 i hi, k.ok, ha.val hi, hb.val hi], h3⟩

theorem launch_un {be : Backend} {n dst : Nat} {k : UnKernel V} {a : Arg V} {f : Nat → V} {M : Mem Cell V} {o} (hn : n ≤ be.limit) (hd : ∀ i, i < n → M (dst, i) ≠ none)
    (ha : ArgIs n M a f) (h : Launch be n dst (k.body a) M o) :
    ∃ M', o = some M' ∧ (∀ i, i < n → M' (dst, i) = some (k.op (f i))) ∧ ∀ x, (∀ i, i < n → x ≠ (dst, i)) → M' x = M x := by
  obtain ⟨M', h1, h2, h3⟩ := launch_ok hn hd (fun b i => (M (b, i)).getD (f i)) (fun c i hc hi => by
    obtain rfl := k.reads a c hc
    have := ha i hi; show M (c, i) = some ((M (c, i)).getD (f i)); rw [this]; rfl) h
  exact ⟨M', h1, fun i hi => by rw [h2 i hi, k.ok, ha.val hi], h3⟩

theorem assign_ok {be : Backend} {n : Nat} {E : Nat → Nat → V} (hn : n ≤ be.limit) : ∀ e : GExpr V, AssignOk be n E e
  | .arr b => fun dst M o _ _ h => by cases h
  | .scalar v => fun dst M o _ _ h => by cases h
  | .un k e => fun dst M o hd hh h => by
    have he := fun {o} (h : EvalArg be n e M o) => evalArg_ok (assign_ok hn e) (fun b i hb hi => hh b i hb hi) h
    cases h with
    | un h1 h2 =>
      obtain ⟨a, M₁, e1, hk, ha⟩ := he h1
      cases e1
      obtain ⟨M', q1, q2, q3⟩ := launch_un hn (fun i hi => by rw [hk _ (hd i hi)]; exact hd i hi) ha h2
      exact ⟨M', q1, q2, fun x hx hne => (q3 x hne).trans (hk x hx)⟩
    | unWrong h1 => obtain ⟨_, _, e1, _⟩ := he h1; cases e1
  | .bin k l r => fun dst M o hd hh h => by
    have hl := fun {M o} (hh : Holds n E l M) (h : EvalArg be n l M o) => evalArg_ok (assign_ok hn l) hh h
    have hr := fun {M o} (hh : Holds n E r M) (h : EvalArg be n r M o) => evalArg_ok (assign_ok hn r) hh h
    have hhl : Holds n E l M := fun b i hb hi => hh b i (.inl hb) hi
    have hhr : Holds n E r M := fun b i hb hi => hh b i (.inr hb) hi
    cases h with
    | binLR h1 h2 h3 =>
      obtain ⟨a, M₁, e1, hk, ha⟩ := hl hhl h1
      cases e1
      obtain ⟨b, M₂, e2, hk', hb⟩ := hr (hhr.keep hk) h2
      cases e2
      have hkk := hk.trans hk'
      obtain ⟨M', q1, q2, q3⟩ := launch_bin hn (fun i hi => by rw [hkk _ (hd i hi)]; exact hd i hi) (ha.keep hk') hb h3
      exact ⟨M', q1, q2, fun x hx hne => (q3 x hne).trans (hkk x hx)⟩
    | binRL h1 h2 h3 =>
      obtain ⟨b, M₁, e1, hk, hb⟩ := hr hhr h1
      cases e1
      obtain ⟨a, M₂, e2, hk', ha⟩ := hl (hhl.keep hk) h2
      cases e2
      have hkk := hk.trans hk'
      obtain ⟨M', q1, q2, q3⟩ := launch_bin hn (fun i hi => by rw [hkk _ (hd i hi)]; exact hd i hi) ha (hb.keep hk') h3
      exact ⟨M', q1, q2, fun x hx hne => (q3 x hne).trans (hkk x hx)⟩
    | binWrongL h1 => obtain ⟨_, _, e1, _⟩ := hl hhl h1; cases e1
    | binWrongR h1 => obtain ⟨_, _, e1, _⟩ := hr hhr h1; cases e1
    | binWrongLR h1 h2 =>
      obtain ⟨a, M₁, e1, hk, ha⟩ := hl hhl h1
      cases e1
      obtain ⟨_, _, e2, _⟩ := hr (hhr.keep hk) h2; cases e2
    | binWrongRL h1 h2 =>
      obtain ⟨a, M₁, e1, hk, ha⟩ := hr hhr h1
      cases e1
      obtain ⟨_, _, e2, _⟩ := hl (hhl.keep hk) h2; cases e2

/-! ### Assignments have an outcome -/

/-- Only finitely many buffers are allocated. -/
def Below (B : Nat) (M : Mem Cell V) : Prop := ∀ b i, B ≤ b → M (b, i) = none

theorem launch_exists {be : Backend} {n dst b : Nat} {body : Body V} {M : Mem Cell V} (h : body.AtMost b) : ∃ o, Launch be n dst body M o := by
  obtain ⟨s, c, hs, hst⟩ := exists_complete (grp := fun _ : Fin (workItems be n) => (0 : Nat)) (c := ⟨fun t => elementKernel be n dst body t, M⟩) (List.finRange (workItems be n))
    List.mem_finRange (fun _ => b + 1) fun t => elementKernel_atMost h
  by_cases hd : Done c
  · exact ⟨_, .ok hs hst hd⟩
  · exact ⟨_, .wrong hs hst hd⟩

theorem Below.frame {B n dst : Nat} {M M' : Mem Cell V} (h : Below B M) (hd : ∀ i, i < n → M (dst, i) ≠ none) (hf : ∀ x, (∀ i, i < n → x ≠ (dst, i)) → M' x = M x) : Below B M' := by
  intro b i hb
  rw [hf (b, i) fun j hj e => hd j hj (by rw [← e]; exact h b i hb)]
  exact h b i hb

/-- Expressions that are functions. -/
def GExpr.IsFn : GExpr V → Prop
  | .arr _ => False
  | .scalar _ => False
  | .un _ _ => True
  | .bin _ _ _ => True

theorem evalArg_exists {be : Backend} {n B : Nat} {E : Nat → Nat → V} {e : GExpr V} (v₀ : V) (hn : n ≤ be.limit)
    (ih : e.IsFn → ∀ dst B M, Below B M → (∀ i, i < n → M (dst, i) ≠ none) → Holds n E e M → ∃ M' B', Assign be n dst e M (some M') ∧ Below B' M')
    {M : Mem Cell V} (hB : Below B M) (hh : Holds n E e M) : ∃ a M' B', EvalArg be n e M (some (a, M')) ∧ Below B' M' := by
  have fn : e.IsFn → ∃ a M' B', EvalArg be n e M (some (a, M')) ∧ Below B' M' := by
    intro hfn
    let M₁ : Mem Cell V := fun x => if x.1 = B then (if x.2 < n then some v₀ else none) else M x
    have hf : Fresh n B M M₁ := ⟨fun i => hB B i (Nat.le_refl _), fun b i hb => if_neg hb, fun i hi => by
      show (if B = B then (if i < n then some v₀ else none) else M (B, i)) ≠ none
      rw [if_pos rfl, if_pos hi]; simp⟩
    have hk : Keeps M M₁ := fun ⟨b, i⟩ hx => hf.2.1 b i fun e => hx (e ▸ hf.1 i)
    obtain ⟨M', B', h1, h2⟩ := ih hfn B (B + 1) M₁ (fun b i hb => by
      show (if b = B then (if i < n then some v₀ else none) else M (b, i)) = none
      rw [if_neg (by omega)]; exact hB b i (by omega)) hf.2.2 (hh.keep hk)
    exact ⟨_, M', B', .fn hf h1, h2⟩
  cases e with
  | arr b => exact ⟨_, M, B, .arr, hB⟩
  | scalar v => exact ⟨_, M, B, .scalar, hB⟩
  | un k e => exact fn trivial
  | bin k l r => exact fn trivial

theorem assign_exists {be : Backend} {n : Nat} {E : Nat → Nat → V} (v₀ : V) (hn : n ≤ be.limit) : ∀ e : GExpr V, e.IsFn → ∀ dst B M, Below B M → (∀ i, i < n → M (dst, i) ≠ none) →
    Holds n E e M → ∃ M' B', Assign be n dst e M (some M') ∧ Below B' M'
  | .arr _, h, _, _, _, _, _, _ => h.elim
  | .scalar _, h, _, _, _, _, _, _ => h.elim
  | .un k e, _, dst, B, M, hB, hd, hh => by
    have hh' : Holds n E e M := fun b i hb hi => hh b i hb hi
    obtain ⟨a, M₁, B₁, h1, h2⟩ := evalArg_exists v₀ hn (assign_exists v₀ hn e) hB hh'
    obtain ⟨o, ho⟩ := launch_exists (be := be) (n := n) (dst := dst) (M := M₁) (k.atMost a)
    obtain ⟨_, _, e1, hk, ha⟩ := evalArg_ok (assign_ok hn e) hh' h1
    cases e1
    have hd' : ∀ i, i < n → M₁ (dst, i) ≠ none := fun i hi => by rw [hk _ (hd i hi)]; exact hd i hi
    obtain ⟨M', rfl, -, hf⟩ := launch_un hn hd' ha ho
    exact ⟨M', B₁, .un h1 ho, h2.frame hd' hf⟩
  | .bin k l r, _, dst, B, M, hB, hd, hh => by
    have hl : Holds n E l M := fun b i hb hi => hh b i (.inl hb) hi
    have hr : Holds n E r M := fun b i hb hi => hh b i (.inr hb) hi
    obtain ⟨a, M₁, B₁, h1, h2⟩ := evalArg_exists v₀ hn (assign_exists v₀ hn l) hB hl
    obtain ⟨_, _, e1, hk, ha⟩ := evalArg_ok (assign_ok hn l) hl h1
    cases e1
    obtain ⟨b, M₂, B₂, h3, h4⟩ := evalArg_exists v₀ hn (assign_exists v₀ hn r) h2 (hr.keep hk)
    obtain ⟨_, _, e2, hk', hb⟩ := evalArg_ok (assign_ok hn r) (hr.keep hk) h3
    cases e2
    obtain ⟨o, ho⟩ := launch_exists (be := be) (n := n) (dst := dst) (M := M₂) (k.atMost a b)
    have hd' : ∀ i, i < n → M₂ (dst, i) ≠ none := fun i hi => by rw [(hk.trans hk') _ (hd i hi)]; exact hd i hi
    obtain ⟨M', rfl, -, hf⟩ := launch_bin hn hd' (ha.keep hk') hb ho
    exact ⟨M', B₂, .binLR h1 h3 ho, h4.frame hd' hf⟩

/-! ### A destination that is too small -/

/-- The program does not return before writing to `l`. -/
def Prog.MustWrite {L : Type} (l : L) : Prog L V → Prop
  | .ret => False
  | .fail => True
  | .read _ k => ∀ v, (k v).MustWrite l
  | .write l' _ k => l' = l ∨ k.MustWrite l
  | .barrier k => k.MustWrite l

theorem mustWrite_steps {T G L : Type} [DecidableEq T] [DecidableEq L] {grp : T → G} {c d : Cfg T L V} {n : Nat} {t : T} {l : L} (h : (c.prog t).MustWrite l) (hm : c.mem l = none)
    (hs : Steps grp c n d) : (d.prog t).MustWrite l ∧ d.mem l = none := by
  induction hs with
  | refl => exact ⟨h, hm⟩
  | step _ s ih =>
    obtain ⟨i1, i2⟩ := ih
    cases s with
    | @read t' l' k v hp hm' =>
      refine ⟨?_, i2⟩
      by_cases e : t = t'
      · subst e; rw [hp] at i1; simpa using i1 v
      · simpa [Function.update_of_ne e] using i1
    | @write t' l' v k w hp hm' =>
      have hne : l ≠ l' := fun e => by rw [e, hm'] at i2; cases i2
      refine ⟨?_, by simpa [Function.update_of_ne hne] using i2⟩
      by_cases e : t = t'
      · subst e; rw [hp] at i1
        rcases i1 with e | i1
        · exact absurd e.symm hne
        · simpa using i1
      · simpa [Function.update_of_ne e] using i1
    | barrier g p ne hp hp' =>
      refine ⟨?_, i2⟩
      by_cases e : grp t = g
      · rw [hp t e] at i1; exact i1
      · show (p t).MustWrite l
        rw [hp' t e]; exact i1

theorem body_mustWrite {dst i : Nat} : ∀ body : Body V, (body.prog dst i).MustWrite (dst, i)
  | .done _ => .inl rfl
  | .fetch (.buf _) k => fun v => body_mustWrite (k v)
  | .fetch (.scalar v) k => body_mustWrite (k v)

/-! ### Dual numbers -/

/-- The component of an argument. -/
def DHas (M : Mem DCell V) (i : Nat) (c : Bool) (v : V) : DArg V → Prop
  | .buf b => M (b, i, c) = some v
  | .scalar v' d => v = if c then d else v'

theorem dfetch_eff {M m' : Mem DCell V} {i : Nat} {c : Bool} {v : V} {a : DArg V} {k : V → Prog DCell V} {q : Prog DCell V} {wt : DCell → Prop} (h : DHas M i c v a)
    (e : Eff M (k v) m' q (fun x => x.2.1 = i) wt) : Eff M (a.fetch i c k) m' q (fun x => x.2.1 = i) wt := by
  cases a with
  | buf b =>
    refine (Eff.read h e).congr (fun x hx => ?_) fun x => Iff.rfl
    rcases hx with rfl | h
    · rfl
    · exact h
  | scalar v' d =>
    have : v = if c then d else v' := h
    subst this; exact e

/-- After the value of the destination has been written. -/
theorem DHas.update {M : Mem DCell V} {dst i : Nat} {c : Bool} {v w : V} {a : DArg V} (h : DHas M i c v a) [DecidableEq (DArg V)] :
    DHas (Function.update M (dst, i, false) (some w)) i c (if c = false ∧ a = .buf dst then w else v) a := by
  cases a with
  | buf b =>
    show Function.update M (dst, i, false) (some w) (b, i, c) = _
    by_cases hc : c = false ∧ b = dst
    · obtain ⟨rfl, rfl⟩ := hc
      simp
    · rw [Function.update_of_ne (by rintro e; injection e with e1 e2; injection e2 with e2 e3; exact hc ⟨e3, e1⟩), h]
      rw [if_neg (by rintro ⟨h1, h2⟩; injection h2 with h2; exact hc ⟨h1, h2⟩)]
  | scalar v' d =>
    show (if _ then w else v) = _
    rw [if_neg (by rintro ⟨_, h⟩; cases h)]; exact h

theorem dual_eff [DecidableEq (DArg V)] {M : Mem DCell V} {fv : V → V → V} {fd : V → V → V → V → V} {dst i : Nat} {l r : DArg V} {lv ld rv rd : V} (hi : i < 2 ^ 31)
    (hl : DHas M i false lv l) (hl' : DHas M i true ld l) (hr : DHas M i false rv r) (hr' : DHas M i true rd r) (hd : M (dst, i, false) ≠ none) (hd' : M (dst, i, true) ≠ none) :
    Eff M (dualKernel fv fd dst l r i) (Function.update (Function.update M (dst, i, false) (some (fv lv rv))) (dst, i, true)
        (some (fd (if l = .buf dst then fv lv rv else lv) ld (if r = .buf dst then fv lv rv else rv) rd))) .ret (fun x => x.2.1 = i) (fun x => x = (dst, i, false) ∨ x = (dst, i, true)) := by
  unfold dualKernel
  rw [within_eq hi]
  refine dfetch_eff hl (dfetch_eff hr ?_)
  have e1 := hl.update (dst := dst) (w := fv lv rv)
  have e2 := hl'.update (dst := dst) (w := fv lv rv)
  have e3 := hr.update (dst := dst) (w := fv lv rv)
  have e4 := hr'.update (dst := dst) (w := fv lv rv)
  simp only [true_and, Bool.true_eq_false, false_and, if_false] at e1 e2 e3 e4
  have hw := Eff.write (l := (dst, i, true)) (m := Function.update M (dst, i, false) (some (fv lv rv)))
    (v := fd (if l = .buf dst then fv lv rv else lv) ld (if r = .buf dst then fv lv rv else rv) rd)
    (by rw [Function.update_of_ne (by simp)]; exact hd') Eff.ret
  refine Eff.congr (ac := fun x => x = (dst, i, false) ∨ x.2.1 = i) (wt := fun x => x = (dst, i, false) ∨ x = (dst, i, true)) ?_ (fun x hx => ?_) fun x => Iff.rfl
  · refine Eff.write (ac := fun x => x.2.1 = i) (wt := fun x => x = (dst, i, true)) hd ?_
    refine dfetch_eff e2 (dfetch_eff e3 (dfetch_eff e1 (dfetch_eff e4 (hw.congr (fun x hx => ?_) fun x => by simp))))
    rcases hx with rfl | h
    · rfl
    · exact h.elim
  · rcases hx with rfl | h
    · rfl
    · exact h

theorem DArg.fetch_atMost {n i : Nat} {c : Bool} {a : DArg V} {k : V → Prog DCell V} (h : ∀ v, (k v).AtMost n) : (a.fetch i c k).AtMost (n + 1) := by
  cases a with
  | buf b => exact Prog.AtMost.read h
  | scalar v d => exact (h _).succ

end Verif.Gpu
