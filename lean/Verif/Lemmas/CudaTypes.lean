import Verif.Model.CudaTypes
import Verif.Lemmas.ClTypes
import Verif.Props.GpuAssign
import Mathlib.Data.List.GetD
import Mathlib.Tactic.Linarith

/-! Lemmas about the element types of CUDA arrays. -/

namespace Verif.CudaTypes

open Verif.ClTypes (Ty BinOp UnOp Expr usual common)

theorem fetch_set {m : Mem} {dst i : Nat} {b b' : List Nat} (h : m[dst]? = some b) (hb : b'[i]? = b[i]?) (a : Arg) :
    fetch (m.set dst b') i a = fetch m i a := by
  cases a with
  | scalar v => rfl
  | buf id =>
    simp only [fetch, List.getElem?_set]
    by_cases e : dst = id
    · subst e
      have : dst < m.length := by
        by_contra hc
        rw [List.getElem?_eq_none (by omega)] at h
        cases h
      simp only [this, ↓reduceIte, h, hb]
    · simp only [e, ↓reduceIte]

theorem val_set {A : Arith} {dt : Ty} {m : Mem} {dst i : Nat} {b b' : List Nat} (h : m[dst]? = some b) (hb : b'[i]? = b[i]?) (c : Call) :
    c.val A dt (m.set dst b') i = c.val A dt m i := by
  cases c <;> simp only [Call.val, fetch_set h hb]

/-- A kernel whose values are defined writes all of them. -/
theorem run_spec {A : Arith} {dt : Ty} {dst : Nat} {c : Call} {m : Mem} {b : List Nat} {g : Nat → Nat} (h : m[dst]? = some b) :
    ∀ K, K ≤ b.length → (∀ i, i < K → c.val A dt m i = .ok (g i)) →
      run A dt dst c m K = .ok (m.set dst ((List.range K).map g ++ b.drop K))
  | 0, _, _ => by
    simp only [run, List.range_zero, List.map_nil, List.nil_append, List.drop_zero]
    congr 1
    apply List.ext_getElem?
    intro j
    rw [List.getElem?_set]
    split
    · rename_i e
      subst e
      split
      · exact h
      · rename_i hl
        rw [List.getElem?_eq_none (by omega)]
    · rfl
  | K + 1, hK, hg => by
    have ih := run_spec h K (by omega) fun i hi => hg i (by omega)
    have hlt : dst < m.length := by
      by_contra hc
      rw [List.getElem?_eq_none (by omega)] at h
      cases h
    have e1 : (List.map g (List.range K) ++ List.drop K b)[K]? = b[K]? := by
      rw [List.getElem?_append_right (by simp)]
      simp
    simp only [run, ih, Out.bind, item, val_set h e1, hg K (by omega), write, List.getElem?_set_self hlt]
    rw [if_pos (by simp; omega)]
    congr 1
    rw [List.set_set]
    congr 1
    rw [List.range_succ, List.map_append, List.append_assoc]
    rw [List.set_append_right _ _ (by simp)]
    congr 1
    simp only [List.length_map, List.length_range, Nat.sub_self, List.map_cons, List.map_nil]
    rw [List.drop_eq_getElem_cons (by omega : K < b.length)]
    rfl

theorem fetch_cases (m : Mem) (i : Nat) (a : Arg) : fetch m i a = .ub ∨ ∃ v, fetch m i a = .ok v := by
  cases a with
  | scalar v => exact .inr ⟨v, rfl⟩
  | buf id =>
    simp only [fetch]
    split
    · exact .inl rfl
    · split
      · exact .inl rfl
      · exact .inr ⟨_, rfl⟩

theorem val_cases (A : Arith) (dt : Ty) (m : Mem) (i : Nat) (c : Call) : c.val A dt m i = .ub ∨ ∃ v, c.val A dt m i = .ok v := by
  cases c with
  | un op t x =>
    simp only [Call.val]
    rcases fetch_cases m i x with h | ⟨v, h⟩
    · exact .inl (by rw [h]; rfl)
    · exact .inr ⟨_, by rw [h]; rfl⟩
  | bin op s t x y =>
    simp only [Call.val]
    rcases fetch_cases m i x with h | ⟨v, h⟩
    · exact .inl (by rw [h]; rfl)
    · rcases fetch_cases m i y with h' | ⟨u, h'⟩
      · exact .inl (by rw [h, h']; rfl)
      · exact .inr ⟨_, by rw [h, h']; rfl⟩

/-- A kernel that writes more components than its destination has is undefined. -/
theorem run_ub {A : Arith} {dt : Ty} {dst : Nat} {c : Call} {m : Mem} {b : List Nat} (h : m[dst]? = some b) {K : Nat}
    (he : ∀ i, i < b.length → ∃ v, c.val A dt m i = .ok v) (hK : b.length < K) : run A dt dst c m K = .ub := by
  obtain ⟨g, hg⟩ : ∃ g : Nat → Nat, ∀ i, i < b.length → c.val A dt m i = .ok (g i) :=
    ⟨fun i => if hi : i < b.length then (he i hi).choose else 0, fun i hi => by simp only [hi, ↓reduceDIte]; exact (he i hi).choose_spec⟩
  have hlt : dst < m.length := by
    by_contra hc
    rw [List.getElem?_eq_none (by omega)] at h
    cases h
  induction K with
  | zero => omega
  | succ K ih =>
    by_cases e : b.length < K
    · simp only [run, ih e, Out.bind]
    · have e : K = b.length := by omega
      subst e
      simp only [run, run_spec h b.length le_rfl hg, Out.bind, item]
      rcases val_cases A dt (m.set dst ((List.range b.length).map g ++ b.drop b.length)) b.length c with h1 | ⟨v, h1⟩
      · rw [h1]
      · simp only [h1, write, List.getElem?_set_self hlt]
        rw [if_neg (by simp)]

/-- Every component of the argument is defined, and the first `n` are those of `h`. -/
def Sees (m : Mem) (n : Nat) (a : Arg) (h : Nat → Nat) : Prop :=
  ∃ g : Nat → Nat, (∀ i, i < Gpu.cudaAllocated n → fetch m i a = .ok (g i)) ∧ ∀ i, i < n → g i = h i

/-- Arguments refer to buffers that exist. -/
def Arg.Below (k : Nat) : Arg → Prop
  | .buf id => id < k
  | .scalar _ => True

theorem fetch_append {m ts : Mem} {a : Arg} (h : a.Below m.length) (i : Nat) : fetch (m ++ ts) i a = fetch m i a := by
  cases a with
  | scalar v => rfl
  | buf id =>
    simp only [fetch]
    rw [List.getElem?_append_left h]

theorem Sees.append {m ts : Mem} {n : Nat} {a : Arg} {h : Nat → Nat} (hb : a.Below m.length) (hs : Sees m n a h) :
    Sees (m ++ ts) n a h := by
  obtain ⟨g, h1, h2⟩ := hs
  exact ⟨g, fun i hi => by rw [fetch_append hb, h1 i hi], h2⟩

/-- The elements of an operand: those of the arrays in memory, combined in the types of the operators; functions are converted to their
own type. -/
def value (A : Arith) (m : Mem) (i : Nat) : Expr → Nat
  | .arr id _ => ((m[id]?).getD []).getD i 0
  | .scalar _ v => v
  | .un op x => A.cast (A.wt op x.ty) x.ty (A.raw op x.ty (value A m i x))
  | .bin op x y => A.cast (op.resTy x.ty y.ty) (op.resTy x.ty y.ty) (A.bin op (op.resTy x.ty y.ty)
      (A.cast x.ty (op.resTy x.ty y.ty) (value A m i x)) (A.cast y.ty (op.resTy x.ty y.ty) (value A m i y)))

/-- What the kernel of a function stores in a destination of type `dt`. -/
def stored (A : Arith) (m : Mem) (dt : Ty) (i : Nat) : Expr → Nat
  | .arr _ _ => 0
  | .scalar _ _ => 0
  | .un op x => A.cast (A.wt op x.ty) dt (A.raw op x.ty (value A m i x))
  | .bin op x y => A.cast (op.resTy x.ty y.ty) dt (A.bin op (op.resTy x.ty y.ty)
      (A.cast x.ty (op.resTy x.ty y.ty) (value A m i x)) (A.cast y.ty (op.resTy x.ty y.ty) (value A m i y)))

/-- The arrays of the expression are allocated for `n` elements, and no operator is applied to scalars alone. -/
def Valid (m : Mem) (n : Nat) : Expr → Prop
  | .arr id _ => ∃ b, m[id]? = some b ∧ b.length = Gpu.cudaAllocated n
  | .scalar _ _ => True
  | .un _ x => Valid m n x ∧ x.isScalar = false
  | .bin _ x y => Valid m n x ∧ Valid m n y ∧ (x.isScalar = false ∨ y.isScalar = false)

theorem lt_of_some {m : Mem} {id : Nat} {b : List Nat} (h : m[id]? = some b) : id < m.length := by
  by_contra hc
  rw [List.getElem?_eq_none (by omega)] at h
  cases h

theorem Valid.append {m : Mem} (ts : Mem) {n : Nat} {e : Expr} (h : Valid m n e) : Valid (m ++ ts) n e := by
  induction e with
  | arr id t =>
    obtain ⟨b, h1, h2⟩ := h
    exact ⟨b, by rw [List.getElem?_append_left (lt_of_some h1), h1], h2⟩
  | scalar t v => trivial
  | un op x ih => exact ⟨ih h.1, h.2⟩
  | bin op x y ihx ihy => exact ⟨ihx h.1, ihy h.2.1, h.2.2⟩

theorem value_append {A : Arith} {m : Mem} (ts : Mem) {n : Nat} (i : Nat) {e : Expr} (h : Valid m n e) :
    value A (m ++ ts) i e = value A m i e := by
  induction e with
  | arr id t =>
    obtain ⟨b, h1, h2⟩ := h
    simp only [value, List.getElem?_append_left (lt_of_some h1)]
  | scalar t v => rfl
  | un op x ih => simp only [value, ih h.1]
  | bin op x y ihx ihy => simp only [value, ihx h.1, ihy h.2.1]

/-- No packets of three. -/
def Widths.Ok (w : Widths) : Prop := (w.f = 1 ∨ w.f = 2 ∨ w.f = 4) ∧ (w.d = 1 ∨ w.d = 2 ∨ w.d = 4)

theorem extent_false {w : Widths} {dt : Ty} {e : Expr} {n : Nat} (h : canVectorise w dt e = false) : extent w dt e n = n := by
  simp [extent, h, extractor, cudaPacketWidth, comps, Gpu.packets]

theorem packet_float {w : Widths} {t : Ty} (h : 1 < cudaPacketWidth (packet w t)) :
    (t = .f32 ∨ t = .f64) ∧ packet w t = .vec t (cudaPacketWidth (packet w t)) := by
  cases t <;> simp only [packet] at h ⊢
  all_goals first
    | (exact absurd h (by decide))
    | skip
  · by_cases hw : w.f > 1
    · simp only [hw, ↓reduceIte] at h ⊢
      refine ⟨by simp, ?_⟩
      unfold cudaPacketWidth at h ⊢
      split at h <;> simp_all
    · simp only [hw, ↓reduceIte] at h
      exact absurd h (by simp [cudaPacketWidth])
  · by_cases hw : w.d > 1
    · simp only [hw, ↓reduceIte] at h ⊢
      refine ⟨by simp, ?_⟩
      simp [cudaPacketWidth]
    · simp only [hw, ↓reduceIte] at h
      exact absurd h (by simp [cudaPacketWidth])

theorem packet_dvd {w : Widths} (hw : w.Ok) (t : Ty) : cudaPacketWidth (packet w t) ∣ 32 := by
  obtain ⟨h1, h2⟩ := hw
  cases t <;> simp only [packet, cudaPacketWidth] <;> try exact one_dvd _
  · rcases h1 with h | h | h <;> rw [h] <;> decide
  · rcases h2 with h | h | h <;> rw [h] <;> decide

theorem canVectorise_true {w : Widths} {dt : Ty} {e : Expr} (h : canVectorise w dt e = true) :
    fnVec e = true ∧ 1 < cudaPacketWidth (packet w dt) ∧ 1 < cudaPacketWidth (packet w e.ty) := by
  simp only [canVectorise, Bool.and_eq_true, decide_eq_true_eq] at h
  exact ⟨h.1.1.2, h.1.2, h.2⟩

theorem extent_le {w : Widths} (hw : w.Ok) {dt : Ty} {e : Expr} {n : Nat} (h : canVectorise w dt e = true → dt = e.ty) :
    n ≤ extent w dt e n ∧ extent w dt e n ≤ Gpu.cudaAllocated n := by
  cases hc : canVectorise w dt e with
  | false =>
    rw [extent_false hc]
    refine ⟨le_rfl, ?_⟩
    have := Gpu.C66_packets (n := n) (w := 1) (one_dvd _)
    simpa [Gpu.packets] using this.2
  | true =>
    obtain ⟨-, h2, -⟩ := canVectorise_true hc
    have hd := h hc
    have hp := (packet_float h2).2
    have := Gpu.C66_packets (n := n) (packet_dvd hw dt)
    simp only [extent, hc, extractor, ↓reduceIte, ← hd]
    rw [hp]
    simp only [comps]
    rw [← hp]
    exact this

theorem resTy_float {op : BinOp} {s : Ty} (h : op.resTy s s = .f32 ∨ op.resTy s s = .f64) : s = op.resTy s s := by
  cases op <;> cases s <;> first | rfl | (exact absurd h (by decide))

theorem argTy_eq {w : Widths} {c : Bool} {x : Expr} : argTy w c x = if x.isScalar then .sc x.ty else extractor w c x.ty := by
  cases x <;> rfl

/-- A kernel for numbers always compiles, and one for packets if the destination has the function's type. -/
theorem kernelCompiles_iff {A : Arith} {w : Widths} {dt : Ty} {e : Expr} {m : Mem} {n : Nat} (hfn : e.isFn = true) (hv : Valid m n e) :
    kernelCompiles A w dt e = true ↔ (canVectorise w dt e = true → dt = e.ty) := by
  unfold kernelCompiles
  cases hc : canVectorise w dt e with
  | false =>
    simp only [Bool.false_eq_true, false_imp_iff, iff_true]
    cases e with
    | arr id t => simp [Expr.isFn] at hfn
    | scalar t v => simp [Expr.isFn] at hfn
    | un op x => simp [rhsTy, argTy_eq, extractor, assignable]
    | bin op x y => simp [rhsTy, argTy_eq, extractor, assignable, kernelBin]
  | true =>
    obtain ⟨h1, h2, h3⟩ := canVectorise_true hc
    have hd := packet_float h2
    have he := packet_float h3
    simp only [true_imp_iff]
    have key : rhsTy A w true e = some (packet w e.ty) := by
      cases e with
      | arr id t => simp [Expr.isFn] at hfn
      | scalar t v => simp [Expr.isFn] at hfn
      | un op x =>
        simp only [rhsTy, argTy_eq, hv.2, extractor, Expr.ty] at he ⊢
        rw [he.2]
        simp
      | bin op x y =>
        simp only [fnVec, Bool.and_eq_true, decide_eq_true_eq] at h1
        simp only [Expr.ty] at he ⊢
        have hxy := h1.2
        rw [← hxy] at he ⊢
        have hs := resTy_float he.1
        rw [← hs] at he ⊢
        simp only [rhsTy, argTy_eq, extractor, ← hxy, ↓reduceIte]
        rcases hx : x.isScalar with _ | _ <;> rcases hy : y.isScalar with _ | _
        · simp only [Bool.false_eq_true, ↓reduceIte]; rw [he.2]; simp [kernelBin]
        · simp only [Bool.false_eq_true, ↓reduceIte]; rw [he.2]; simp [kernelBin]
        · simp only [Bool.false_eq_true, ↓reduceIte]; rw [he.2]; simp [kernelBin]
        · rcases hv.2.2 with h | h
          · rw [hx] at h; cases h
          · rw [hy] at h; cases h
    rw [key]
    simp only [extractor, ↓reduceIte]
    rw [hd.2, he.2]
    simp only [assignable, decide_eq_true_eq]
    constructor
    · exact fun h => h.1
    · intro h
      rw [h]
      exact ⟨rfl, rfl⟩

/-- The call of a function's kernel on the right operands. -/
theorem call_un {A : Arith} {m : Mem} {n : Nat} {op : UnOp} {t dt : Ty} {a : Arg} {h : Nat → Nat} (hs : Sees m n a h) :
    ∃ g : Nat → Nat, (∀ i, i < Gpu.cudaAllocated n → (Call.un op t a).val A dt m i = .ok (g i)) ∧
      ∀ i, i < n → g i = A.cast (A.wt op t) dt (A.raw op t (h i)) := by
  obtain ⟨g, h1, h2⟩ := hs
  refine ⟨fun i => A.cast (A.wt op t) dt (A.raw op t (g i)), fun i hi => ?_, fun i hi => ?_⟩
  · simp only [Call.val, h1 i hi, Out.bind]
  · simp only [h2 i hi]

theorem call_bin {A : Arith} {m : Mem} {n : Nat} {op : BinOp} {s t dt : Ty} {a b : Arg} {h k : Nat → Nat} (hs : Sees m n a h)
    (hk : Sees m n b k) :
    ∃ g : Nat → Nat, (∀ i, i < Gpu.cudaAllocated n → (Call.bin op s t a b).val A dt m i = .ok (g i)) ∧
      ∀ i, i < n → g i = A.cast (op.resTy s t) dt (A.bin op (op.resTy s t) (A.cast s (op.resTy s t) (h i))
        (A.cast t (op.resTy s t) (k i))) := by
  obtain ⟨g, h1, h2⟩ := hs
  obtain ⟨g', h1', h2'⟩ := hk
  refine ⟨fun i => A.cast (op.resTy s t) dt (A.bin op (op.resTy s t) (A.cast s (op.resTy s t) (g i)) (A.cast t (op.resTy s t) (g' i))),
    fun i hi => ?_, fun i hi => ?_⟩
  · simp only [Call.val, h1 i hi, h1' i hi, Out.bind]
  · simp only [h2 i hi, h2' i hi]

/-- A launch whose components are defined: the destination's first elements are those of `g`, nothing else changes. -/
theorem launch_spec {A : Arith} {w : Widths} (hw : w.Ok) {n dst : Nat} {dt : Ty} {e : Expr} {c : Call} {m m0 : Mem} {b : List Nat}
    {g h : Nat → Nat} (hfn : e.isFn = true) (hv : Valid m0 n e) (hd : m[dst]? = some b) (hl : b.length = Gpu.cudaAllocated n)
    (ht : canVectorise w dt e = true → dt = e.ty) (hc : ∀ i, i < Gpu.cudaAllocated n → c.val A dt m i = .ok (g i))
    (hg : ∀ i, i < n → g i = h i) :
    ∃ b', launch A w n dst dt e c m = .ok (m.set dst b') ∧ b'.length = Gpu.cudaAllocated n ∧ b'.take n = (List.range n).map h := by
  obtain ⟨e1, e2⟩ := extent_le hw (n := n) ht
  refine ⟨(List.range (extent w dt e n)).map g ++ b.drop (extent w dt e n), ?_, ?_, ?_⟩
  · rw [launch, if_pos ((kernelCompiles_iff hfn hv).mpr ht)]
    exact run_spec hd _ (by omega) fun i hi => hc i (by omega)
  · simp only [List.length_append, List.length_map, List.length_range, List.length_drop]
    omega
  · rw [List.take_append_of_le_length (by simpa using e1), ← List.map_take, List.take_range, Nat.min_eq_left e1]
    apply List.map_congr_left
    intro i hi
    exact hg i (List.mem_range.mp hi)

theorem sees_new {m : Mem} {n : Nat} {b : List Nat} {h : Nat → Nat} (hl : b.length = Gpu.cudaAllocated n)
    (ht : b.take n = (List.range n).map h) : Sees (m ++ [b]) n (.buf m.length) h := by
  refine ⟨fun i => b.getD i 0, fun i hi => ?_, fun i hi => ?_⟩
  · simp only [fetch, List.getElem?_concat_length]
    rw [List.getElem?_eq_getElem (by omega)]
    simp only [List.getD_eq_getElem _ _ (by omega : i < b.length)]
  · have h1 : (b.take n)[i]? = some (h i) := by rw [ht]; simp [hi]
    rw [List.getElem?_take_of_lt hi] at h1
    simp [List.getD, h1]

theorem set_concat (m : Mem) (b b' : List Nat) : (m ++ [b]).set m.length b' = m ++ [b'] := by
  rw [List.set_append_right _ _ le_rfl]
  simp

theorem fresh_length (junk : Nat → Nat) (n : Nat) : (fresh junk n).length = Gpu.cudaAllocated n := by simp [fresh]

/-- Evaluating an operand adds temporaries and changes nothing else. -/
theorem operand_spec {A : Arith} {w : Widths} (hw : w.Ok) (junk : Nat → Nat) {n : Nat} {e : Expr} : ∀ {m : Mem}, Valid m n e →
    ∃ ts a, operand A w junk n e m = .ok (m ++ ts, a) ∧ a.Below (m ++ ts).length ∧ Sees (m ++ ts) n a (fun i => value A m i e) := by
  induction e with
  | arr id t =>
    intro m hv
    obtain ⟨b, h1, h2⟩ := hv
    refine ⟨[], .buf id, by simp [operand], by simpa [Arg.Below] using lt_of_some h1, fun i => b.getD i 0, fun i hi => ?_, fun i hi => ?_⟩
    · simp only [fetch, List.append_nil, h1]
      rw [List.getElem?_eq_getElem (by omega)]
      simp only [List.getD_eq_getElem _ _ (by omega : i < b.length)]
    · simp [value, h1]
  | scalar t v =>
    intro m hv
    exact ⟨[], .scalar v, by simp [operand], trivial, fun _ => v, fun i hi => rfl, fun i hi => rfl⟩
  | un op x ih =>
    intro m hv
    obtain ⟨ts, a, h1, h2, h3⟩ := ih hv.1
    obtain ⟨g, hg1, hg2⟩ := call_un (A := A) (op := op) (t := x.ty) (dt := x.ty) (h3.append h2 (ts := [fresh junk n]))
    obtain ⟨b', hb1, hb2, hb3⟩ := launch_spec (A := A) hw (e := .un op x) (dt := x.ty) (dst := (m ++ ts).length) (n := n) rfl
      hv (List.getElem?_concat_length) (fresh_length junk n) (fun _ => rfl) hg1 hg2
    refine ⟨ts ++ [b'], .buf (m ++ ts).length, ?_, ?_, ?_⟩
    · simp only [operand, h1, Out.bind, hb1]
      rw [set_concat, List.append_assoc]
    · simp [Arg.Below]
    · rw [← List.append_assoc]
      exact sees_new hb2 hb3
  | bin op x y ihx ihy =>
    intro m hv
    obtain ⟨ts, a, h1, h2, h3⟩ := ihx hv.1
    obtain ⟨us, b, k1, k2, k3⟩ := ihy (hv.2.1.append ts)
    have h2' : a.Below ((m ++ ts) ++ us).length := by
      cases a with
      | scalar v => trivial
      | buf id =>
        simp only [Arg.Below, List.length_append] at h2 ⊢
        omega
    have h3' := h3.append h2 (ts := us)
    obtain ⟨g, hg1, hg2⟩ := call_bin (A := A) (op := op) (s := x.ty) (t := y.ty) (dt := op.resTy x.ty y.ty)
      (h3'.append h2' (ts := [fresh junk n])) (k3.append k2 (ts := [fresh junk n]))
    obtain ⟨b', hb1, hb2, hb3⟩ := launch_spec (A := A) hw (e := .bin op x y) (dt := op.resTy x.ty y.ty) (dst := ((m ++ ts) ++ us).length)
      (n := n) rfl hv (List.getElem?_concat_length) (fresh_length junk n) (fun _ => rfl) hg1 hg2
    refine ⟨ts ++ us ++ [b'], .buf ((m ++ ts) ++ us).length, ?_, ?_, ?_⟩
    · simp only [operand, h1, k1, Out.bind, hb1]
      rw [set_concat]
      simp only [List.append_assoc]
    · simp [Arg.Below]
    · have : m ++ (ts ++ us ++ [b']) = (m ++ ts ++ us) ++ [b'] := by simp
      rw [this]
      have e : (fun i => value A m i (.bin op x y)) = fun i => A.cast (op.resTy x.ty y.ty) (op.resTy x.ty y.ty)
          (A.bin op (op.resTy x.ty y.ty) (A.cast x.ty (op.resTy x.ty y.ty) (value A m i x))
            (A.cast y.ty (op.resTy x.ty y.ty) (value A (m ++ ts) i y))) := by
        funext i
        simp only [value, value_append ts i hv.2.1]
      rw [e]
      exact sees_new hb2 hb3

/-- The kernel of the function itself, after the operands have been evaluated. -/
theorem assign_prep {A : Arith} {w : Widths} (hw : w.Ok) (junk : Nat → Nat) {n dst : Nat} {dt : Ty} {e : Expr} {m : Mem}
    (hfn : e.isFn = true) (hv : Valid m n e) :
    ∃ (ts : Mem) (c : Call) (g : Nat → Nat), assign A w junk n dst dt e m = launch A w n dst dt e c (m ++ ts) ∧
      (∀ i, i < Gpu.cudaAllocated n → Call.val A dt (m ++ ts) i c = .ok (g i)) ∧ ∀ i, i < n → g i = stored A m dt i e := by
  cases e with
  | arr id t => simp [Expr.isFn] at hfn
  | scalar t v => simp [Expr.isFn] at hfn
  | un op x =>
    obtain ⟨ts, a, h1, h2, h3⟩ := operand_spec (A := A) hw junk hv.1
    obtain ⟨g, hg1, hg2⟩ := call_un (A := A) (op := op) (t := x.ty) (dt := dt) h3
    exact ⟨ts, .un op x.ty a, g, by simp only [assign, h1, Out.bind], hg1, hg2⟩
  | bin op x y =>
    obtain ⟨ts, a, h1, h2, h3⟩ := operand_spec (A := A) hw junk hv.1
    obtain ⟨us, b, k1, k2, k3⟩ := operand_spec (A := A) hw junk (hv.2.1.append ts)
    obtain ⟨g, hg1, hg2⟩ := call_bin (A := A) (op := op) (s := x.ty) (t := y.ty) (dt := dt) (h3.append h2 (ts := us)) k3
    refine ⟨ts ++ us, .bin op x.ty y.ty a b, g, by simp only [assign, h1, k1, Out.bind, List.append_assoc], ?_, ?_⟩
    · rw [← List.append_assoc]
      exact hg1
    · intro i hi
      rw [hg2 i hi, value_append ts i hv.2.1]
      rfl

theorem assign_spec {A : Arith} {w : Widths} (hw : w.Ok) (junk : Nat → Nat) {n dst : Nat} {dt : Ty} {e : Expr} {m : Mem} {b : List Nat}
    (hfn : e.isFn = true) (hv : Valid m n e) (hd : m[dst]? = some b) (hl : b.length = Gpu.cudaAllocated n)
    (ht : canVectorise w dt e = true → dt = e.ty) :
    ∃ b' ts, assign A w junk n dst dt e m = .ok (m.set dst b' ++ ts) ∧ b'.length = Gpu.cudaAllocated n ∧
      b'.take n = (List.range n).map fun i => stored A m dt i e := by
  obtain ⟨ts, c, g, h1, h2, h3⟩ := assign_prep (A := A) (dst := dst) (dt := dt) hw junk hfn hv
  obtain ⟨b', hb1, hb2, hb3⟩ := launch_spec (A := A) hw hfn hv (by rw [List.getElem?_append_left (lt_of_some hd), hd]) hl ht h2 h3
  exact ⟨b', ts, by rw [h1, hb1, List.set_append_left _ _ (lt_of_some hd)], hb2, hb3⟩

theorem assign_throw {A : Arith} {w : Widths} (hw : w.Ok) (junk : Nat → Nat) {n dst : Nat} {dt : Ty} {e : Expr} {m : Mem}
    (hfn : e.isFn = true) (hv : Valid m n e) (hc : canVectorise w dt e = true) (ht : dt ≠ e.ty) :
    assign A w junk n dst dt e m = .throw .runtimeError := by
  obtain ⟨ts, c, g, h1, h2, h3⟩ := assign_prep (A := A) (dst := dst) (dt := dt) hw junk hfn hv
  rw [h1, launch, if_neg]
  rw [kernelCompiles_iff hfn hv]
  exact fun h => ht (h hc)

end Verif.CudaTypes
