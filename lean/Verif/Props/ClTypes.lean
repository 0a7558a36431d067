import Verif.Lemmas.ClTypes
import Mathlib.Data.List.GetD
import Mathlib.Tactic.Zify

/-!
# C133: element types in expressions over OpenCL arrays

What a user relies on: `r = f(a, b, ...)` stores, in every element of `r`, the value C++ gives to `f(a[i], b[i], ...)` with the usual
arithmetic conversions, converted to the element type of `r`.
-/

namespace Verif.ClTypes

/-- An array: its element type and the bit patterns of its elements. -/
structure Arr where
  ty : Ty
  vals : List Nat
deriving DecidableEq, Repr

/-- The buffers of some arrays. -/
def memOf (as : List Arr) : Mem := as.map fun a => encAll a.ty.bytes a.vals

/-- The arrays of the expression exist, have `n` elements of the given type, and every element is a bit pattern of that type. -/
def Typed (as : List Arr) (n : Nat) : Expr → Prop
  | .arr id t => ∃ vals, as[id]? = some ⟨t, vals⟩ ∧ vals.length = n ∧ ∀ v ∈ vals, v < 256 ^ t.bytes
  | .scalar t v => v < 256 ^ t.bytes
  | .un _ x => Typed as n x
  | .bin _ x y => Typed as n x ∧ Typed as n y

/-- Element `i` of the expression as C++ evaluates it: both operands are converted to the type of the operator. -/
def host (A : Arith) (as : List Arr) (i : Nat) : Expr → Nat
  | .arr id _ => ((as[id]?.map Arr.vals).getD []).getD i 0
  | .scalar _ v => v
  | .un op x => A.un op x.ty (host A as i x)
  | .bin op x y => A.bin op (op.resTy x.ty y.ty) (A.cast x.ty (op.resTy x.ty y.ty) (host A as i x))
      (A.cast y.ty (op.resTy x.ty y.ty) (host A as i y))

/-- Two types with the same representation: equal, or integers of the same width. -/
def SameRep (a k : Ty) : Prop := a = k ∨ (a.isInt = true ∧ k.isInt = true ∧ a.bytes = k.bytes)

instance (a k : Ty) : Decidable (SameRep a k) := by unfold SameRep; infer_instance

/-- What is assumed of the arithmetic: results are bit patterns of their type, and conversions between types with the same
representation keep the bits. -/
structure Arith.Lawful (A : Arith) : Prop where
  un_lt : ∀ op k x, A.un op k x < 256 ^ k.bytes
  bin_lt : ∀ op k x y, A.bin op k x y < 256 ^ k.bytes
  cast_lt : ∀ a k x, A.cast a k x < 256 ^ k.bytes
  cast_rep : ∀ a k x, SameRep a k → x < 256 ^ a.bytes → A.cast a k x = x

/-- The memory after the assignment: the destination has the right elements, all other arrays are as before. -/
def Right (A : Arith) (as : List Arr) (n dst : Nat) (dt : Ty) (e : Expr) (o : Out Mem) : Prop :=
  ∃ ts, o = .ok (memOf (as.set dst ⟨dt, (List.range n).map fun i => A.cast e.ty dt (host A as i e)⟩) ++ ts)

/-- C133: every expression the compiler accepts is evaluated as in C++. -/
def C133Claim (A : Arith) : Prop :=
  ∀ (junk : Nat → Nat) (as : List Arr) (n dst : Nat) (dt : Ty) (old : List Nat) (e : Expr),
    e.isFn = true → e.compiles = true → Typed as n e → as[dst]? = some ⟨dt, old⟩ → old.length = n →
      Right A as n dst dt e (assign A junk n dst e (memOf as))

/-- Every operand of every operator is a scalar or has the representation of the operator's type. -/
def Agree : Expr → Prop
  | .arr _ _ => True
  | .scalar _ _ => True
  | .un _ x => Agree x
  | .bin op x y => Agree x ∧ Agree y ∧ (x.isScalar = true ∨ SameRep x.ty (op.resTy x.ty y.ty)) ∧
      (y.isScalar = true ∨ SameRep y.ty (op.resTy x.ty y.ty))

theorem SameRep.bytes {a k : Ty} (h : SameRep a k) : a.bytes = k.bytes := by
  rcases h with h | h
  · rw [h]
  · exact h.2.2

theorem SameRep.symm {a k : Ty} (h : SameRep a k) : SameRep k a := by
  rcases h with h | h
  · exact .inl h.symm
  · exact .inr ⟨h.2.1, h.1, h.2.2.symm⟩

theorem Typed.valid {as : List Arr} {n : Nat} {e : Expr} (h : Typed as n e) : e.Valid (memOf as) n := by
  induction e with
  | arr id t =>
    obtain ⟨vals, hv, hl, -⟩ := h
    exact ⟨encAll t.bytes vals, by simp [memOf, hv], by rw [encAll_length, hl]⟩
  | scalar t v => trivial
  | un op x ih => exact ih h
  | bin op x y ihx ihy => exact ⟨ihx h.1, ihy h.2⟩

theorem host_lt {A : Arith} (hA : A.Lawful) {as : List Arr} {n i : Nat} {e : Expr} (h : Typed as n e) (hi : i < n) :
    host A as i e < 256 ^ e.ty.bytes := by
  cases e with
  | arr id t =>
    obtain ⟨vals, hv, hl, hr⟩ := h
    simp only [host, hv, Option.map_some, Option.getD_some, Expr.ty]
    rw [List.getD_eq_getElem _ _ (by omega)]
    exact hr _ (List.getElem_mem _)
  | scalar t v => exact h
  | un op x => exact hA.un_lt _ _ _
  | bin op x y => exact hA.bin_lt _ _ _ _

theorem Agree.fits {e : Expr} (h : Agree e) : e.Fits := by
  induction e with
  | arr id t => trivial
  | scalar t v => trivial
  | un op x ih => exact ih h
  | bin op x y ihx ihy =>
    obtain ⟨h1, h2, h3, h4⟩ := h
    refine ⟨ihx h1, ihy h2, ?_, ?_⟩
    · rcases h3 with h | h
      · exact .inl h
      · exact .inr h.bytes.ge
    · rcases h4 with h | h
      · exact .inl h
      · exact .inr h.bytes.ge

/-- What a kernel sees is the converted element. -/
theorem obs_host {A : Arith} (hA : A.Lawful) {as : List Arr} {n : Nat} {e : Expr} (ht : Typed as n e) (ha : Agree e) :
    ∀ (k : Ty) (i : Nat), i < n → (e.isScalar = true ∨ SameRep e.ty k) →
      obs A (memOf as) n k i e = A.cast e.ty k (host A as i e) := by
  induction e with
  | arr id t =>
    intro k i hi hk
    have hk' : SameRep t k := by
      rcases hk with h | h
      · simp [Expr.isScalar] at h
      · exact h
    rw [hA.cast_rep (Expr.arr id t).ty k _ hk' (host_lt hA ht hi)]
    have hlt := host_lt hA ht hi
    obtain ⟨vals, hv, hl, hr⟩ := ht
    simp only [host, hv, Option.map_some, Option.getD_some, Expr.ty] at hlt ⊢
    simp only [obs, memOf, List.getElem?_map, hv, Option.map_some, Option.getD_some]
    rw [List.getD_eq_getElem _ _ (by omega)] at hlt ⊢
    rw [← hk'.bytes]
    have := slice_encAll t.bytes vals [] i (by omega)
    rw [List.append_nil] at this
    rw [this, dec_enc _ _ hlt]
  | scalar t v => intro k i hi hk; rfl
  | un op x ih =>
    intro k i hi hk
    have hk' : SameRep x.ty k := by
      rcases hk with h | h
      · simp [Expr.isScalar] at h
      · exact h
    rw [hA.cast_rep (Expr.un op x).ty k _ hk' (host_lt hA (e := .un op x) ht hi)]
    have := slice_encAll x.ty.bytes ((List.range n).map fun j => A.un op x.ty (obs A (memOf as) n x.ty j x)) [] i (by simpa using hi)
    rw [List.append_nil] at this
    simp only [obs, ← hk'.bytes]
    rw [this, dec_enc _ _ (by rw [List.getElem_map]; exact hA.un_lt _ _ _)]
    simp only [List.getElem_map, List.getElem_range, host]
    rw [ih ht ha x.ty i hi (.inr (.inl rfl)), hA.cast_rep x.ty x.ty _ (.inl rfl) (host_lt hA (e := x) ht hi)]
  | bin op x y ihx ihy =>
    intro k i hi hk
    have hk' : SameRep (op.resTy x.ty y.ty) k := by
      rcases hk with h | h
      · simp [Expr.isScalar] at h
      · exact h
    rw [hA.cast_rep (Expr.bin op x y).ty k _ hk' (host_lt hA (e := .bin op x y) ht hi)]
    have := slice_encAll (op.resTy x.ty y.ty).bytes ((List.range n).map fun j => A.bin op (op.resTy x.ty y.ty)
      (obs A (memOf as) n (op.resTy x.ty y.ty) j x) (obs A (memOf as) n (op.resTy x.ty y.ty) j y)) [] i (by simpa using hi)
    rw [List.append_nil] at this
    simp only [obs, ← hk'.bytes]
    rw [this, dec_enc _ _ (by rw [List.getElem_map]; exact hA.bin_lt _ _ _ _)]
    simp only [List.getElem_map, List.getElem_range, host]
    rw [ihx ht.1 ha.1 _ i hi ha.2.2.1, ihy ht.2 ha.2.1 _ i hi ha.2.2.2]

theorem nodeVal_host {A : Arith} (hA : A.Lawful) {as : List Arr} {n i : Nat} {e : Expr} (hfn : e.isFn = true) (ht : Typed as n e)
    (ha : Agree e) (hi : i < n) : nodeVal A (memOf as) n e i = host A as i e := by
  cases e with
  | arr id t => simp [Expr.isFn] at hfn
  | scalar t v => simp [Expr.isFn] at hfn
  | un op x =>
    simp only [nodeVal, host]
    rw [obs_host hA (e := x) ht ha x.ty i hi (.inr (.inl rfl)), hA.cast_rep x.ty x.ty _ (.inl rfl) (host_lt hA (e := x) ht hi)]
  | bin op x y =>
    simp only [nodeVal, host]
    rw [obs_host hA ht.1 ha.1 _ i hi ha.2.2.1, obs_host hA ht.2 ha.2.1 _ i hi ha.2.2.2]

/-- **C133, the part that holds.** If in every operator each operand is a scalar or has the representation of the operator's type (the
same type, or an integer type of the same width), and so has the destination, then the destination gets the elements C++ would compute,
and every other array stays as it was; also if the destination is one of the operands. The arithmetic is any lawful one. -/
theorem C133_partial (A : Arith) (hA : A.Lawful) (junk : Nat → Nat) (as : List Arr) (n dst : Nat) (dt : Ty) (old : List Nat) (e : Expr)
    (hfn : e.isFn = true) (ht : Typed as n e) (hd : as[dst]? = some ⟨dt, old⟩) (hl : old.length = n)
    (ha : Agree e) (hrep : SameRep e.ty dt) :
    Right A as n dst dt e (assign A junk n dst e (memOf as)) := by
  have hd' : (memOf as)[dst]? = some (encAll dt.bytes old) := by simp [memOf, hd]
  obtain ⟨ts, h⟩ := assign_spec A junk n dst e (memOf as) (encAll dt.bytes old) hfn ht.valid ha.fits hd'
    (by rw [encAll_length, hl, hrep.bytes])
  refine ⟨ts, ?_⟩
  rw [h]
  congr 2
  simp only [after, memOf, List.map_set]
  congr 1
  rw [List.drop_of_length_le (by rw [encAll_length, hl, hrep.bytes]), List.append_nil, hrep.bytes]
  congr 1
  apply List.map_congr_left
  intro i hi
  have hi' : i < n := List.mem_range.mp hi
  rw [hA.cast_rep _ _ _ hrep (host_lt hA ht hi')]
  exact nodeVal_host hA hfn ht ha hi'

/-- All arrays of the expression have the element type `t`, every scalar has a type that does not change it, and no operator is applied
to scalars alone. -/
def Uniform (t : Ty) : Expr → Prop
  | .arr _ s => s = t
  | .scalar s _ => usual s t = t ∧ usual t s = t
  | .un _ x => Uniform t x ∧ x.isScalar = false
  | .bin _ x y => Uniform t x ∧ Uniform t y ∧ (x.isScalar = false ∨ y.isScalar = false)

theorem resTy_wide (op : BinOp) (t : Ty) (h : 2 < t.bytes) : op.resTy t t = t := by
  cases op <;> cases t <;> first | rfl | (exact absurd h (by decide))

theorem resTy_left (op : BinOp) (s t : Ty) (h : usual s t = t) (h2 : 2 < t.bytes) : op.resTy s t = t := by
  unfold BinOp.resTy common
  split
  · split
    · assumption
    · exact h
  · exact h

theorem resTy_right (op : BinOp) (s t : Ty) (h : usual t s = t) : op.resTy t s = t := by
  unfold BinOp.resTy common
  split
  · split
    · rfl
    · exact h
  · exact h

theorem Uniform.ty {t : Ty} (hw : 2 < t.bytes) {e : Expr} (h : Uniform t e) (hs : e.isScalar = false) : e.ty = t ∧ Agree e := by
  induction e with
  | arr id s => exact ⟨h, trivial⟩
  | scalar s v => simp [Expr.isScalar] at hs
  | un op x ih => exact ih h.1 h.2
  | bin op x y ihx ihy =>
    obtain ⟨h1, h2, h3⟩ := h
    have sc : ∀ z : Expr, z.isScalar = true → ∃ s v, z = .scalar s v := by
      intro z hz
      cases z <;> simp [Expr.isScalar] at hz
      exact ⟨_, _, rfl⟩
    rcases hx : x.isScalar with _ | _
    · obtain ⟨tx, ax⟩ := ihx h1 hx
      rcases hy : y.isScalar with _ | _
      · obtain ⟨ty, ay⟩ := ihy h2 hy
        have e : op.resTy x.ty y.ty = t := by rw [tx, ty, resTy_wide op t hw]
        exact ⟨e, ax, ay, .inr (.inl (by rw [e, tx])), .inr (.inl (by rw [e, ty]))⟩
      · obtain ⟨s, v, rfl⟩ := sc y hy
        have e : op.resTy x.ty s = t := by rw [tx]; exact resTy_right op s t h2.2
        exact ⟨e, ax, trivial, .inr (.inl (by simp only [Expr.ty] at e ⊢; rw [e, tx])), .inl rfl⟩
    · rcases hy : y.isScalar with _ | _
      · obtain ⟨ty, ay⟩ := ihy h2 hy
        obtain ⟨s, v, rfl⟩ := sc x hx
        have e : op.resTy s y.ty = t := by rw [ty]; exact resTy_left op s t h1.1 hw
        exact ⟨e, trivial, ay, .inl rfl, .inr (.inl (by simp only [Expr.ty] at e ⊢; rw [e, ty]))⟩
      · simp [hx, hy] at h3

/-- **Arrays of one type.** If all arrays and the destination have the same element type, of four bytes or more, and no scalar has a
type that would widen it, the result is that of C++. -/
theorem C133_uniform_partial (A : Arith) (hA : A.Lawful) (junk : Nat → Nat) (as : List Arr) (n dst : Nat) (t : Ty) (old : List Nat)
    (e : Expr) (hw : 2 < t.bytes) (hfn : e.isFn = true) (hu : Uniform t e) (ht : Typed as n e)
    (hd : as[dst]? = some ⟨t, old⟩) (hl : old.length = n) :
    Right A as n dst t e (assign A junk n dst e (memOf as)) := by
  have hs : e.isScalar = false := by cases e <;> simp_all [Expr.isFn, Expr.isScalar]
  obtain ⟨h1, h2⟩ := hu.ty hw hs
  exact C133_partial A hA junk as n dst t old e hfn ht hd hl h2 (.inl h1)

/-- **When the evaluation is undefined.** With at least one element, exactly if some operator's type is wider than the elements of an
array or function it is applied to, or wider than the elements of the destination. Whatever the arithmetic. -/
theorem C133_undefined_iff (A : Arith) (junk : Nat → Nat) (as : List Arr) (n dst : Nat) (dt : Ty) (old : List Nat) (e : Expr)
    (hn : 0 < n) (hfn : e.isFn = true) (ht : Typed as n e) (hd : as[dst]? = some ⟨dt, old⟩) (hl : old.length = n) :
    assign A junk n dst e (memOf as) = .ub ↔ ¬ (e.Fits ∧ e.ty.bytes ≤ dt.bytes) := by
  have hd' : (memOf as)[dst]? = some (encAll dt.bytes old) := by simp [memOf, hd]
  have hle : n * e.ty.bytes ≤ (encAll dt.bytes old).length ↔ e.ty.bytes ≤ dt.bytes := by
    rw [encAll_length, hl]
    exact Nat.mul_le_mul_left_iff hn
  constructor
  · rintro h ⟨h1, h2⟩
    obtain ⟨ts, h3⟩ := assign_spec A junk n dst e (memOf as) _ hfn ht.valid h1 hd' (hle.mpr h2)
    rw [h3] at h
    cases h
  · intro h
    apply assign_ub A junk n dst hn e (memOf as) _ hfn ht.valid hd'
    rw [hle]
    exact h

/-- Whether the type is an unsigned integer type. -/
def Ty.unsigned (t : Ty) : Bool := decide (t ∈ [.u8, .u16, .u32, .u64])

/-- **The types of operators.** The kernel for an operator on numbers of types `a` and `b` works in a floating point type exactly if one of
them is one, and then in the widest of those; otherwise in an integer type of the greatest width among four bytes, `a` and `b`, which is
unsigned exactly if one of `a` and `b` is unsigned and as wide. -/
theorem C133_conversions (a b : Ty) :
    ((usual a b).isInt = (a.isInt && b.isInt)) ∧
    (a.isInt = false → b.isInt = false → (usual a b).bytes = max a.bytes b.bytes) ∧
    (a.isInt = false → b.isInt = true → usual a b = a ∧ usual b a = a) ∧
    (a.isInt = true → b.isInt = true → (usual a b).bytes = max 4 (max a.bytes b.bytes) ∧
      ((usual a b).unsigned = true ↔ (a.unsigned = true ∧ a.bytes = (usual a b).bytes) ∨ (b.unsigned = true ∧ b.bytes = (usual a b).bytes))) := by
  cases a <;> cases b <;> decide

example : usual .u32 .i64 = .i64 ∧ usual .u64 .i64 = .u64 ∧ usual .u8 .i8 = .i32 ∧ usual .u64 .f32 = .f32 := by decide

theorem usual_wide (a b : Ty) : 4 ≤ (usual a b).bytes := by cases a <;> cases b <;> decide

/-- **Narrow integers.** Arithmetic on an array of 8- or 16-bit integers is undefined, whatever the other operand and the destination. -/
theorem C133_narrow (A : Arith) (junk : Nat → Nat) (as : List Arr) (n dst id : Nat) (dt t : Ty) (old : List Nat) (op : BinOp) (y : Expr)
    (hn : 0 < n) (hop : op.isCmp = false) (hs : t.bytes ≤ 2) (ht : Typed as n (.bin op (.arr id t) y))
    (hd : as[dst]? = some ⟨dt, old⟩) (hl : old.length = n) :
    assign A junk n dst (.bin op (.arr id t) y) (memOf as) = .ub ∧
      (Typed as n (.bin op y (.arr id t)) → assign A junk n dst (.bin op y (.arr id t)) (memOf as) = .ub) := by
  constructor
  · rw [C133_undefined_iff A junk as n dst dt old _ hn rfl ht hd hl]
    rintro ⟨⟨-, -, h, -⟩, -⟩
    rcases h with h | h
    · simp [Expr.isScalar] at h
    · have := usual_wide t y.ty
      simp only [BinOp.resTy, hop, Expr.ty] at h
      simp at h
      omega
  · intro ht'
    rw [C133_undefined_iff A junk as n dst dt old _ hn rfl ht' hd hl]
    rintro ⟨⟨-, -, -, h⟩, -⟩
    rcases h with h | h
    · simp [Expr.isScalar] at h
    · have := usual_wide y.ty t
      simp only [BinOp.resTy, hop, Expr.ty] at h
      simp at h
      omega

/-- **`a * 2.0` for an array of `float`.** The `double` literal makes the operator's type `double`, so the kernel reads twice the bytes
of the array: undefined for every operator, every literal and every destination. -/
theorem C133_double_literal (A : Arith) (junk : Nat → Nat) (as : List Arr) (n dst id v : Nat) (dt : Ty) (old : List Nat) (op : BinOp)
    (hn : 0 < n) (ht : Typed as n (.bin op (.arr id .f32) (.scalar .f64 v))) (hd : as[dst]? = some ⟨dt, old⟩) (hl : old.length = n) :
    assign A junk n dst (.bin op (.arr id .f32) (.scalar .f64 v)) (memOf as) = .ub := by
  rw [C133_undefined_iff A junk as n dst dt old _ hn rfl ht hd hl]
  rintro ⟨⟨-, -, h, -⟩, -⟩
  rcases h with h | h
  · simp [Expr.isScalar] at h
  · simp only [Expr.ty] at h
    clear ht
    revert h
    cases op <;> decide

/-- **C133 is false**, whatever the arithmetic: with `a` of type `float` holding one element, `b = a * 2.0` (`b` of type `double`)
compiles and reads outside the buffer of `a`. -/
theorem C133_false (A : Arith) : ¬ C133Claim A := by
  intro h
  have ht : Typed [⟨.f32, [0x3F800000]⟩, ⟨.f64, [0]⟩] 1 (.bin .mul (.arr 0 .f32) (.scalar .f64 0x4000000000000000)) := by
    refine ⟨⟨[0x3F800000], rfl, rfl, ?_⟩, ?_⟩
    · intro v hv
      simp only [List.mem_singleton] at hv
      subst hv
      decide
    · show (0x4000000000000000 : Nat) < 256 ^ 8
      norm_num
  obtain ⟨ts, h1⟩ := h (fun _ => 0) [⟨.f32, [0x3F800000]⟩, ⟨.f64, [0]⟩] 1 1 .f64 [0] _ rfl rfl ht rfl rfl
  rw [C133_double_literal A _ _ 1 1 0 _ .f64 [0] .mul (by decide) ht rfl rfl] at h1
  cases h1

/-- **Integers read as floats.** With `a` an array of `int32_t` holding 1, `r = a + 0.0f` stores the smallest positive `float`
(bit pattern 1) and not 1.0 (bit pattern 0x3F800000): nothing is out of bounds, the bits of the integer are taken as a `float`.
Assumed of the arithmetic: 1 converts to 1.0, and adding +0 changes neither of the two numbers. -/
theorem C133_int_as_float (A : Arith) (junk : Nat → Nat) (hcast : A.cast .i32 .f32 1 = 0x3F800000)
    (hzero : A.cast .f32 .f32 0 = 0) (h1 : A.bin .add .f32 1 0 = 1) (h2 : A.bin .add .f32 0x3F800000 0 = 0x3F800000) :
    assign A junk 1 1 (.bin .add (.arr 0 .i32) (.scalar .f32 0)) (memOf [⟨.i32, [1]⟩, ⟨.f32, [7]⟩])
      = .ok (memOf [⟨.i32, [1]⟩, ⟨.f32, [1]⟩]) ∧
    host A [⟨.i32, [1]⟩, ⟨.f32, [7]⟩] 0 (.bin .add (.arr 0 .i32) (.scalar .f32 0)) = 0x3F800000 := by
  constructor
  · have e : assign A junk 1 1 (.bin .add (.arr 0 .i32) (.scalar .f32 0)) (memOf [⟨.i32, [1]⟩, ⟨.f32, [7]⟩])
        = .ok [[1, 0, 0, 0], enc 4 (A.bin .add .f32 1 (A.cast .f32 .f32 0))] := rfl
    rw [e, hzero, h1]
    rfl
  · show A.bin .add .f32 (A.cast .i32 .f32 1) (A.cast .f32 .f32 0) = _
    rw [hcast, hzero, h2]

/-! ### A concrete arithmetic -/

/-- Value of the bit pattern of an integer type. -/
def toInt (t : Ty) (v : Nat) : Int :=
  match t with
  | .i8 | .i16 | .i32 | .i64 => if 2 * v < 256 ^ t.bytes then v else (v : Int) - 256 ^ t.bytes
  | _ => v

/-- Bit pattern of an integer. -/
def ofInt (t : Ty) (z : Int) : Nat := (z % 256 ^ t.bytes).toNat

/-- Integer arithmetic in two's complement; patterns of floats are treated as unsigned integers. -/
def ints : Arith where
  un _ k x := ofInt k (-toInt k x)
  bin op k x y := match op with
    | .add => ofInt k (toInt k x + toInt k y)
    | .sub => ofInt k (toInt k x - toInt k y)
    | .mul => ofInt k (toInt k x * toInt k y)
    | .div => ofInt k ((toInt k x).tdiv (toInt k y))
    | .lt => ofInt k (if toInt k x < toInt k y then 1 else 0)
    | .gt => ofInt k (if toInt k x > toInt k y then 1 else 0)
    | .le => ofInt k (if toInt k x ≤ toInt k y then 1 else 0)
    | .ge => ofInt k (if toInt k x ≥ toInt k y then 1 else 0)
    | .eq => ofInt k (if toInt k x = toInt k y then 1 else 0)
    | .ne => ofInt k (if toInt k x = toInt k y then 0 else 1)
  cast a k x := ofInt k (toInt a x)

theorem ofInt_lt (t : Ty) (z : Int) : ofInt t z < 256 ^ t.bytes := by
  unfold ofInt
  have h1 : (0 : Int) < 256 ^ t.bytes := by positivity
  have h2 := Int.emod_lt_of_pos z h1
  have h3 := Int.emod_nonneg z h1.ne'
  zify
  rw [Int.toNat_of_nonneg h3]
  exact h2

theorem ofInt_toInt (a k : Ty) (x : Nat) (h : a.bytes = k.bytes) (hx : x < 256 ^ a.bytes) : ofInt k (toInt a x) = x := by
  have key : (toInt a x) % 256 ^ k.bytes = (x : Int) := by
    have h0 : ((x : Int)) % 256 ^ k.bytes = x := by
      apply Int.emod_eq_of_lt (by positivity)
      rw [← h]
      exact_mod_cast hx
    unfold toInt
    split <;> try split
    all_goals first
      | exact h0
      | (rw [h, Int.sub_emod_right]; exact h0)
  unfold ofInt
  rw [key]
  rfl

/-- The hypotheses about the arithmetic can be met. -/
theorem ints_lawful : ints.Lawful where
  un_lt _ _ _ := ofInt_lt _ _
  bin_lt op k x y := by cases op <;> exact ofInt_lt _ _
  cast_lt _ _ _ := ofInt_lt _ _
  cast_rep a k x h hx := ofInt_toInt a k x h.bytes hx

/-- **A destination that is too wide.** With `a` an array of `int32_t` holding 1 and 2, `r = a + a` for an array `r` of `int64_t` puts both
results into the first element and leaves the second as it was. -/
theorem C133_packed (junk : Nat → Nat) :
    assign ints junk 2 1 (.bin .add (.arr 0 .i32) (.arr 0 .i32)) (memOf [⟨.i32, [1, 2]⟩, ⟨.i64, [7, 7]⟩])
      = .ok (memOf [⟨.i32, [1, 2]⟩, ⟨.i64, [2 + 4 * 2 ^ 32, 7]⟩]) := by
  rfl

/-! ### Cases that meet the hypotheses -/

/-- `r = (a + 3) * b` with arrays of `int32_t`; `r` is `a` itself, and the scalar is a 16-bit one. -/
example : Right ints [⟨.i32, [1, 2 ^ 32 - 5]⟩, ⟨.i32, [7, 2]⟩] 2 0 .i32
    (.bin .mul (.bin .add (.arr 0 .i32) (.scalar .i16 3)) (.arr 1 .i32))
    (assign ints (fun _ => 99) 2 0 (.bin .mul (.bin .add (.arr 0 .i32) (.scalar .i16 3)) (.arr 1 .i32))
      (memOf [⟨.i32, [1, 2 ^ 32 - 5]⟩, ⟨.i32, [7, 2]⟩])) := by
  apply C133_uniform_partial ints ints_lawful _ _ 2 0 .i32 [1, 2 ^ 32 - 5]
  · decide
  · rfl
  · exact ⟨⟨rfl, ⟨rfl, rfl⟩, .inl rfl⟩, rfl, .inl rfl⟩
  · refine ⟨⟨⟨_, rfl, rfl, by decide⟩, by show (3 : Nat) < 256 ^ 2; norm_num⟩, ⟨_, rfl, rfl, by decide⟩⟩
  · rfl
  · rfl

/-- The values: 28 and 2^32 - 4, that is -4. -/
example : assign ints (fun _ => 99) 2 0 (.bin .mul (.bin .add (.arr 0 .i32) (.scalar .i16 3)) (.arr 1 .i32))
    (memOf [⟨.i32, [1, 2 ^ 32 - 5]⟩, ⟨.i32, [7, 2]⟩])
      = .ok (memOf [⟨.i32, [28, 2 ^ 32 - 4]⟩, ⟨.i32, [7, 2]⟩] ++ [encAll 4 [4, 2 ^ 32 - 2]]) := by rfl

/-- `int32_t` and `uint32_t` mixed: the hypotheses of `C133_partial` hold. -/
example : Agree (.bin .lt (.arr 0 .i32) (.arr 1 .u32)) ∧ SameRep (Expr.bin .lt (.arr 0 .i32) (.arr 1 .u32)).ty .i32 :=
  ⟨⟨trivial, trivial, .inr (by decide), .inr (by decide)⟩, by decide⟩

/-- An array of `float` plus an array of `double`; an array of `int8_t` plus itself. -/
example : assign ints (fun _ => 0) 1 1 (.bin .add (.arr 0 .f32) (.arr 1 .f64)) (memOf [⟨.f32, [1]⟩, ⟨.f64, [1]⟩]) = .ub := by rfl
example : assign ints (fun _ => 0) 3 0 (.bin .add (.arr 0 .i8) (.arr 0 .i8)) (memOf [⟨.i8, [1, 2, 3]⟩]) = .ub := by rfl

end Verif.ClTypes
