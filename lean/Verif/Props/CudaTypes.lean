import Verif.Lemmas.CudaTypes
import Verif.Props.ClTypes

/-!
# C137: element types in expressions over CUDA arrays

What a user relies on: `r = f(a, b, ...)` stores, in every element of `r`, the value C++ gives to `f(a[i], b[i], ...)` with the usual
arithmetic conversions, converted to the element type of `r`; as it does on the host, whatever the packet widths chosen when building.
-/

namespace Verif.CudaTypes

open Verif.ClTypes (Ty BinOp UnOp Expr usual common Arr toInt ofInt ofInt_lt ofInt_toInt)

/-- The buffers of some arrays. -/
def memOf (as : List Arr) : Mem := as.map Arr.vals

/-- The arrays of the expression exist, are allocated for `n` elements of the given type and hold bit patterns of it; no operator is applied
to scalars alone. -/
def Typed (as : List Arr) (n : Nat) : Expr → Prop
  | .arr id t => ∃ vals, as[id]? = some ⟨t, vals⟩ ∧ vals.length = Gpu.cudaAllocated n ∧ ∀ v ∈ vals, v < 256 ^ t.bytes
  | .scalar t v => v < 256 ^ t.bytes
  | .un _ x => Typed as n x ∧ x.isScalar = false
  | .bin _ x y => Typed as n x ∧ Typed as n y ∧ (x.isScalar = false ∨ y.isScalar = false)

/-- Element `i` of the expression as on the host: operands are converted to the type of the operator; the result of a unary function is
converted to the type of its argument. -/
def host (A : Arith) (as : List Arr) (i : Nat) : Expr → Nat
  | .arr id _ => ((as[id]?.map Arr.vals).getD []).getD i 0
  | .scalar _ v => v
  | .un op x => A.cast (A.wt op x.ty) x.ty (A.raw op x.ty (host A as i x))
  | .bin op x y => A.bin op (op.resTy x.ty y.ty) (A.cast x.ty (op.resTy x.ty y.ty) (host A as i x))
      (A.cast y.ty (op.resTy x.ty y.ty) (host A as i y))

/-- What is assumed of the arithmetic: results are bit patterns of their type, a conversion of a type to itself changes nothing, and
functions of floating-point numbers are computed in the type of the number. -/
structure Arith.Lawful (A : Arith) : Prop where
  raw_lt : ∀ op t x, A.raw op t x < 256 ^ (A.wt op t).bytes
  bin_lt : ∀ op k x y, A.bin op k x y < 256 ^ k.bytes
  cast_lt : ∀ a k x, A.cast a k x < 256 ^ k.bytes
  cast_self : ∀ a x, x < 256 ^ a.bytes → A.cast a a x = x
  wt_float : ∀ op t, t.isInt = false → A.wt op t = t

/-- The destination has the right first `n` elements, all other arrays are as before (padding included). -/
def Right (A : Arith) (as : List Arr) (n dst : Nat) (dt : Ty) (e : Expr) (o : Out Mem) : Prop :=
  ∃ b ts, o = .ok ((memOf as).set dst b ++ ts) ∧ b.length = Gpu.cudaAllocated n ∧
    b.take n = (List.range n).map fun i => A.cast e.ty dt (host A as i e)

/-- C137: every expression is evaluated as on the host. -/
def C137Claim (A : Arith) (w : Widths) : Prop :=
  ∀ (junk : Nat → Nat) (as : List Arr) (n dst : Nat) (dt : Ty) (old : List Nat) (e : Expr),
    0 < n → e.isFn = true → Typed as n e → as[dst]? = some ⟨dt, old⟩ → old.length = Gpu.cudaAllocated n →
      Right A as n dst dt e (assign A w junk n dst dt e (memOf as))

theorem Typed.valid {as : List Arr} {n : Nat} {e : Expr} (h : Typed as n e) : Valid (memOf as) n e := by
  induction e with
  | arr id t =>
    obtain ⟨vals, hv, hl, -⟩ := h
    exact ⟨vals, by simp [memOf, hv], hl⟩
  | scalar t v => trivial
  | un op x ih => exact ⟨ih h.1, h.2⟩
  | bin op x y ihx ihy => exact ⟨ihx h.1, ihy h.2.1, h.2.2⟩

theorem le_alloc (n : Nat) : n ≤ Gpu.cudaAllocated n := by
  have := Gpu.C66_packets (n := n) (w := 1) (one_dvd _)
  simpa [Gpu.packets] using this.2

theorem host_lt {A : Arith} (hA : A.Lawful) {as : List Arr} {n i : Nat} {e : Expr} (h : Typed as n e) (hi : i < n) :
    host A as i e < 256 ^ e.ty.bytes := by
  cases e with
  | arr id t =>
    obtain ⟨vals, hv, hl, hr⟩ := h
    have := le_alloc n
    simp only [host, hv, Option.map_some, Option.getD_some, Expr.ty]
    rw [List.getD_eq_getElem _ _ (by omega)]
    exact hr _ (List.getElem_mem _)
  | scalar t v => exact h
  | un op x => exact hA.cast_lt _ _ _
  | bin op x y => exact hA.bin_lt _ _ _ _

theorem value_host {A : Arith} (hA : A.Lawful) (as : List Arr) (i : Nat) (e : Expr) : value A (memOf as) i e = host A as i e := by
  induction e with
  | arr id t => simp [value, host, memOf]
  | scalar t v => rfl
  | un op x ih => simp only [value, host, ih]
  | bin op x y ihx ihy =>
    simp only [value, host, ihx, ihy]
    exact hA.cast_self _ _ (hA.bin_lt _ _ _ _)

/-- Whether the kernel of the function works on packets, for a destination of type `dt`: both element types are floating-point types with
a packet of more than one number, all operands have the function's type, and `float` packets of two do not count. -/
def Packets (w : Widths) (dt : Ty) (e : Expr) : Prop := canVectorise w dt e = true

instance (w : Widths) (dt : Ty) (e : Expr) : Decidable (Packets w dt e) := by unfold Packets; infer_instance

/-- Converting the result of a unary function to the type of its argument first makes no difference for the destination `dt`. -/
def RootOk (A : Arith) (dt : Ty) : Expr → Prop
  | .un op x => dt = x.ty ∨ A.wt op x.ty = x.ty
  | _ => True

/-- **What is stored, exactly.** If the kernel does not mix packets of two types (and no packets of three are used), the assignment
succeeds, the other arrays stay as they are, and the destination gets: for an operator, the host's value; for a unary function,
the function's value converted directly to the destination's type. The destination may be one of the operands. -/
theorem C137_stored (A : Arith) (hA : A.Lawful) (w : Widths) (hw : w.Ok) (junk : Nat → Nat) (as : List Arr) (n dst : Nat) (dt : Ty)
    (old : List Nat) (e : Expr) (_hn : 0 < n) (hfn : e.isFn = true) (ht : Typed as n e) (hd : as[dst]? = some ⟨dt, old⟩)
    (hl : old.length = Gpu.cudaAllocated n) (hp : Packets w dt e → dt = e.ty) :
    ∃ b ts, assign A w junk n dst dt e (memOf as) = .ok ((memOf as).set dst b ++ ts) ∧ b.length = Gpu.cudaAllocated n ∧
      b.take n = (List.range n).map fun i => match e with
        | .un op x => A.cast (A.wt op x.ty) dt (A.raw op x.ty (host A as i x))
        | e => A.cast e.ty dt (host A as i e) := by
  obtain ⟨b, ts, h1, h2, h3⟩ := assign_spec (A := A) hw junk (dt := dt) hfn ht.valid (dst := dst) (b := old) (by simp [memOf, hd]) hl hp
  refine ⟨b, ts, h1, h2, ?_⟩
  rw [h3]
  apply List.map_congr_left
  intro i _
  cases e with
  | arr id t => simp [Expr.isFn] at hfn
  | scalar t v => simp [Expr.isFn] at hfn
  | un op x => simp only [stored, value_host hA]
  | bin op x y => simp only [stored, value_host hA, host, Expr.ty]

/-- **C137, the part that holds.** For every expression, of any element types, and every choice of packet widths other than three: if the
kernel does not mix packets of two types, and a unary function at the root either is computed in the type of its argument or has a
destination of that type, then the destination gets the elements of the host, and nothing else changes. -/
theorem C137_partial (A : Arith) (hA : A.Lawful) (w : Widths) (hw : w.Ok) (junk : Nat → Nat) (as : List Arr) (n dst : Nat) (dt : Ty)
    (old : List Nat) (e : Expr) (hn : 0 < n) (hfn : e.isFn = true) (ht : Typed as n e) (hd : as[dst]? = some ⟨dt, old⟩)
    (hl : old.length = Gpu.cudaAllocated n) (hp : Packets w dt e → dt = e.ty) (hr : RootOk A dt e) :
    Right A as n dst dt e (assign A w junk n dst dt e (memOf as)) := by
  obtain ⟨b, ts, h1, h2, h3⟩ := C137_stored A hA w hw junk as n dst dt old e hn hfn ht hd hl hp
  refine ⟨b, ts, h1, h2, h3.trans ?_⟩
  apply List.map_congr_left
  intro i hi
  cases e with
  | un op x =>
    simp only [host, Expr.ty]
    rcases hr with h | h
    · rw [h, hA.cast_self x.ty _ (hA.cast_lt _ _ _)]
    · have := hA.raw_lt op x.ty (host A as i x)
      rw [h] at this ⊢
      rw [hA.cast_self x.ty _ this]
  | _ => rfl

/-- **The type of the destination is the function's.** Then nothing more is needed. -/
theorem C137_same_partial (A : Arith) (hA : A.Lawful) (w : Widths) (hw : w.Ok) (junk : Nat → Nat) (as : List Arr) (n dst : Nat)
    (old : List Nat) (e : Expr) (hn : 0 < n) (hfn : e.isFn = true) (ht : Typed as n e) (hd : as[dst]? = some ⟨e.ty, old⟩)
    (hl : old.length = Gpu.cudaAllocated n) : Right A as n dst e.ty e (assign A w junk n dst e.ty e (memOf as)) := by
  refine C137_partial A hA w hw junk as n dst e.ty old e hn hfn ht hd hl (fun _ => rfl) ?_
  cases e <;> first | trivial | exact .inl rfl

/-- **The default build** has no packets: all operators, and all functions of floating-point arrays, are right for every destination. -/
theorem C137_default_partial (A : Arith) (hA : A.Lawful) (junk : Nat → Nat) (as : List Arr) (n dst : Nat) (dt : Ty)
    (old : List Nat) (e : Expr) (hn : 0 < n) (hfn : e.isFn = true) (ht : Typed as n e) (hd : as[dst]? = some ⟨dt, old⟩)
    (hl : old.length = Gpu.cudaAllocated n) (hi : (∃ op x y, e = .bin op x y) ∨ e.ty.isInt = false) :
    Right A as n dst dt e (assign A ⟨1, 1⟩ junk n dst dt e (memOf as)) := by
  refine C137_partial A hA ⟨1, 1⟩ ⟨.inl rfl, .inl rfl⟩ junk as n dst dt old e hn hfn ht hd hl ?_ ?_
  · intro h
    have := (canVectorise_true h).2.1
    cases dt <;> simp [packet, cudaPacketWidth] at this
  · rcases hi with ⟨op, x, y, rfl⟩ | hi
    · trivial
    · cases e with
      | un op x => exact .inr (hA.wt_float op x.ty hi)
      | _ => trivial

/-- **Packets of two types.** If the kernel would work on packets and the destination is `float` for a `double` function or the other way
round, the assignment throws: the kernel does not compile. For all operands, sizes and functions. -/
theorem C137_throws (A : Arith) (w : Widths) (hw : w.Ok) (junk : Nat → Nat) (as : List Arr) (n dst : Nat) (dt : Ty) (e : Expr)
    (hfn : e.isFn = true) (ht : Typed as n e) (hp : Packets w dt e) (hne : dt ≠ e.ty) :
    assign A w junk n dst dt e (memOf as) = .throw .runtimeError :=
  assign_throw hw junk hfn ht.valid hp hne

theorem packets_of_floats {w : Widths} (hf : w.f = 4) (hd : 1 < w.d) {op : UnOp} {id : Nat} :
    Packets w .f32 (.un op (.arr id .f64)) ∧ Packets w .f64 (.un op (.arr id .f32)) := by
  constructor <;>
    simp [Packets, canVectorise, allowVec, fnVec, packet, cudaPacketWidth, Expr.ty, hf, hd]

theorem not_packets {w : Widths} (hw : w.Ok) (h : ¬ (w.f = 4 ∧ 1 < w.d)) {dt : Ty} {e : Expr} (hp : Packets w dt e) : dt = e.ty := by
  obtain ⟨-, h1, h2⟩ := canVectorise_true hp
  have key : ∀ t : Ty, 1 < cudaPacketWidth (packet w t) → (t = .f32 ∧ w.f = 4) ∨ (t = .f64 ∧ 1 < w.d) := by
    intro t ht
    rcases (packet_float ht).1 with e | e
    · rw [e] at ht ⊢
      refine .inl ⟨rfl, ?_⟩
      rcases hw.1 with h | h | h
      · simp [packet, cudaPacketWidth, h] at ht
      · simp [packet, cudaPacketWidth, h] at ht
      · exact h
    · rw [e] at ht ⊢
      refine .inr ⟨rfl, ?_⟩
      by_contra hc
      simp [packet, cudaPacketWidth, hc] at ht
  rcases key dt h1 with ⟨a1, a2⟩ | ⟨a1, a2⟩ <;> rcases key e.ty h2 with ⟨b1, b2⟩ | ⟨b1, b2⟩
  · rw [a1, b1]
  · exact absurd ⟨a2, b2⟩ h
  · exact absurd ⟨b2, a2⟩ h
  · rw [a1, b1]

/-- **Exactly when C137 holds**, for packet widths other than three: `float` and `double` must not both have packets that are used (`float`
packets of two never are), and for every unary function converting its value first to the type of the argument must make no difference. -/
theorem C137_iff (A : Arith) (hA : A.Lawful) (w : Widths) (hw : w.Ok) :
    C137Claim A w ↔ ¬ (w.f = 4 ∧ 1 < w.d) ∧ ∀ op t dt v, v < 256 ^ t.bytes →
      A.cast (A.wt op t) dt (A.raw op t v) = A.cast t dt (A.cast (A.wt op t) t (A.raw op t v)) := by
  constructor
  · intro h
    have h1 : ¬ (w.f = 4 ∧ 1 < w.d) := by
      rintro ⟨hf, hd⟩
      have ht : Typed [⟨.f64, List.replicate 32 0⟩, ⟨.f32, List.replicate 32 0⟩] 1 (.un 0 (.arr 0 .f64)) :=
        ⟨⟨_, rfl, rfl, fun v hv => by rw [List.eq_of_mem_replicate hv]; positivity⟩, rfl⟩
      obtain ⟨b, ts, h1, -⟩ := h (fun _ => 0) _ 1 1 .f32 (List.replicate 32 0) _ (by decide) rfl ht rfl rfl
      rw [C137_throws A w hw _ _ 1 1 .f32 _ rfl ht (packets_of_floats hf hd).1 (by decide)] at h1
      cases h1
    refine ⟨h1, fun op t dt v hv => ?_⟩
    have ht : Typed [⟨t, List.replicate 32 v⟩, ⟨dt, List.replicate 32 0⟩] 1 (.un op (.arr 0 t)) :=
      ⟨⟨_, rfl, by simp [Gpu.cudaAllocated], fun u hu => by rw [List.eq_of_mem_replicate hu]; exact hv⟩, rfl⟩
    obtain ⟨b, ts, e1, e2, e3⟩ := h (fun _ => 0) _ 1 1 dt (List.replicate 32 0) _ (by decide) rfl ht rfl rfl
    obtain ⟨b', ts', k1, k2, k3⟩ := C137_stored A hA w hw (fun _ => 0) _ 1 1 dt (List.replicate 32 0) _ (by decide) rfl ht rfl rfl
      (not_packets hw h1)
    rw [e1] at k1
    have hm : memOf [⟨t, List.replicate 32 v⟩, ⟨dt, List.replicate 32 0⟩] = [List.replicate 32 v, List.replicate 32 0] := rfl
    simp only [hm, List.set_cons_succ, List.set_cons_zero, List.cons_append, List.nil_append, Out.ok.injEq, List.cons.injEq,
      true_and] at k1
    rw [k1.1, k3] at e3
    simpa [host, Expr.ty] using e3
  · rintro ⟨h1, h2⟩ junk as n dst dt old e hn hfn ht hd hl
    obtain ⟨b, ts, k1, k2, k3⟩ := C137_stored A hA w hw junk as n dst dt old e hn hfn ht hd hl (not_packets hw h1)
    refine ⟨b, ts, k1, k2, k3.trans ?_⟩
    apply List.map_congr_left
    intro i hi
    cases e with
    | un op x => exact h2 op x.ty dt _ (host_lt hA ht.1 (List.mem_range.mp hi))
    | _ => rfl

/-- **Packets of three.** With packets of three floats, the sum (or any other operator) of two `float` arrays is undefined whenever the
number of elements is a multiple of 32 and not of 3: the last packet is not in the allocation. -/
theorem C137_three (A : Arith) (w : Widths) (hf : w.f = 3) (junk : Nat → Nat) (as : List Arr) (n dst a b : Nat) (op : BinOp)
    (old : List Nat) (ht : Typed as n (.bin op (.arr a .f32) (.arr b .f32))) (hd : as[dst]? = some ⟨.f32, old⟩)
    (hl : old.length = Gpu.cudaAllocated n) (h32 : n % 32 = 0) (h3 : n % 3 ≠ 0) :
    assign A w junk n dst .f32 (.bin op (.arr a .f32) (.arr b .f32)) (memOf as) = .ub := by
  have hal : Gpu.cudaAllocated n = n := by
    unfold Gpu.cudaAllocated
    split <;> omega
  have hres : op.resTy .f32 .f32 = .f32 := by cases op <;> rfl
  have hc : canVectorise w .f32 (.bin op (.arr a .f32) (.arr b .f32)) = true := by
    simp [canVectorise, allowVec, fnVec, packet, cudaPacketWidth, Expr.ty, hf, hres]
  obtain ⟨⟨va, ha, hal1, -⟩, ⟨vb, hb, hbl1, -⟩, -⟩ := id ht
  simp only [assign, operand, Out.bind]
  rw [launch, if_pos ((kernelCompiles_iff rfl ht.valid).mpr fun _ => hres.symm)]
  have hex : extent w .f32 (.bin op (.arr a .f32) (.arr b .f32)) n = (n + 2) / 3 * 3 := by
    simp [extent, hc, extractor, packet, cudaPacketWidth, comps, Expr.ty, hf, hres, Gpu.packets]
  rw [hex]
  have hget : ∀ (id : Nat) (vals : List Nat), as[id]? = some ⟨.f32, vals⟩ → vals.length = Gpu.cudaAllocated n →
      ∀ i, i < Gpu.cudaAllocated n → fetch (memOf as) i (.buf id) = .ok (vals.getD i 0) := by
    intro id vals h1 h2 i hi
    simp only [fetch, memOf, List.getElem?_map, h1, Option.map_some]
    rw [List.getElem?_eq_getElem (by omega)]
    simp only [List.getD_eq_getElem _ _ (by omega : i < vals.length)]
  refine run_ub (b := old) (by simp [memOf, hd]) (fun i hi => ?_) (by omega)
  · simp only [Call.val, hget a va ha hal1 i (by omega), hget b vb hb hbl1 i (by omega), Out.bind]
    exact ⟨_, rfl⟩

/-! ### A concrete arithmetic -/

/-- Integers in two's complement. The only unary function is the negation, computed after the promotion to `int`; patterns of floats are treated
as unsigned integers. -/
def ints : Arith where
  wt _ t := t.promote
  raw _ t x := ofInt t.promote (-toInt t x)
  bin op k x y := match op with
    | .add => ofInt k (toInt k x + toInt k y)
    | .sub => ofInt k (toInt k x - toInt k y)
    | .mul => ofInt k (toInt k x * toInt k y)
    | .div => ofInt k ((toInt k x).tdiv (toInt k y))
    | .lt => ofInt k (if toInt k x < toInt k y then 1 else 0)
    | .gt => ofInt k (if toInt k x > toInt k y then 1 else 0)
    | .le => ofInt k (if toInt k x ≤ toInt k y then 1 else 0)
    | .ge => ofInt k (if toInt k x ≥ toInt k y then 1 else 0)
    | .eq => ofInt k (if toInt k x = toInt k y then 1 else 0)
    | .ne => ofInt k (if toInt k x = toInt k y then 0 else 1)
  cast a k x := ofInt k (toInt a x)

/-- The hypotheses about the arithmetic can be met. -/
theorem ints_lawful : ints.Lawful where
  raw_lt _ _ _ := ofInt_lt _ _
  bin_lt op k x y := by cases op <;> exact ofInt_lt _ _
  cast_lt _ _ _ := ofInt_lt _ _
  cast_self a x hx := ofInt_toInt a a x rfl hx
  wt_float op t h := by cases t <;> first | rfl | cases h

/-- **C137 is false** in every build without packets of three: the negation of -128 in an array of `int8_t` is stored as 128 in an array of
`int32_t`; on the host the functor converts it to `int8_t` first, and it stays -128. -/
theorem C137_false (w : Widths) (hw : w.Ok) : ¬ C137Claim ints w := by
  intro h
  exact absurd (((C137_iff ints ints_lawful w hw).mp h).2 0 .i8 .i32 128 (by decide)) (by decide)

/-- **C137 is false for every arithmetic** if both `float` and `double` have packets. -/
theorem C137_packets_false (A : Arith) (hA : A.Lawful) (w : Widths) (hw : w.Ok) (hf : w.f = 4) (hd : 1 < w.d) : ¬ C137Claim A w :=
  fun h => ((C137_iff A hA w hw).mp h).1 ⟨hf, hd⟩

/-! ### Cases that meet the hypotheses -/

/-- An array of one element, as allocated. -/
def one (t : Ty) (v : Nat) : Arr := ⟨t, v :: List.replicate 31 0⟩

theorem one_typed (as : List Arr) (id : Nat) (t : Ty) (v : Nat) (h : as[id]? = some (one t v)) (hv : v < 256 ^ t.bytes) :
    Typed as 1 (.arr id t) := by
  refine ⟨_, h, rfl, fun u hu => ?_⟩
  simp only [List.mem_cons] at hu
  rcases hu with h | h
  · rw [h]; exact hv
  · rw [List.eq_of_mem_replicate h]; positivity

/-- `r = (a + b) * 3` with `a` of `int8_t`, `b` of `int32_t`, `r` of `int64_t` and a 16-bit scalar: three types, right in every build. -/
example (w : Widths) (hw : w.Ok) : Right ints [one .i8 200, one .i32 7, one .i64 0] 1 2 .i64
    (.bin .mul (.bin .add (.arr 0 .i8) (.arr 1 .i32)) (.scalar .i16 3))
    (assign ints w (fun _ => 99) 1 2 .i64 (.bin .mul (.bin .add (.arr 0 .i8) (.arr 1 .i32)) (.scalar .i16 3))
      (memOf [one .i8 200, one .i32 7, one .i64 0])) := by
  refine C137_partial ints ints_lawful w hw _ _ 1 2 .i64 _ _ (by decide) rfl ?_ rfl rfl ?_ trivial
  · exact ⟨⟨one_typed _ 0 .i8 200 rfl (by decide), one_typed _ 1 .i32 7 rfl (by decide), .inl rfl⟩,
      by show (3 : Nat) < 256 ^ 2; norm_num, .inl rfl⟩
  · intro h
    exact absurd (canVectorise_true h).2.1 (by cases w; simp [packet, cudaPacketWidth])

/-- The value: ((-56) + 7) * 3 = -147. -/
example : ((assign ints ⟨1, 1⟩ (fun _ => 99) 1 2 .i64 (.bin .mul (.bin .add (.arr 0 .i8) (.arr 1 .i32)) (.scalar .i16 3))
      (memOf [one .i8 200, one .i32 7, one .i64 0])).bind fun m => .ok ((m.getD 2 []).head?))
      = .ok (some (2 ^ 64 - 147)) := by rfl

/-- `double` to `float` with packets `float4` and `double2`. -/
example : assign ints ⟨4, 2⟩ (fun _ => 0) 1 1 .f32 (.bin .add (.arr 0 .f64) (.arr 0 .f64)) (memOf [one .f64 1, one .f32 0])
    = .throw .runtimeError := by
  refine C137_throws ints ⟨4, 2⟩ ⟨.inr (.inr rfl), .inr (.inl rfl)⟩ _ _ 1 1 .f32 _ rfl ?_ (by decide) (by decide)
  exact ⟨one_typed _ 0 .f64 1 rfl (by decide), one_typed _ 0 .f64 1 rfl (by decide), .inl rfl⟩

/-- The same with packets of two floats, which are never used: right. -/
example : Right ints [one .f64 1, one .f32 0] 1 1 .f32 (.bin .add (.arr 0 .f64) (.arr 0 .f64))
    (assign ints ⟨2, 2⟩ (fun _ => 0) 1 1 .f32 (.bin .add (.arr 0 .f64) (.arr 0 .f64)) (memOf [one .f64 1, one .f32 0])) := by
  refine C137_partial ints ints_lawful ⟨2, 2⟩ ⟨.inr (.inl rfl), .inr (.inl rfl)⟩ _ _ 1 1 .f32 _ _ (by decide) rfl ?_ rfl rfl ?_ trivial
  · exact ⟨one_typed _ 0 .f64 1 rfl (by decide), one_typed _ 0 .f64 1 rfl (by decide), .inl rfl⟩
  · intro h
    exact absurd h (by decide)

/-- Arrays of 32 floats and packets of three. -/
example (A : Arith) (w : Widths) (hf : w.f = 3) : assign A w (fun _ => 0) 32 0 .f32 (.bin .add (.arr 0 .f32) (.arr 0 .f32))
    (memOf [⟨.f32, List.replicate 32 1⟩]) = .ub := by
  have ht : Typed [⟨.f32, List.replicate 32 1⟩] 32 (.arr 0 .f32) :=
    ⟨_, rfl, rfl, fun v hv => by rw [List.eq_of_mem_replicate hv]; decide⟩
  exact C137_three A w hf _ _ 32 0 0 0 .add _ ⟨ht, ht, .inl rfl⟩ rfl rfl rfl (by decide)

end Verif.CudaTypes
