import Verif.Model.VectorMixed
import Verif.Props.Vector

/-!
# C140: operators on vectors of two element types
-/

namespace Verif.Vec

variable {K L S T : Type}

theorem dims_uniform {n w : Nat} {e : Expr K} (he : Uniform n w e) (hv : HasVec e) : e.dims = n := by
  unfold Expr.dims
  rcases shape_uniform he with h | h
  · rw [h.1]
  · exact absurd hv h.2

theorem dims_scalar {e : Expr K} (hv : ¬ HasVec e) : e.dims = 0 := by
  have hu : ∀ e : Expr K, ¬ HasVec e → e.shape = none := by
    intro e
    induction e with
    | vec v => exact fun h => absurd trivial h
    | scalar x => exact fun _ => rfl
    | bin f l r ihl ihr =>
      intro h
      rw [Expr.shape, ihl (fun h' => h (Or.inl h'))]
      exact ihr (fun h' => h (Or.inr h'))
    | un f e ih => exact ih
  unfold Expr.dims
  rw [hu e hv]

/-- Casting to no more components than there are: always defined, every component converted. -/
theorem cast_spec [Zero S] (t : To K S) {m : Nat} (mem : Nat → S) (v : V K) (hw : 1 ≤ v.width) (hm : m ≤ v.dims) :
    ∃ r, t.cast m mem v = .ok r ∧ r.dims = m ∧ r.width = t.lanes v.width ∧ ∀ j, j < m → r.lane j = t.conv (v.lane j) := by
  cases t with
  | same =>
    simp only [To.cast, castSame, To.lanes, To.conv]
    by_cases h1 : v.width = 1
    · rw [if_pos h1]
      refine ⟨_, rfl, rfl, h1.symm, fun j hj => ?_⟩
      simp only [id]
      rw [if_pos (by omega)]
    · have hp : packets m v.width ≤ v.length := by
        unfold V.length packets
        exact Nat.div_le_div_right (by omega)
      rw [if_neg h1, if_pos hp]
      refine ⟨_, rfl, rfl, rfl, fun j hj => ?_⟩
      simp only [id]
      rw [if_pos (lt_packets hw hj)]
  | other c w =>
    refine ⟨_, rfl, rfl, rfl, fun j hj => ?_⟩
    simp only [castTo, To.conv]
    rw [if_pos (by omega)]

/-- What an operand is: one value, or an expression that is not a bare value. -/
theorem caster_expr [Zero K] [Zero S] {asserts : Bool} (t : To K S) {m : Nat} (mem : Nat → K) (mem' : Nat → S) {e : Expr K}
    (hv : HasVec e) : t.caster asserts m mem mem' e = t.castExpr asserts m mem mem' e := by
  cases e with
  | scalar x => exact absurd hv id
  | _ => rfl

/-- An operand after conversion. -/
theorem caster_spec [Zero K] [Zero S] {asserts : Bool} (t : To K S) {n w w' : Nat} (hw : 1 ≤ w) (hl : t.lanes w = w') (mem : Nat → K)
    (mem' : Nat → S) {e : Expr K} (he : Uniform n w e) (hv : HasVec e ∨ ∃ x, e = .scalar x) :
    ∃ r, t.caster asserts n mem mem' e = .ok r ∧ Uniform n w' r ∧ (HasVec e → HasVec r) ∧ ∀ j, j < n → meaning r j = t.conv (meaning e j) := by
  rcases hv with hv | ⟨x, rfl⟩
  · obtain ⟨v, e1, e2, e3, e4⟩ := eval_spec (asserts := asserts) hw mem he hv
    obtain ⟨r, c1, c2, c3, c4⟩ := cast_spec t mem' v (m := n) (by omega) (by omega)
    refine ⟨.vec r, ?_, ⟨c2, by rw [c3, e3, hl]⟩, fun _ => trivial, fun j hj => ?_⟩
    · rw [caster_expr t mem mem' hv, To.castExpr, e1, Out.ok_bind, c1]; rfl
    · rw [meaning, c4 j hj, e4 j (lt_packets hw hj)]
  · exact ⟨.scalar (t.conv x), rfl, trivial, fun h => h, fun j _ => rfl⟩

/-- **C140 (one dimension).** An operator on two operands of different element types, of which each is a value or an expression over vectors
with `n` components: the result has `n` components, and each is the operation on the converted components of the operands. This holds for
every operation, conversion, packet width, padding and memory, and with or without assertions; and assigning the result to a vector of a
third type (or back to the first, as `+=` does) converts every component the two have. -/
theorem C140_componentwise_partial [Zero K] [Zero L] [Zero S] [Zero T] (asserts : Bool) (tl : To K S) (tr : To L S) (f : S → S → S)
    {n wl wr w : Nat} (hl : 1 ≤ wl) (hr : 1 ≤ wr) (hw : 1 ≤ w) (hlw : tl.lanes wl = w) (hrw : tr.lanes wr = w)
    (ml : Nat → K) (mr : Nat → L) (ml' mr' mem : Nat → S) {l : Expr K} {r : Expr L} (ul : Uniform n wl l) (ur : Uniform n wr r)
    (vl : HasVec l ∨ ∃ x, l = .scalar x) (vr : HasVec r ∨ ∃ x, r = .scalar x) (hv : HasVec l ∨ HasVec r) :
    ∃ e v, mixed asserts tl tr f ml mr ml' mr' l r = .ok e ∧ eval asserts mem e = .ok v ∧ v.dims = n ∧ v.width = w ∧
      (∀ j, j < n → v.lane j = f (tl.conv (meaning l j)) (tr.conv (meaning r j))) ∧
      (∀ (back : S → T) (mem' : Nat → T) (dst : V T), ∃ d, assignOther asserts back mem mem' dst e = .ok d ∧ d.dims = dst.dims ∧
        ∀ j, j < min dst.dims n → d.lane j = back (f (tl.conv (meaning l j)) (tr.conv (meaning r j)))) := by
  have hmax : max l.dims r.dims = n := by
    have hl' : l.dims = n ∨ l.dims = 0 := by
      rcases vl with h | ⟨x, rfl⟩
      · exact Or.inl (dims_uniform ul h)
      · exact Or.inr rfl
    have hr' : r.dims = n ∨ r.dims = 0 := by
      rcases vr with h | ⟨x, rfl⟩
      · exact Or.inl (dims_uniform ur h)
      · exact Or.inr rfl
    rcases hv with h | h
    · have := dims_uniform ul h; omega
    · have := dims_uniform ur h; omega
  obtain ⟨a, a1, a2, a3, a4⟩ := caster_spec (asserts := asserts) tl hl hlw ml ml' ul vl
  obtain ⟨b, b1, b2, b3, b4⟩ := caster_spec (asserts := asserts) tr hr hrw mr mr' ur vr
  have hb : HasVec (.bin f a b) := hv.elim (fun h => Or.inl (a3 h)) (fun h => Or.inr (b3 h))
  obtain ⟨v, e1, e2, e3, e4⟩ := eval_spec (asserts := asserts) (e := .bin f a b) hw mem ⟨a2, b2⟩ hb
  have key : ∀ j, j < n → v.lane j = f (tl.conv (meaning l j)) (tr.conv (meaning r j)) := by
    intro j hj
    rw [e4 j (lt_packets hw hj), meaning, a4 j hj, b4 j hj]
  refine ⟨.bin f a b, v, ?_, e1, e2, e3, key, fun back mem' dst => ⟨castTo back dst.dims dst.width mem' v, ?_, rfl, fun j hj => ?_⟩⟩
  · rw [mixed, hmax, a1, Out.ok_bind, b1]; rfl
  · rw [assignOther, e1]; rfl
  · simp only [castTo]
    rw [if_pos (by omega), key j (by omega)]

/-- The conversion of this operand reads past its end. -/
def Short (t : To K S) (m : Nat) (v : V K) : Prop :=
  (match t with | .same => True | .other _ _ => False) ∧ v.width ≠ 1 ∧ packets v.dims v.width < packets m v.width

/-- Casting to any number of components. -/
theorem cast_any [Zero S] (t : To K S) (m : Nat) (mem : Nat → S) (v : V K) (hw : 1 ≤ v.width) :
    (t.cast m mem v = .ub ↔ Short t m v) ∧
    (¬ Short t m v → ∃ r, t.cast m mem v = .ok r ∧ r.dims = m ∧ r.width = t.lanes v.width ∧
      ∀ j, j < min m v.dims → r.lane j = t.conv (v.lane j)) := by
  cases t with
  | other c w =>
    refine ⟨⟨fun h => by simp [To.cast] at h, fun h => h.1.elim⟩, fun _ => ⟨_, rfl, rfl, rfl, fun j hj => ?_⟩⟩
    simp only [castTo, To.conv]
    rw [if_pos (by omega)]
  | same =>
    simp only [To.cast, castSame, To.lanes, To.conv, Short, true_and]
    by_cases h1 : v.width = 1
    · rw [if_pos h1]
      refine ⟨⟨fun h => (by cases h), fun h => absurd h1 h.1⟩, fun _ => ⟨_, rfl, rfl, h1.symm, fun j hj => ?_⟩⟩
      simp only [id]
      rw [if_pos (by omega)]
    · rw [if_neg h1]
      have hl : v.length = packets v.dims v.width := rfl
      by_cases hp : packets m v.width ≤ v.length
      · simp only [if_pos hp]
        refine ⟨⟨fun h => (by cases h), fun h => by omega⟩, fun _ => ⟨_, rfl, rfl, rfl, fun j hj => ?_⟩⟩
        simp only [id]
        rw [if_pos (lt_packets hw (by omega))]
      · simp only [if_neg hp]
        exact ⟨⟨fun _ => ⟨h1, by omega⟩, fun _ => trivial⟩, fun h => absurd ⟨h1, by omega⟩ h⟩

/-- **C140 (two dimensions).** An operator on two vectors of different element types with any dimensions: undefined exactly when the operand
that has the common type already has fewer packets than the larger dimension needs. Otherwise the result has the larger number of components,
and the components that both operands have are right. -/
theorem C140_dims_iff [Zero K] [Zero L] [Zero S] (asserts : Bool) (tl : To K S) (tr : To L S) (f : S → S → S) {w : Nat} (hw : 1 ≤ w)
    (ml : Nat → K) (mr : Nat → L) (ml' mr' mem : Nat → S) (a : V K) (b : V L) (ha : 1 ≤ a.width) (hb : 1 ≤ b.width)
    (hlw : tl.lanes a.width = w) (hrw : tr.lanes b.width = w) :
    (mixed asserts tl tr f ml mr ml' mr' (.vec a) (.vec b) = .ub ↔ Short tl (max a.dims b.dims) a ∨ Short tr (max a.dims b.dims) b) ∧
    (¬ (Short tl (max a.dims b.dims) a ∨ Short tr (max a.dims b.dims) b) →
      ∃ e v, mixed asserts tl tr f ml mr ml' mr' (.vec a) (.vec b) = .ok e ∧ eval asserts mem e = .ok v ∧ v.dims = max a.dims b.dims ∧
        ∀ j, j < min a.dims b.dims → v.lane j = f (tl.conv (a.lane j)) (tr.conv (b.lane j))) := by
  obtain ⟨a1, a2⟩ := cast_any tl (max a.dims b.dims) ml' a ha
  obtain ⟨b1, b2⟩ := cast_any tr (max a.dims b.dims) mr' b hb
  have hm : mixed asserts tl tr f ml mr ml' mr' (.vec a) (.vec b) =
      ((tl.cast (max a.dims b.dims) ml' a >>= fun r => Out.ok (Expr.vec r)) >>= fun x =>
        (tr.cast (max a.dims b.dims) mr' b >>= fun r => Out.ok (Expr.vec r)) >>= fun y => .ok (.bin f x y)) := rfl
  rw [hm]
  by_cases ca : Short tl (max a.dims b.dims) a
  · rw [a1.2 ca]
    exact ⟨⟨fun _ => Or.inl ca, fun _ => rfl⟩, fun h => absurd (Or.inl ca) h⟩
  · obtain ⟨x, x1, x2, x3, x4⟩ := a2 ca
    by_cases cb : Short tr (max a.dims b.dims) b
    · rw [x1, b1.2 cb]
      exact ⟨⟨fun _ => Or.inr cb, fun _ => rfl⟩, fun h => absurd (Or.inr cb) h⟩
    · obtain ⟨y, y1, y2, y3, y4⟩ := b2 cb
      rw [x1, y1]
      refine ⟨⟨fun h => (by cases h), fun h => (h.elim ca cb).elim⟩, fun _ => ?_⟩
      obtain ⟨v, e1, e2, e3, e4⟩ := eval_spec (asserts := asserts) (n := max a.dims b.dims) (e := .bin f (.vec x) (.vec y)) hw mem
        ⟨⟨x2, by rw [x3, hlw]⟩, ⟨y2, by rw [y3, hrw]⟩⟩ (Or.inl trivial)
      refine ⟨_, v, rfl, e1, e2, fun j hj => ?_⟩
      rw [e4 j (lt_packets hw (by omega)), meaning, meaning, meaning, x4 j (by omega), y4 j (by omega)]

/-- **C140 (in generic storage).** When the common type has no packets (packet width 1) every dimension is defined: a component that one
operand does not have counts as 0. -/
theorem C140_generic [Zero K] [Zero L] [Zero S] (asserts : Bool) (tl : To K S) (tr : To L S) (f : S → S → S)
    (ml : Nat → K) (mr : Nat → L) (ml' mr' mem : Nat → S) (a : V K) (b : V L) (ha : 1 ≤ a.width) (hb : 1 ≤ b.width)
    (hlw : tl.lanes a.width = 1) (hrw : tr.lanes b.width = 1) :
    ∃ e v, mixed asserts tl tr f ml mr ml' mr' (.vec a) (.vec b) = .ok e ∧ eval asserts mem e = .ok v ∧ v.dims = max a.dims b.dims ∧
      ∀ j, j < max a.dims b.dims → v.lane j =
        f (if j < a.dims then tl.conv (a.lane j) else 0) (if j < b.dims then tr.conv (b.lane j) else 0) := by
  have key : ∀ {K S : Type} [Zero K] [Zero S] (t : To K S) (m : Nat) (mem : Nat → S) (v : V K), t.lanes v.width = 1 →
      ∃ r, t.cast m mem v = .ok r ∧ r.dims = m ∧ r.width = 1 ∧ ∀ j, j < m → r.lane j = if j < v.dims then t.conv (v.lane j) else 0 := by
    intro K S _ _ t m mem v h
    cases t with
    | same =>
      simp only [To.lanes] at h
      simp only [To.cast, castSame, if_pos h, To.conv, id]
      refine ⟨_, rfl, rfl, rfl, fun j hj => ?_⟩
      by_cases c : j < v.dims
      · simp [c, hj]
      · simp [c]
    | other c w =>
      simp only [To.lanes] at h
      subst h
      refine ⟨_, rfl, rfl, rfl, fun j hj => ?_⟩
      simp only [castTo, fresh, if_true, To.conv]
      by_cases c : j < v.dims
      · simp [c, hj]
      · simp [c]
  obtain ⟨x, x1, x2, x3, x4⟩ := key tl (max a.dims b.dims) ml' a hlw
  obtain ⟨y, y1, y2, y3, y4⟩ := key tr (max a.dims b.dims) mr' b hrw
  obtain ⟨v, e1, e2, e3, e4⟩ := eval_spec (asserts := asserts) (n := max a.dims b.dims) (w := 1) (e := .bin f (.vec x) (.vec y)) (by omega) mem
    ⟨⟨x2, x3⟩, ⟨y2, y3⟩⟩ (Or.inl trivial)
  refine ⟨.bin f (.vec x) (.vec y), v, ?_, e1, e2, fun j hj => ?_⟩
  · have hm : mixed asserts tl tr f ml mr ml' mr' (.vec a) (.vec b) =
      ((tl.cast (max a.dims b.dims) ml' a >>= fun r => Out.ok (Expr.vec r)) >>= fun x =>
        (tr.cast (max a.dims b.dims) mr' b >>= fun r => Out.ok (Expr.vec r)) >>= fun y => .ok (.bin f x y)) := rfl
    rw [hm, x1, y1]; rfl
  · rw [e4 j (lt_packets (by omega) hj), meaning, meaning, meaning, x4 j hj, y4 j hj]

/-- **C140.** An operator on vectors of two element types with any dimensions has a result, and the components of the result are determined
by those of the operands. -/
def C140Claim : Prop := ∀ (K L S : Type) [Zero K] [Zero L] [Zero S] (tl : To K S) (tr : To L S) (f : S → S → S) (a : V K) (b : V L),
  1 ≤ a.width → 1 ≤ b.width → 1 ≤ tl.lanes a.width → tl.lanes a.width = tr.lanes b.width →
  ∃ g : Nat → S, ∀ (ml : Nat → K) (mr : Nat → L) (ml' mr' mem : Nat → S),
    ∃ e v, mixed false tl tr f ml mr ml' mr' (.vec a) (.vec b) = .ok e ∧ eval false mem e = .ok v ∧ ∀ j, j < v.dims → v.lane j = g j

/-- **C140 (disproved).** `Vector<double, 4> + Vector<float, 8>` with packets of four doubles reads past the end of the left operand. In
`Vector<float, 2> + Vector<double, 3>` the third component is the sum of that of the right operand and of whatever was in memory. -/
theorem C140_false : ¬ C140Claim ∧
    (∀ (x y : Nat → ℤ) (ml mr ml' mr' : Nat → ℤ), mixed true To.same (To.other id 4) (· + ·) ml mr ml' mr' (.vec ⟨4, 4, x⟩) (.vec ⟨8, 8, y⟩) = .ub) ∧
    (∀ (x y : Nat → ℤ) (ml mr ml' mr' mem : Nat → ℤ), ∃ e v,
      mixed true (To.other id 4) To.same (· + ·) ml mr ml' mr' (.vec ⟨2, 8, x⟩) (.vec ⟨3, 4, y⟩) = .ok e ∧ eval true mem e = .ok v ∧
      v.dims = 3 ∧ v.lane 0 = x 0 + y 0 ∧ v.lane 1 = x 1 + y 1 ∧ v.lane 2 = ml' 2 + y 2) := by
  have hub : ∀ (x y : Nat → ℤ) (asserts : Bool) (ml mr ml' mr' : Nat → ℤ),
      mixed asserts To.same (To.other id 4) (· + ·) ml mr ml' mr' (.vec ⟨4, 4, x⟩) (.vec ⟨8, 8, y⟩) = .ub := by
    intro x y asserts ml mr ml' mr'
    refine (C140_dims_iff asserts To.same (To.other id 4) (· + ·) (w := 4) (by decide) ml mr ml' mr' mr' ⟨4, 4, x⟩ ⟨8, 8, y⟩ (by simp) (by simp) rfl
      rfl).1.2 (Or.inl ⟨trivial, by simp, ?_⟩)
    show packets 4 4 < packets 8 4
    decide
  refine ⟨fun h => ?_, fun x y => hub x y true, fun x y ml mr ml' mr' mem => ?_⟩
  · obtain ⟨g, hg⟩ := h ℤ ℤ ℤ To.same (To.other id 4) (· + ·) ⟨4, 4, fun _ => 0⟩ ⟨8, 8, fun _ => 0⟩ (by decide) (by decide) (by simp [To.lanes]) rfl
    obtain ⟨e, v, h1, -⟩ := hg (fun _ => 0) (fun _ => 0) (fun _ => 0) (fun _ => 0) (fun _ => 0)
    rw [hub] at h1
    cases h1
  · obtain ⟨v, e1, e2, e3, e4⟩ := eval_spec (asserts := true) (n := 3) (w := 4)
      (e := .bin (· + ·) (.vec (castTo id 3 4 ml' ⟨2, 8, x⟩)) (.vec ⟨3, 4, fun j => if j < packets 3 4 * 4 then y j else mr' j⟩)) (by decide) mem
      ⟨⟨rfl, rfl⟩, ⟨rfl, rfl⟩⟩ (Or.inl trivial)
    have hc : (To.same (S := ℤ)).cast 3 mr' ⟨3, 4, y⟩ = .ok ⟨3, 4, fun j => if j < packets 3 4 * 4 then y j else mr' j⟩ := by
      simp [To.cast, castSame, V.length]
    refine ⟨_, v, ?_, e1, e2, ?_, ?_, ?_⟩
    · simp only [mixed, To.caster, To.castExpr, eval, Out.ok_bind]
      show (To.same.cast 3 mr' ⟨3, 4, y⟩ >>= _) >>= _ = _
      rw [hc]; rfl
    · rw [e4 0 (by decide)]; rfl
    · rw [e4 1 (by decide)]; rfl
    · rw [e4 2 (by decide)]; rfl

/-- The hypotheses hold for `Vector<int, 3> * 2.5`-like expressions: thrice the components of an integer vector, in packets of four. -/
example : ∃ e v, mixed true (To.other (fun x : ℤ => (x : ℚ)) 4) (To.same (S := ℚ)) (· * ·) (fun _ => 0) (fun _ => 0) (fun _ => 7) (fun _ => 7)
    (.vec ⟨3, 8, fun i => (i : ℤ)⟩) (.scalar (5 / 2)) = .ok e ∧ eval true (fun _ => 9) e = .ok v ∧ v.dims = 3 ∧ v.lane 2 = 5 := by
  obtain ⟨e, v, h1, h2, h3, -, h5, -⟩ := C140_componentwise_partial (T := ℚ) true (To.other (fun x : ℤ => (x : ℚ)) 4) (To.same (S := ℚ)) (· * ·)
    (n := 3) (wl := 8) (wr := 4) (w := 4) (by decide) (by decide) (by decide) rfl rfl (fun _ => 0) (fun _ => 0) (fun _ => 7) (fun _ => 7) (fun _ => 9)
    (l := .vec ⟨3, 8, fun i => (i : ℤ)⟩) (r := .scalar (5 / 2)) ⟨rfl, rfl⟩ trivial (Or.inl trivial) (Or.inr ⟨_, rfl⟩) (Or.inl trivial)
  refine ⟨e, v, h1, h2, h3, ?_⟩
  rw [h5 2 (by decide)]
  simp only [To.conv, meaning, id]
  norm_num

/-- The hypotheses of `C140_dims_iff` hold, with the case that is defined and the case that is not. -/
example : ¬ Short (To.same (S := ℤ)) 4 ⟨3, 4, fun _ => 0⟩ ∧ Short (To.same (S := ℤ)) 5 ⟨3, 4, fun _ => 0⟩ := by
  refine ⟨fun h => ?_, trivial, by simp, by decide⟩
  exact absurd h.2.2 (by decide)

end Verif.Vec
