import Verif.Model.Geam
import Verif.Props.Expr
import Verif.Props.Transpose
import Verif.Props.Matmul
import Verif.Lemmas.View

/-!
# Scaled matrix sums (C39)

`Geam cfg shapes tmp junk a alpha b beta c m o`: `geam(a, alpha, b, beta, c)` can have outcome `o`.
-/

namespace Verif.GeamM

open ShapeM Conc TransM ExprM Grid
open MulM (Holds Rows holds_iff)

variable {α : Type}

/-- The argument is an `r` by `n` matrix: an array holding `f`, or the transpose of an array holding `f^T`, with the scale `own`. -/
inductive Means [One α] (shapes : Nat → AnyShape) (m : Mem α) (r n : Nat) : Side α → (own : α) → (Nat → Nat → α) → Prop
  | plain {id : Nat} {f : Nat → Nat → α} : ext (shapes id) = [r, n] → Holds (m id) r n f → Means shapes m r n (.plain id [r, n]) 1 f
  | transposed {id : Nat} {own : α} {f : Nat → Nat → α} : ext (shapes id) = [n, r] → Holds (m id) n r f →
      Means shapes m r n (.transposed id ⟨[n, r], [r, n], [1, 0], own⟩) own fun i j => f j i

/-- The array under an argument. -/
def Side.id : Side α → Nat
  | .plain id _ => id
  | .transposed id _ => id

/-- What every call needs: a usable packet width and block size, dynamic storage, at least one element, fewer than 2^32, a new
temporary. -/
structure Ready (cfg : GCfg) (shapes : Nat → AnyShape) (tmp : Nat) (junk : List α) (a b : Side α) (c r n : Nat) : Prop where
  width : 0 < cfg.expr.width
  fixed : cfg.expr.fixed = false
  block : 0 < cfg.blockSize
  rpos : 0 < r
  npos : 0 < n
  small : r * n < two32
  junk : junk.length = r * n
  shape : ext (shapes c) = [r, n]
  tmpa : tmp ≠ a.id
  tmpb : tmp ≠ b.id
  tmpc : tmp ≠ c
  notA : ∀ id s, a = .plain id s → id ≠ c
  notB : ∀ id s, b = .plain id s → id ≠ c

theorem size_eq {s : AnyShape} {r n : Nat} (h : ext s = [r, n]) (hs : r * n < two32) : size s = r * n := by
  rw [ViewM.size_small (by rw [h]; simpa [count] using hs), h]
  simp [count]

/-- `x + y` of two arrays or scaled arrays assigned to `d`. -/
theorem sum_assigned [Semiring α] {cfg : Cfg} {shapes : Nat → AnyShape} {junk : List α} {d r n : Nat} {l e : Expr α} {m : Mem α}
    {f g : Nat → Nat → α} {s s' : AnyShape} (hw : 0 < cfg.width) (hf : cfg.fixed = false) (hr : 0 < r) (hn : 0 < n) (hsm : r * n < two32)
    (hj : junk.length = r * n) (hd : ext (shapes d) = [r, n]) (hl : build cfg.asserts shapes l = .ok (some s))
    (he : build cfg.asserts shapes e = .ok (some s')) (hs : ext s = [r, n]) (hs' : ext s' = [r, n]) (ol : Operands m d (r * n) l)
    (oe : Operands m d (r * n) e) (vl : ∀ i j, i < r → j < n → valueAt m (i * n + j) l = some (f i j))
    (ve : ∀ i j, i < r → j < n → valueAt m (i * n + j) e = some (g i j)) :
    (∃ o, Assign cfg shapes junk d (.bin (· + ·) l e) m o) ∧ ∀ o, Assign cfg shapes junk d (.bin (· + ·) l e) m o →
      ∃ m', o = .ok m' ∧ Rows (m' d) r n (fun i j => f i j + g i j) ∧ ∀ id, id ≠ d → m' id = m id := by
  have hsz := size_eq hs hsm
  have hpos : 0 < r * n := Nat.mul_pos hr hn
  have hb : build cfg.asserts shapes (.bin (· + ·) l e) = .ok (some s) := by
    have : shapeEq (ext s) (ext s') = true := shapeEq_iff.2 (hs.trans hs'.symm)
    simp [build, hl, he, binShape, this, bind, Out.bind]
  obtain ⟨h1, h2⟩ := assign_right (cfg := cfg) (shapes := shapes) (junk := junk) (d := d) (e := .bin (· + ·) l e) (m := m) (s := s) hw hb
    (hd.trans hs.symm) (by rw [hsz, hj]) (fun h => by rw [hf] at h; cases h) (fun _ _ => by omega)
    (fun _ h => by rw [hf] at h; cases h) (by rw [hsz]; exact ⟨ol, oe⟩)
  refine ⟨h1, fun o ho => ?_⟩
  obtain ⟨m', rfl, h3, h4, h5⟩ := h2 o ho
  rw [hsz] at h3 h4
  refine ⟨m', rfl, ⟨h3, fun i j hi hj => ?_⟩, h5⟩
  have hlt : i * n + j < r * n := by
    rw [Nat.mul_comm r n]
    exact pos_lt hj hi
  obtain ⟨x, hx, hx'⟩ := h4 (i * n + j) hlt
  simp only [valueAt, vl i j hi hj, ve i j hi hj] at hx
  rw [hx', ← hx]

theorem build_times [Mul α] {asserts : Bool} {shapes : Nat → AnyShape} {id : Nat} {s : α} :
    build asserts shapes (times id s) = .ok (some (shapes id)) := rfl

theorem value_times [Mul α] {m : Mem α} {id k : Nat} {s v : α} (h : (m id)[k]? = some v) : valueAt m k (times id s) = some (v * s) := by
  simp [times, valueAt, h]

/-- Evaluating a transpose into a new array. -/
theorem evalT_spec [Semiring α] {cfg : GCfg} {r n src tmp : Nat} {junk : List α} {m : Mem α} {f : Nat → Nat → α} {scale : α}
    (hb : 0 < cfg.blockSize) (hj : junk.length = r * n) (hne : tmp ≠ src) (h : Rows (m src) n r f) :
    ∃ res, (∀ o, EvalT cfg [n, r] scale src tmp junk m o ↔ o = .ok res) ∧ Rows (res tmp) r n (fun i j => f j i * scale) ∧
      ∀ id, id ≠ tmp → res id = m id := by
  have hmk : mkT cfg.expr.asserts [n, r] [1, 0] scale = .ok ⟨[n, r], [r, n], [1, 0], scale⟩ := by
    cases cfg.expr.asserts <;> rfl
  have hsrc : (fresh tmp junk m) src = m src := by simp [fresh, Ne.symm hne]
  obtain ⟨res, h1, h2, h3, h4⟩ := apply_matrix (mul := (· * ·)) (asserts := cfg.expr.asserts) (small := cfg.small) (threshold := cfg.threshold)
    (bs := cfg.blockSize) (t := ⟨[n, r], [r, n], [1, 0], scale⟩) (src := src) (dst := tmp) (rows := n) (cols := r) (m := fresh tmp junk m)
    (outShape := [r, n]) rfl (fun _ => rfl) (Ne.symm hne) (by rw [hsrc, h.1]) (by simp [fresh, hj, Nat.mul_comm]) hb
  refine ⟨res, fun o => ?_, ⟨by rw [h2, Nat.mul_comm], fun i j hi hj => ?_⟩, fun id hid => ?_⟩
  · rw [← h1]
    constructor
    · intro h
      cases h with
      | throws h => rw [hmk] at h; cases h
      | ub h => rw [hmk] at h; cases h
      | apply h h' => rw [hmk] at h; cases h; exact h'
    · exact fun h => .apply hmk h
  · exact h3 j i _ hj hi (by rw [hsrc]; exact h.2 j i hj hi)
  · rw [h4 id hid]
    simp [fresh, hid]

/-- Assigning a transpose to an array. -/
theorem assignT_spec [Semiring α] {cfg : GCfg} {r n src c : Nat} {m : Mem α} {f : Nat → Nat → α}
    (hb : 0 < cfg.blockSize) (hne : src ≠ c) (h : Rows (m src) n r f) (hc : (m c).length = n * r) :
    ∃ res, (∀ o, AssignT cfg [n, r] src c m o ↔ o = .ok res) ∧ Rows (res c) r n (fun i j => f j i) ∧ ∀ id, id ≠ c → res id = m id := by
  have hmk : transposeFn cfg.expr.asserts [n, r] [0, 0] (1 : α) = .ok ⟨[n, r], [r, n], [1, 0], 1⟩ := by
    cases cfg.expr.asserts <;> rfl
  obtain ⟨res, h1, h2, h3, h4⟩ := apply_matrix (mul := (· * ·)) (asserts := cfg.expr.asserts) (small := cfg.small) (threshold := cfg.threshold)
    (bs := cfg.blockSize) (t := ⟨[n, r], [r, n], [1, 0], (1 : α)⟩) (src := src) (dst := c) (rows := n) (cols := r) (m := m)
    (outShape := [r, n]) rfl (fun _ => rfl) hne h.1 hc hb
  refine ⟨res, fun o => ?_, ⟨by rw [h2, Nat.mul_comm], fun i j hi hj => ?_⟩, h4⟩
  · rw [← h1]
    constructor
    · intro h
      cases h with
      | throws h => rw [hmk] at h; cases h
      | ub h => rw [hmk] at h; cases h
      | apply h h' => rw [hmk] at h; cases h; exact h'
    · exact fun h => .apply hmk h
  · rw [h3 j i _ hj hi (h.2 j i hj hi), mul_one]

theorem then_spec {P : Out (Mem α) → Prop} {Q : Mem α → Out (Mem α) → Prop} {G : Mem α → Prop} {res : Mem α} (hP : ∀ o, P o ↔ o = .ok res)
    (hQ : (∃ o, Q res o) ∧ ∀ o, Q res o → ∃ m', o = .ok m' ∧ G m') : (∃ o, Then P Q o) ∧ ∀ o, Then P Q o → ∃ m', o = .ok m' ∧ G m' := by
  refine ⟨?_, fun o h => ?_⟩
  · obtain ⟨o, ho⟩ := hQ.1
    exact ⟨o, .next ((hP _).2 rfl) ho⟩
  · cases h with
    | next h h' =>
      cases (hP _).1 h
      exact hQ.2 o h'
    | throws h => cases (hP _).1 h
    | ub h => cases (hP _).1 h

/-- What `geam` computes: each array is transposed as its argument says and scaled by `alpha` or `beta`; the scale of a `Transpose`
argument itself plays no part. For all four versions, all extents, contents, scales, block sizes, packet widths, thresholds and thread
interleavings. The array under a transposed argument may be `c` itself. -/
theorem C39_exact [Semiring α] (cfg : GCfg) (shapes : Nat → AnyShape) (tmp : Nat) (junk : List α) (a b : Side α) (alpha beta own own' : α)
    (c r n : Nat) (m : Mem α) (f g : Nat → Nat → α) (h : Ready cfg shapes tmp junk a b c r n) (hc : (m c).length = r * n)
    (hA : Means shapes m r n a own f) (hB : Means shapes m r n b own' g) :
    (∃ o, Geam cfg shapes tmp junk a alpha b beta c m o) ∧ ∀ o, Geam cfg shapes tmp junk a alpha b beta c m o →
      ∃ res, o = .ok res ∧ (Holds (res c) r n fun i j => f i j * alpha + g i j * beta) ∧ ∀ id, id ≠ c → id ≠ tmp → res id = m id := by
  have hv : valid a b c (ext (shapes c)) := by
    refine ⟨?_, ?_, ?_, h.notA, h.notB⟩
    · cases hA <;> cases hB <;> rfl
    · cases hA <;> rfl
    · rw [h.shape]; cases hA <;> rfl
  suffices hb : (∃ o, body cfg shapes tmp junk alpha beta c m a b o) ∧ ∀ o, body cfg shapes tmp junk alpha beta c m a b o →
      ∃ res, o = .ok res ∧ Rows (res c) r n (fun i j => f i j * alpha + g i j * beta) ∧ ∀ id, id ≠ c → id ≠ tmp → res id = m id by
    refine ⟨?_, fun o ho => ?_⟩
    · obtain ⟨o, ho⟩ := hb.1
      exact ⟨o, .run (fun _ => hv) ho⟩
    · cases ho with
      | invalid _ h' => exact absurd hv h'
      | run _ ho =>
        obtain ⟨res, h1, h2, h3⟩ := hb.2 o ho
        exact ⟨res, h1, holds_iff.2 h2, h3⟩
  have hj := h.junk
  cases hA with
  | @plain ia f sa hfa =>
    have hfa := holds_iff.1 hfa
    cases hB with
    | @plain ib g sb hgb =>
      have hgb := holds_iff.1 hgb
      have := sum_assigned (cfg := cfg.expr) (shapes := shapes) (junk := junk) (d := c) (r := r) (n := n) (l := times ia alpha) (e := times ib beta)
        (m := m) (f := fun i j => f i j * alpha) (g := fun i j => g i j * beta) h.width h.fixed h.rpos h.npos h.small hj h.shape build_times
        build_times sa sb ⟨hfa.1, trivial⟩ ⟨hgb.1, trivial⟩ (fun i j hi hj => value_times (hfa.2 i j hi hj))
        (fun i j hi hj => value_times (hgb.2 i j hi hj))
      refine ⟨this.1, fun o ho => ?_⟩
      obtain ⟨res, h1, h2, h3⟩ := this.2 o ho
      exact ⟨res, h1, h2, fun id h _ => h3 id h⟩
    | @transposed ib own' g sb hgb =>
      have hgb := holds_iff.1 hgb
      obtain ⟨m1, e1, e2, e3⟩ := evalT_spec (cfg := cfg) (r := r) (n := n) (src := ib) (tmp := tmp) (junk := junk) (m := m) (scale := beta) h.block hj
        h.tmpb hgb
      have hta : tmp ≠ ia := h.tmpa
      refine then_spec e1 ?_
      have := sum_assigned (cfg := cfg.expr) (shapes := withShape shapes tmp [r, n]) (junk := junk) (d := c) (r := r) (n := n)
        (l := times ia alpha) (e := .arr tmp) (m := m1) (f := fun i j => f i j * alpha) (g := fun i j => g j i * beta) h.width h.fixed h.rpos
        h.npos h.small hj (by simp [withShape, Ne.symm h.tmpc, h.shape]) (s := shapes ia) (s' := .shape [r, n])
        (by rw [build_times]; simp [withShape, Ne.symm hta]) (by simp [build, withShape]) sa rfl
        ⟨by rw [Operands, e3 ia (Ne.symm hta)]; exact hfa.1, trivial⟩ e2.1
        (fun i j hi hj => value_times (by rw [e3 ia (Ne.symm hta)]; exact hfa.2 i j hi hj)) (fun i j hi hj => e2.2 i j hi hj)
      refine ⟨this.1, fun o ho => ?_⟩
      obtain ⟨res, h1, h2, h3⟩ := this.2 o ho
      exact ⟨res, h1, h2, fun id h h' => (h3 id h).trans (e3 id h')⟩
  | @transposed ia own f sa hfa =>
    have hfa := holds_iff.1 hfa
    have hta : tmp ≠ ia := h.tmpa
    cases hB with
    | @plain ib g sb hgb =>
      have hgb := holds_iff.1 hgb
      have htb : tmp ≠ ib := h.tmpb
      obtain ⟨m1, e1, e2, e3⟩ := evalT_spec (cfg := cfg) (r := r) (n := n) (src := ia) (tmp := tmp) (junk := junk) (m := m) (scale := alpha) h.block hj
        hta hfa
      refine then_spec e1 ?_
      have := sum_assigned (cfg := cfg.expr) (shapes := withShape shapes tmp [r, n]) (junk := junk) (d := c) (r := r) (n := n)
        (l := .arr tmp) (e := times ib beta) (m := m1) (f := fun i j => f j i * alpha) (g := fun i j => g i j * beta) h.width h.fixed h.rpos
        h.npos h.small hj (by simp [withShape, Ne.symm h.tmpc, h.shape]) (s := .shape [r, n]) (s' := shapes ib)
        (by simp [build, withShape]) (by rw [build_times]; simp [withShape, Ne.symm htb]) rfl sb e2.1
        ⟨by rw [Operands, e3 ib (Ne.symm htb)]; exact hgb.1, trivial⟩ (fun i j hi hj => e2.2 i j hi hj)
        (fun i j hi hj => value_times (by rw [e3 ib (Ne.symm htb)]; exact hgb.2 i j hi hj))
      refine ⟨this.1, fun o ho => ?_⟩
      obtain ⟨res, h1, h2, h3⟩ := this.2 o ho
      exact ⟨res, h1, h2, fun id h h' => (h3 id h).trans (e3 id h')⟩
    | @transposed ib own' g sb hgb =>
      have hgb := holds_iff.1 hgb
      have htb : tmp ≠ ib := h.tmpb
      have ea : fresh tmp junk m ia = m ia := by simp [fresh, Ne.symm hta]
      have eb : fresh tmp junk m ib = m ib := by simp [fresh, Ne.symm htb]
      have hs := sum_assigned (cfg := cfg.expr) (shapes := withShape shapes tmp [n, r]) (junk := junk) (d := tmp) (r := n) (n := r)
        (l := times ia alpha) (e := times ib beta) (m := fresh tmp junk m) (f := fun i j => f i j * alpha) (g := fun i j => g i j * beta) h.width
        h.fixed h.npos h.rpos (by rw [Nat.mul_comm]; exact h.small) (by rw [hj, Nat.mul_comm]) (by simp [withShape, ext])
        (s := shapes ia) (s' := shapes ib) (by rw [build_times]; simp [withShape, Ne.symm hta]) (by rw [build_times]; simp [withShape, Ne.symm htb])
        sa sb ⟨by rw [Operands, ea]; exact hfa.1, trivial⟩ ⟨by rw [Operands, eb]; exact hgb.1, trivial⟩
        (fun i j hi hj => value_times (by rw [ea]; exact hfa.2 i j hi hj)) (fun i j hi hj => value_times (by rw [eb]; exact hgb.2 i j hi hj))
      have next : ∀ m1, Rows (m1 tmp) n r (fun i j => f i j * alpha + g i j * beta) → (∀ id, id ≠ tmp → m1 id = fresh tmp junk m id) →
          ∃ res, (∀ o, AssignT cfg [n, r] tmp c m1 o ↔ o = .ok res) ∧ Rows (res c) r n (fun i j => f j i * alpha + g j i * beta) ∧
            ∀ id, id ≠ c → id ≠ tmp → res id = m id := by
        intro m1 h1 h2
        obtain ⟨res, h3, h4, h5⟩ := assignT_spec (cfg := cfg) (r := r) (n := n) (src := tmp) (c := c) (m := m1) h.block h.tmpc h1 (by
          rw [h2 c (Ne.symm h.tmpc)]
          simp only [fresh, if_neg (Ne.symm h.tmpc)]
          rw [hc, Nat.mul_comm])
        refine ⟨res, h3, h4, fun id i1 i2 => ?_⟩
        rw [h5 id i1, h2 id i2]
        simp [fresh, i2]
      refine ⟨?_, fun o ho => ?_⟩
      · obtain ⟨o, ho⟩ := hs.1
        obtain ⟨m1, rfl, h1, h2⟩ := hs.2 o ho
        obtain ⟨res, h3, -⟩ := next m1 h1 h2
        exact ⟨_, .next ho ((h3 _).2 rfl)⟩
      · cases ho with
        | next h1 h2 =>
          obtain ⟨m1, e, h3, h4⟩ := hs.2 _ h1
          cases e
          obtain ⟨res, h5, h6, h7⟩ := next _ h3 h4
          exact ⟨res, (h5 o).1 h2, h6, h7⟩
        | throws h1 => obtain ⟨m1, e, -⟩ := hs.2 _ h1; cases e
        | ub h1 => obtain ⟨m1, e, -⟩ := hs.2 _ h1; cases e

/-- C39, for the scalars `α`: the scale of a transposed argument counts too. -/
def C39Claim (α : Type) [Semiring α] : Prop :=
  ∀ (cfg : GCfg) (shapes : Nat → AnyShape) (tmp : Nat) (junk : List α) (a b : Side α) (alpha beta own own' : α) (c r n : Nat) (m : Mem α)
    (f g : Nat → Nat → α), Ready cfg shapes tmp junk a b c r n → (m c).length = r * n → Means shapes m r n a own f →
    Means shapes m r n b own' g → ∀ o, Geam cfg shapes tmp junk a alpha b beta c m o →
      ∃ res, o = .ok res ∧ Holds (res c) r n fun i j => f i j * own * alpha + g i j * own' * beta

/-- **C39** when every transposed argument has scale 1, as made by `transpose(x)`. Missing: other scales, for which the property is
false, and arrays without elements. -/
theorem C39_partial [Semiring α] (cfg : GCfg) (shapes : Nat → AnyShape) (tmp : Nat) (junk : List α) (a b : Side α) (alpha beta : α)
    (c r n : Nat) (m : Mem α) (f g : Nat → Nat → α) (h : Ready cfg shapes tmp junk a b c r n) (hc : (m c).length = r * n)
    (hA : Means shapes m r n a 1 f) (hB : Means shapes m r n b 1 g) :
    (∃ o, Geam cfg shapes tmp junk a alpha b beta c m o) ∧ ∀ o, Geam cfg shapes tmp junk a alpha b beta c m o →
      ∃ res, o = .ok res ∧ (Holds (res c) r n fun i j => f i j * 1 * alpha + g i j * 1 * beta) ∧
        ∀ id, id ≠ c → id ≠ tmp → res id = m id := by
  simp only [mul_one]
  exact C39_exact cfg shapes tmp junk a b alpha beta 1 1 c r n m f g h hc hA hB

/-- A call with assertions on: `geam(Transpose(x, {1, 0}, 2), 3, y, 1, z)` for the 1x1 arrays x = (5), y = (0). -/
theorem ready_witness : Ready (α := Int) ⟨⟨true, false, true, 4, 5000, 8, false⟩, false, 5000, 16⟩ (fun _ => .shape [1, 1]) 3 [0]
    (.transposed 0 ⟨[1, 1], [1, 1], [1, 0], 2⟩) (.plain 1 [1, 1]) 2 1 1 :=
  ⟨by decide, rfl, by decide, by decide, by decide, by decide, rfl, rfl, by decide, by decide, by decide, fun _ _ h => (by cases h),
    fun id s h => by
      cases h
      decide⟩

/-- **C39** is false: the scale 2 of the transposed argument is lost, 15 is stored where 30 was asked for. -/
theorem C39_false : ¬ C39Claim Int := by
  intro h
  have hA : Means (α := Int) (fun _ => .shape [1, 1]) (fun id => if id = 0 then [5] else [0]) 1 1
      (.transposed 0 ⟨[1, 1], [1, 1], [1, 0], 2⟩) 2 fun _ _ => 5 :=
    .transposed (f := fun _ _ => 5) rfl (holds_iff.2 ⟨rfl, fun i j hi hj => by
      obtain rfl : i = 0 := by omega
      obtain rfl : j = 0 := by omega
      rfl⟩)
  have hB : Means (α := Int) (fun _ => .shape [1, 1]) (fun id => if id = 0 then [5] else [0]) 1 1 (.plain 1 [1, 1]) 1 fun _ _ => 0 :=
    .plain rfl (holds_iff.2 ⟨rfl, fun i j hi hj => by
      obtain rfl : i = 0 := by omega
      obtain rfl : j = 0 := by omega
      rfl⟩)
  obtain ⟨⟨o, ho⟩, h1⟩ := C39_exact _ _ 3 [0] _ _ 3 1 2 1 2 1 1 (fun id => if id = 0 then [5] else [0]) _ _ ready_witness rfl hA hB
  obtain ⟨res, rfl, h2, -⟩ := h1 o ho
  obtain ⟨res', e, h3⟩ := h _ _ 3 [0] _ _ 3 1 2 1 2 1 1 _ _ _ ready_witness rfl hA hB _ ho
  cases e
  have e1 := (holds_iff.1 h2).2 0 0 (by decide) (by decide)
  have e2 := (holds_iff.1 h3).2 0 0 (by decide) (by decide)
  rw [e1] at e2
  revert e2
  decide

/-- Shapes that do not match are rejected with assertions on. -/
theorem C39_reject [Semiring α] (cfg : GCfg) (shapes : Nat → AnyShape) (tmp : Nat) (junk : List α) (a b : Side α) (alpha beta : α)
    (c : Nat) (m : Mem α) (hasserts : cfg.expr.asserts = true) (h : a.shape ≠ b.shape ∨ a.shape ≠ ext (shapes c)) (o : Out (Mem α)) :
    Geam cfg shapes tmp junk a alpha b beta c m o ↔ o = .throw .assertion := by
  have hv : ¬ valid a b c (ext (shapes c)) := by
    rintro ⟨h1, -, h2, -⟩
    rcases h with h | h
    · exact h h1
    · exact h h2
  constructor
  · intro h
    cases h with
    | invalid _ _ => rfl
    | run h _ => exact absurd (h hasserts) hv
  · rintro rfl
    exact .invalid hasserts hv

end Verif.GeamM
