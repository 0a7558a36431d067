import Verif.Lemmas.Alias
import Verif.Props.Transpose

/-!
# Assignments whose source mentions the destination (C121)

"Element with coordinates `c`" is the entry of `Spec/Shape.lean`: position `q` holds coordinates `c` when `(coords e)[q]? = some c`.
The values of expressions are those of `Spec/Expr.lean`, matrices those of `Spec/Matmul.lean`.
-/

namespace Verif.AliasM

open ShapeM Conc Grid ViewM

variable {α : Type}

/-- Array `d` of `s'` is the sub-array of array `id` of `s` at the subscripts `c`, and no other array has changed. -/
def IsPart (s s' : St α) (d id : Nat) (c : List Nat) : Prop :=
  s'.ext d = (s.ext id).drop c.length ∧ (s'.mem d).length = count ((s.ext id).drop c.length) ∧
    (∀ (k q : Nat) c', (coords ((s.ext id).drop c.length))[k]? = some c' → (coords (s.ext id))[q]? = some (c ++ c') →
      (s'.mem d)[k]? = (s.mem id)[q]?) ∧
    ∀ j, j ≠ d → s'.ext j = s.ext j ∧ s'.mem j = s.mem j

/-- The full property for views: assigning `a[i][j]...` to an array makes it that part of `a`, also when the array is `a`. -/
def C121Claim : Prop :=
  ∀ (α : Type) (asserts : Bool) (junk : List α) (d id : Nat) (s : St α) (i : Nat) (is : List Nat),
    0 < count (s.ext id) → count (s.ext id) < 2 ^ 32 → (s.mem id).length = count (s.ext id) →
    i :: is ∈ coords ((s.ext id).take (i :: is).length) → junk.length = count ((s.ext id).drop (i :: is).length) →
      ∃ s', assignChain asserts junk d id i (ints is) s = .ok s' ∧ IsPart s s' d id (i :: is)

/-- **C121**, a part of another array: `b = a[i][j]...` makes `b` that part of `a` and changes no other array. -/
theorem C121_part_partial (asserts : Bool) (junk : List α) (d id : Nat) (s : St α) (i : Nat) (is : List Nat)
    (hp : 0 < count (s.ext id)) (hc : count (s.ext id) < 2 ^ 32) (hlen : (s.mem id).length = count (s.ext id))
    (hin : i :: is ∈ coords ((s.ext id).take (i :: is).length)) (hj : junk.length = count ((s.ext id).drop (i :: is).length))
    (hne : d ≠ id) : ∃ s', assignChain asserts junk d id i (ints is) s = .ok s' ∧ IsPart s s' d id (i :: is) := by
  obtain ⟨v, e1, p1, hfit, -, -⟩ := chain_view (asserts := asserts) hc hp hin
  have hpos := p1.pos
  have hsz := size_view p1
  obtain ⟨m, r1, r2, r3⟩ := resize_ok (asserts := asserts) (d := d) (m := s.mem) hpos hj
  have hcp := other_copy p1 (m := m) (d := d) (id := id) (fun h => hne h.symm) r2 (by rw [r3 id (Ne.symm hne), hlen]; exact hfit)
  refine ⟨⟨(setExt s d (ext v.shape)).ext, setData m d (((m id).drop (ravel ((s.ext id).take (i :: is).length) (i :: is) *
      count ((s.ext id).drop (i :: is).length))).take (count ((s.ext id).drop (i :: is).length)))⟩, ?_, ?_, ?_, ?_, ?_⟩
  · unfold assignChain
    rw [e1]
    simp only
    unfold assignView
    rw [hsz, r1]
    simp only [Out.bind, hcp, finish]
  · simp [setExt, p1.ext_eq]
  · simp only [setData_same, List.length_take, List.length_drop]
    rw [r3 id (Ne.symm hne), hlen]
    omega
  · intro k q c' hk hq
    obtain ⟨_, _, h3, h4⟩ := pos_split rfl hk hq
    simp only [setData_same]
    rw [List.getElem?_take_of_lt h4, List.getElem?_drop, r3 id (Ne.symm hne), h3]
  · intro j hjd
    refine ⟨by simp [setExt, hjd], ?_⟩
    simp only [setData_other _ _ hjd, r3 j hjd]

/-- **C121** is false of the code, and always so for `a = a[i]...` when the part does not start at the beginning of `a`: the storage is
replaced by a smaller block before the view is read, and the view reads behind its end. -/
theorem C121_self_ub_false (asserts : Bool) (junk : List α) (d : Nat) (s : St α) (i : Nat) (is : List Nat)
    (hc : count (s.ext d) < 2 ^ 32) (hlen : (s.mem d).length = count (s.ext d))
    (hp : 0 < count (s.ext d)) (hin : i :: is ∈ coords ((s.ext d).take (i :: is).length))
    (hj : junk.length = count ((s.ext d).drop (i :: is).length)) (hz : ∃ x ∈ i :: is, x ≠ 0) :
    assignChain asserts junk d d i (ints is) s = .ub := by
  obtain ⟨v, e1, p1, hfit, hcnt, -⟩ := chain_view (asserts := asserts) hc hp hin
  have hpos := p1.pos
  have hsz := size_view p1
  have hin' := mem_coords.1 hin
  have hr : 1 ≤ ravel ((s.ext d).take (i :: is).length) (i :: is) := by
    by_contra h0
    have h0 : ravel ((s.ext d).take (i :: is).length) (i :: is) = 0 := by omega
    have hz' : i :: is = List.replicate ((s.ext d).take (i :: is).length).length 0 := by
      have h1 := coords_ravel hin'
      have h2 := coords_ravel (inside_zero (count_pos_of_inside hin'))
      rw [ravel_replicate] at h2
      rw [h0, h2] at h1
      exact (Option.some.inj h1).symm
    obtain ⟨x, hx, hx0⟩ := hz
    rw [hz'] at hx
    exact hx0 (List.eq_of_mem_replicate hx)
  have hoff : count ((s.ext d).drop (i :: is).length) ≤
      ravel ((s.ext d).take (i :: is).length) (i :: is) * count ((s.ext d).drop (i :: is).length) := Nat.le_mul_of_pos_left _ hr
  have hne : (s.mem d).length ≠ count ((s.ext d).drop (i :: is).length) := by rw [hlen]; omega
  unfold assignChain
  rw [e1]
  simp only
  unfold assignView
  rw [hsz]
  rw [resize_pos hpos, if_neg hne]
  simp only [Out.bind]
  rw [behind_ub p1 (by simp only [setData_same]; omega)]
  rfl

/-- The other parts, `a = a[0][0]...`: if `a` has more elements than the part, its new elements are whatever the new block happens to
contain. -/
theorem C121_self_junk_false (asserts : Bool) (junk : List α) (d : Nat) (s : St α) (n : Nat)
    (hc : count (s.ext d) < 2 ^ 32) (hlen : (s.mem d).length = count (s.ext d))
    (hp : 0 < count (s.ext d)) (hn : n < (s.ext d).length)
    (hj : junk.length = count ((s.ext d).drop (n + 1))) (hlt : count ((s.ext d).drop (n + 1)) < count (s.ext d)) :
    ∃ s', assignChain asserts junk d d 0 (ints (List.replicate n 0)) s = .ok s' ∧ s'.mem d = junk := by
  have hl : (0 :: List.replicate n 0).length = n + 1 := by simp
  have hpt : 0 < count ((s.ext d).take (n + 1)) := by
    have : count (s.ext d) = count ((s.ext d).take (n + 1)) * count ((s.ext d).drop (n + 1)) := by
      rw [← count_append, List.take_append_drop]
    rw [this] at hp
    exact Nat.pos_of_mul_pos_right hp
  have hrep : 0 :: List.replicate n 0 = List.replicate ((s.ext d).take (n + 1)).length 0 := by
    rw [List.length_take, Nat.min_eq_left hn]; rfl
  have hin : 0 :: List.replicate n 0 ∈ coords ((s.ext d).take (0 :: List.replicate n 0).length) := by
    rw [hl, hrep]
    exact mem_coords.2 (inside_zero hpt)
  obtain ⟨v, e1, p1, hfit, hcnt, -⟩ := chain_view (asserts := asserts) hc hp hin
  rw [hl] at p1 hfit hcnt
  have hr : ravel ((s.ext d).take (n + 1)) (0 :: List.replicate n 0) = 0 := by rw [hrep]; exact ravel_replicate _ _
  rw [hr, Nat.zero_mul] at p1
  have hpos := p1.pos
  have hsz := size_view p1
  have hsc := self_copy p1 (m := setData s.mem d junk) (d := d) (by simpa using hj)
  refine ⟨⟨(setExt s d (ext v.shape)).ext, setData s.mem d junk⟩, ?_, setData_same _ _ _⟩
  unfold assignChain
  simp only [Nat.cast_zero] at e1
  rw [e1]
  simp only
  unfold assignView
  rw [hsz]
  rw [resize_pos hpos, if_neg (by rw [hlen]; omega)]
  simp only [Out.bind, hsc]
  rfl

/-- **C121** is false of the code: `a = a[1]` for an array of two rows. -/
theorem C121_false : ¬ C121Claim := by
  intro h
  obtain ⟨s', h1, _⟩ := h Nat true [0, 0] 0 0 ⟨fun _ => [2, 2], fun _ => [1, 2, 3, 4]⟩ 1 [] (by decide) (by decide) rfl (by decide) rfl
  rw [C121_self_ub_false true [0, 0] 0 ⟨fun _ => [2, 2], fun _ => [1, 2, 3, 4]⟩ 1 [] (by decide) rfl (by decide) (by decide) rfl
    ⟨1, by simp, by decide⟩] at h1
  cases h1

/-- A concrete case of the junk: `a = a[0]` for an array of two rows. -/
example : ∃ s', assignChain true [98, 99] 0 0 0 [] (⟨fun _ => [2, 2], fun _ => [1, 2, 3, 4]⟩ : St Nat) = .ok s' ∧ s'.mem 0 = [98, 99] :=
  C121_self_junk_false true [98, 99] 0 ⟨fun _ => [2, 2], fun _ => [1, 2, 3, 4]⟩ 0 (by decide) rfl (by decide) (by decide) rfl (by decide)

/-- **C121**, a part that is all of the array (`a = a[0]` of an array of one row): the elements are kept and the shape is that of the
part. -/
theorem C121_self_all_partial (asserts : Bool) (junk : List α) (d : Nat) (s : St α) (i : Nat) (is : List Nat)
    (hc : count (s.ext d) < 2 ^ 32) (hlen : (s.mem d).length = count (s.ext d))
    (hp : 0 < count (s.ext d)) (hin : i :: is ∈ coords ((s.ext d).take (i :: is).length))
    (hall : count ((s.ext d).drop (i :: is).length) = count (s.ext d)) :
    ∃ s', assignChain asserts junk d d i (ints is) s = .ok s' ∧ IsPart s s' d d (i :: is) := by
  obtain ⟨v, e1, p1, hfit, hcnt, -⟩ := chain_view (asserts := asserts) hc hp hin
  have hpos := p1.pos
  have hsz := size_view p1
  have hoff : ravel ((s.ext d).take (i :: is).length) (i :: is) * count ((s.ext d).drop (i :: is).length) = 0 := by omega
  have p2 := p1
  rw [hoff] at p2
  have hsc := self_copy p2 (m := s.mem) (d := d) (by rw [hlen, hall])
  refine ⟨⟨(setExt s d (ext v.shape)).ext, s.mem⟩, ?_, ?_, ?_, ?_, ?_⟩
  · unfold assignChain
    rw [e1]
    simp only
    unfold assignView
    rw [hsz]
    rw [resize_pos hpos, if_pos (by rw [hlen, hall])]
    simp only [Out.bind, hsc]
    rfl
  · simp [setExt, p1.ext_eq]
  · exact hlen.trans hall.symm
  · intro k q c' hk hq
    obtain ⟨_, _, h3, _⟩ := pos_split rfl hk hq
    rw [h3, hoff, Nat.zero_add]
  · intro j hj
    exact ⟨by simp [setExt, hj], rfl⟩

example : ∃ s', assignChain true [] 0 0 0 [] (⟨fun _ => [1, 3], fun _ => [1, 2, 3]⟩ : St Nat) = .ok s' ∧
    IsPart ⟨fun _ => [1, 3], fun _ => [1, 2, 3]⟩ s' 0 0 [0] :=
  C121_self_all_partial true [] 0 ⟨fun _ => [1, 3], fun _ => [1, 2, 3]⟩ 0 [] (by decide) rfl (by decide) (by decide) (by decide)

/-! ### Assigning expressions to views -/

/-- The operands of an expression assigned to a view of array `d` formed with `depth` subscripts: other arrays of `n` elements, readable
views of other arrays, and parts of `d` itself formed with as many subscripts. -/
def Parts (asserts : Bool) (e : List Nat) (m : Mem α) (d depth n : Nat) : ExprM.Expr α → Prop
  | .arr id => id ≠ d ∧ (m id).length = n
  | .view id w => (id ≠ d ∧ ∀ k, k < n → ∃ x, scalar w (m id) k = .ok x) ∨
      (id = d ∧ ∃ (j : Nat) (js : List Nat), (j :: js).length = depth ∧ j :: js ∈ coords (e.take depth) ∧
        chain asserts (.shape e) j (ints js) = .ok w)
  | .scalar _ => True
  | .un _ x => Parts asserts e m d depth n x
  | .bin _ l r => Parts asserts e m d depth n l ∧ Parts asserts e m d depth n r

theorem scalarP_view {id : Nat} {w : View} {k : Nat} {m : Mem α} {x : α} (h : scalar w (m id) k = .ok x) :
    run (ExprM.scalarP k (.view id w)) m = .ok (x, m) := by
  unfold scalar at h
  obtain ⟨p, h1, h2⟩ := Out.bind_eq_ok.1 h
  unfold ExprM.scalarP
  rw [h1]
  unfold readAt at h2
  simp only
  split at h2
  · rename_i hp
    rw [if_pos hp]
    simp only [run, Mem.get?]
    split at h2
    · rename_i a ha
      injection h2 with h2
      subst h2
      rw [ha]
    · cases h2
  · cases h2

theorem parts_run {asserts : Bool} {e : List Nat} {m : Mem α} {d : Nat} (hc : count e < 2 ^ 32) (hp : 0 < count e)
    (hlen : (m d).length = count e) {i : Nat} {is : List Nat} (hin : i :: is ∈ coords (e.take (i :: is).length)) (x : ExprM.Expr α)
    (hx : Parts asserts e m d (i :: is).length (count (e.drop (i :: is).length)) x) {k : Nat}
    (hk : k < count (e.drop (i :: is).length)) {data : List α}
    (hag : AgreeOutside (m d) data (ravel (e.take (i :: is).length) (i :: is) * count (e.drop (i :: is).length))
      (ravel (e.take (i :: is).length) (i :: is) * count (e.drop (i :: is).length) + k)) :
    ∃ y, ExprM.valueAt m k x = some y ∧ run (ExprM.scalarP k x) (setData m d data) = .ok (y, setData m d data) := by
  induction x with
  | arr id =>
    obtain ⟨h1, h2⟩ := hx
    have hlt : k < (m id).length := by omega
    refine ⟨(m id)[k], by simp [ExprM.valueAt, List.getElem?_eq_getElem hlt], ?_⟩
    simp only [ExprM.scalarP, run, Mem.get?, setData_other _ _ h1, List.getElem?_eq_getElem hlt]
  | view id w =>
    rcases hx with ⟨h1, h2⟩ | ⟨rfl, j, js, hjl, hjn, hch⟩
    · obtain ⟨y, hy⟩ := h2 k hk
      refine ⟨y, by simp [ExprM.valueAt, hy], ?_⟩
      exact scalarP_view (by rw [setData_other _ _ h1]; exact hy)
    · rw [← hjl] at hjn
      obtain ⟨w', c1, p1, hfit, -, -⟩ := chain_view (asserts := asserts) hc hp hjn
      rw [hch] at c1
      injection c1 with c1
      subst c1
      rw [hjl] at p1 hfit hjn
      generalize hN : count (e.drop (i :: is).length) = N at *
      generalize hri : ravel (e.take (i :: is).length) (i :: is) = ri at *
      generalize hrj : ravel (e.take (i :: is).length) (j :: js) = rj at *
      have hlt : rj * N + k < (m id).length := by omega
      have hs := scalar_ok p1 (data := m id) (k := k) (by rw [hN]; exact hk) hlt
      have h3 := hag.2 (rj * N + k) (by
        rintro ⟨h4, h5⟩
        rcases Nat.lt_trichotomy ri rj with h6 | h6 | h6
        · have : (ri + 1) * N ≤ rj * N := Nat.mul_le_mul_right _ h6
          rw [Nat.add_mul, Nat.one_mul] at this
          omega
        · subst h6; omega
        · have : (rj + 1) * N ≤ ri * N := Nat.mul_le_mul_right _ h6
          rw [Nat.add_mul, Nat.one_mul] at this
          omega)
      have hlt' : rj * N + k < data.length := by rw [hag.1]; exact hlt
      have hs' := scalar_ok p1 (data := data) (k := k) (by rw [hN]; exact hk) hlt'
      rw [List.getElem?_eq_getElem hlt, List.getElem?_eq_getElem hlt'] at h3
      refine ⟨(m id)[rj * N + k], by simp [ExprM.valueAt, hs], ?_⟩
      exact scalarP_view (by rw [setData_same, hs', Option.some.inj h3])
  | scalar c => exact ⟨c, rfl, rfl⟩
  | un f x ih =>
    obtain ⟨y, h1, h2⟩ := ih hx
    exact ⟨f y, by simp [ExprM.valueAt, h1], by rw [ExprM.scalarP, run_bind, h2]; rfl⟩
  | bin f l r ihl ihr =>
    obtain ⟨y, h1, h2⟩ := ihl hx.1
    obtain ⟨z, h3, h4⟩ := ihr hx.2
    exact ⟨f y z, by simp [ExprM.valueAt, h1, h3], by
      rw [ExprM.scalarP, run_bind, h2]
      simp only [Out.ok_bind]
      rw [run_bind, h4]; rfl⟩

/-- Positions within the part at `c` have coordinates that begin with `c`. -/
theorem prefix_of_part {e c : List Nat} (hin : Inside (e.take c.length) c) (hn : c.length ≤ e.length) {q : Nat} {full : List Nat}
    (hq : (coords e)[q]? = some full) (h3 : ravel (e.take c.length) c * count (e.drop c.length) ≤ q)
    (h4 : q < ravel (e.take c.length) c * count (e.drop c.length) + count (e.drop c.length)) : c <+: full := by
  generalize hoff : ravel (e.take c.length) c * count (e.drop c.length) = off at *
  obtain ⟨c', hc'⟩ : ∃ c', (coords (e.drop c.length))[q - off]? = some c' :=
    ⟨_, List.getElem?_eq_getElem (by rw [length_coords]; omega)⟩
  obtain ⟨g1, g2⟩ := coords_eq_iff.1 hc'
  have happ : Inside e (c ++ c') := by
    rw [← List.take_append_drop c.length e]
    exact List.rel_append hin g1
  have h5 : (coords e)[q]? = some (c ++ c') := by
    rw [coords_eq_iff]
    refine ⟨happ, ?_⟩
    conv => rhs; rw [← List.take_append_drop c.length e]
    rw [ravel_append (by rw [List.length_take]; omega), hoff, ← g2]
    omega
  rw [hq] at h5
  exact ⟨c', (Option.some.inj h5).symm⟩

/-- **C121**, views: `a[i]... = expression`, where the expression may contain other parts of `a` (and `a[i]...` itself) at any place,
stores the values that the expression had before the assignment, and changes nothing else. -/
theorem C121_view_partial (asserts : Bool) (d : Nat) (e : List Nat) (m : Mem α) (hp : 0 < count e) (hc : count e < 2 ^ 32)
    (hlen : (m d).length = count e) (i : Nat) (is : List Nat) (hin : i :: is ∈ coords (e.take (i :: is).length)) (x : ExprM.Expr α)
    (hx : Parts asserts e m d (i :: is).length (count (e.drop (i :: is).length)) x) :
    ∃ v data, chain asserts (.shape e) i (ints is) = .ok v ∧ assignExpr asserts d v (.shape (e.drop (i :: is).length)) x m = .ok data ∧
      data.length = (m d).length ∧
      (∀ (k q : Nat) c', (coords (e.drop (i :: is).length))[k]? = some c' → (coords e)[q]? = some ((i :: is) ++ c') →
        ∃ y, ExprM.valueAt m k x = some y ∧ data[q]? = some y) ∧
      ∀ (q : Nat) full, (coords e)[q]? = some full → ¬ (i :: is) <+: full → data[q]? = (m d)[q]? := by
  obtain ⟨v, e1, p1, hfit, hcnt, hn⟩ := chain_view (asserts := asserts) hc hp hin
  have hp1 := p1.pos
  have hin' := mem_coords.1 hin
  generalize hoff : ravel (e.take (i :: is).length) (i :: is) * count (e.drop (i :: is).length) = off at *
  have hval : ∀ k, k < count (e.drop (i :: is).length) → ∃ y, ExprM.valueAt m k x = some y := by
    intro k hk
    obtain ⟨y, h1, _⟩ := parts_run hc hp hlen hin x hx hk (data := m d) ⟨rfl, fun _ _ => rfl⟩
    exact ⟨y, h1⟩
  obtain ⟨y0, _⟩ := hval 0 hp1
  obtain ⟨data, e2, l2, h2⟩ := assign_ok (asserts := asserts) p1 (srcShape := .shape (e.drop (i :: is).length)) rfl
    (src := exprSrc m d x) (data := m d) (fun k => (ExprM.valueAt m k x).getD y0) (by omega) (by
      intro k hk data' hag
      rw [← hoff] at hag
      obtain ⟨y, h3, h4⟩ := parts_run hc hp hlen hin x hx hk hag
      unfold exprSrc
      rw [h4, h3]; rfl)
  refine ⟨v, data, e1, e2, l2, ?_, ?_⟩
  · intro k q c' hk hq
    obtain ⟨_, _, h3, h4⟩ := pos_split rfl hk hq
    obtain ⟨y, hy⟩ := hval k h4
    rw [hoff] at h3
    subst h3
    refine ⟨y, hy, ?_⟩
    rw [h2, if_pos ⟨by omega, by omega⟩, Nat.add_sub_cancel_left, hy]; rfl
  · intro q full hq hnp
    rw [h2, if_neg]
    rintro ⟨h3, h4⟩
    rw [← hoff] at h3 h4
    exact hnp (prefix_of_part hin' hn hq h3 h4)

/-- A concrete case of the hypotheses: `a[1] = a[0] + 10 * a[1]` for an array of two rows of three. -/
example : Parts (α := Nat) true [2, 3] (fun _ => [1, 2, 3, 4, 5, 6]) 0 1 3
    (.bin (· + ·) (.view 0 ⟨.shape [3], [1], 0⟩) (.bin (· * ·) (.scalar 10) (.view 0 ⟨.shape [3], [1], 3⟩))) :=
  ⟨Or.inr ⟨rfl, 0, [], rfl, by decide, by decide⟩, trivial, Or.inr ⟨rfl, 1, [], rfl, by decide, by decide⟩⟩

theorem square_shape [MulOneClass α] {asserts : Bool} {n : Nat} :
    TransM.transposeFn asserts [n, n] [0, 0] (1 : α) = .ok ⟨[n, n], [n, n], [1, 0], 1⟩ := by cases asserts <;> rfl

theorem pos_lt_square {n r c : Nat} (hr : r < n) (hc : c < n) : r * n + c < n * n := by
  have : (r + 1) * n ≤ n * n := Nat.mul_le_mul_right _ hr
  rw [Nat.add_mul, Nat.one_mul] at this
  omega

theorem part_pos {e l : List Nat} {n q r c : Nat} (he : e.drop l.length = [n, n]) (hq : (coords e)[q]? = some (l ++ [r, c])) :
    r < n ∧ c < n ∧ q = ravel (e.take l.length) l * (n * n) + (r * n + c) := by
  obtain ⟨h1, -⟩ := coords_eq_iff.1 hq
  have h2 := List.forall₂_drop l.length h1
  rw [he, List.drop_left] at h2
  have h3 : (coords (e.drop l.length))[ravel [n, n] [r, c]]? = some [r, c] := by
    rw [he]; exact coords_ravel h2
  obtain ⟨-, -, h4, -⟩ := pos_split rfl h3 hq
  rw [he] at h4
  cases h2 with
  | cons hr h2 => cases h2 with
    | cons hc _ => exact ⟨hr, hc, by simpa [ravel, count] using h4⟩

/-- Assigning `transpose` of a view of the same array to a view, with the values `val` that the loop finds. -/
theorem viewTranspose_ok [MulOneClass α] {asserts : Bool} {blockSize n off offw : Nat} {junk junk' data : List α} {v w : View}
    (hv : IsView v [n, n] off) (hw : IsView w [n, n] offw) (hb : 0 < blockSize) (hfit : off + n * n ≤ data.length)
    (hfitw : offw + n * n ≤ data.length) (hj : junk.length = n * n) (hj' : junk'.length = n * n) (val : Nat → α)
    (hval : ∀ r c, r < n → c < n → ∀ data' : List α, data'.length = data.length →
      (∀ q : Nat, data'[q]? = if off ≤ q ∧ q < off + (c * n + r) then some (val (q - off)) else data[q]?) →
        data'[offw + (r * n + c)]? = some (val (c * n + r))) :
    ∃ data', assignViewTranspose (· * ·) 1 asserts blockSize junk junk' v w data = .ok data' ∧ data'.length = data.length ∧
      ∀ q, data'[q]? = if off ≤ q ∧ q < off + n * n then some (val (q - off)) else data[q]? := by
  have hcount : count [n, n] = n * n := by simp [count]
  obtain ⟨data', h1, h2, h3⟩ := assign_ok_val (asserts := asserts) hv (srcShape := .shape [n, n]) rfl (data := data)
    (src := transposeScalar (· * ·) 1 asserts blockSize junk junk' w) val (by rw [hcount]; exact hfit) (by
      intro k hk data' hl hd
      rw [hcount] at hk
      have hn : 0 < n := Nat.pos_of_ne_zero (by rintro rfl; simp at hk)
      have hdiv : k / n < n := Nat.div_lt_of_lt_mul hk
      have hmod : k % n < n := Nat.mod_lt _ hn
      have hk' : k / n * n + k % n = k := Nat.div_add_mod' k n
      have := transposeScalar_ok (asserts := asserts) (junk := junk) (junk' := junk') hw hb (by rw [hl]; exact hfitw) hj hj' hmod hdiv
        (hval _ _ hmod hdiv data' hl (by rw [hk']; exact hd))
      rwa [hk'] at this)
  rw [hcount] at h3
  refine ⟨data', ?_, h2, h3⟩
  unfold assignViewTranspose
  rw [hw.ext_eq, square_shape]
  exact h1

/-- **C121**, transposes of parts: `a[i]... = transpose(a[j]...)` for two different parts of `a` stores the transpose and changes nothing
else. -/
theorem C121_view_transpose_partial [MulOneClass α] (asserts : Bool) (blockSize : Nat) (junk junk' data : List α) (e : List Nat)
    (hb : 0 < blockSize) (hp : 0 < count e) (hc : count e < 2 ^ 32) (hlen : data.length = count e) (i j : Nat) (is js : List Nat) (n : Nat)
    (hi : i :: is ∈ coords (e.take (i :: is).length)) (hj : j :: js ∈ coords (e.take (i :: is).length))
    (he : e.drop (i :: is).length = [n, n]) (hne : i :: is ≠ j :: js) (hju : junk.length = n * n) (hju' : junk'.length = n * n) :
    ∃ v w data', chain asserts (.shape e) i (ints is) = .ok v ∧ chain asserts (.shape e) j (ints js) = .ok w ∧
      assignViewTranspose (· * ·) 1 asserts blockSize junk junk' v w data = .ok data' ∧ data'.length = data.length ∧
      (∀ (q p r c : Nat), (coords e)[q]? = some ((i :: is) ++ [r, c]) → (coords e)[p]? = some ((j :: js) ++ [c, r]) →
        data'[q]? = data[p]?) ∧
      ∀ (q : Nat) full, (coords e)[q]? = some full → ¬ (i :: is) <+: full → data'[q]? = data[q]? := by
  have hl : (j :: js).length = (i :: is).length := by
    have h1 := (mem_coords.1 hi).length_eq
    have h2 := (mem_coords.1 hj).length_eq
    omega
  obtain ⟨v, v1, v2, v3, -, vn⟩ := chain_view (asserts := asserts) hc hp hi
  obtain ⟨w, w1, w2, w3, -, -⟩ := chain_view (asserts := asserts) hc hp (i := j) (is := js) (by rw [hl]; exact hj)
  rw [hl] at w2 w3
  rw [he] at v2 v3 w2 w3
  have hcount : count [n, n] = n * n := by simp [count]
  rw [hcount] at v2 v3 w2 w3
  have hrne : ravel (e.take (i :: is).length) (i :: is) ≠ ravel (e.take (i :: is).length) (j :: js) := by
    intro h
    have h1 := coords_ravel (mem_coords.1 hi)
    rw [h, coords_ravel (mem_coords.1 hj)] at h1
    exact hne (Option.some.inj h1).symm
  generalize hri : ravel (e.take (i :: is).length) (i :: is) = ri at *
  generalize hrj : ravel (e.take (i :: is).length) (j :: js) = rj at *
  have hn : 0 < n * n := by rw [← hcount]; exact v2.pos
  obtain ⟨x0, hx0⟩ : ∃ x0, data[0]? = some x0 := ⟨_, List.getElem?_eq_getElem (by omega)⟩
  have hn0 : 0 < n := Nat.pos_of_mul_pos_right hn
  obtain ⟨data', h1, h2, h3⟩ := viewTranspose_ok (asserts := asserts) (junk := junk) (junk' := junk') v2 w2 hb (data := data)
    (by omega) (by omega) hju hju' (fun k => (data[rj * (n * n) + (k % n * n + k / n)]?).getD x0) (by
      intro r c hr hcn d hdl hd
      have hpos := pos_lt_square hr hcn
      have hpos' := pos_lt_square hcn hr
      rw [hd, if_neg]
      · have e1 : (c * n + r) % n = r := by rw [Nat.mul_comm, Nat.mul_add_mod, Nat.mod_eq_of_lt hr]
        have e2 : (c * n + r) / n = c := by rw [Nat.mul_comm, Nat.mul_add_div hn0, Nat.div_eq_of_lt hr, Nat.add_zero]
        simp only [e1, e2]
        rw [List.getElem?_eq_getElem (by omega)]
        rfl
      · rintro ⟨h4, h5⟩
        rcases Nat.lt_or_gt_of_ne hrne with h6 | h6
        · have : (ri + 1) * (n * n) ≤ rj * (n * n) := Nat.mul_le_mul_right _ h6
          rw [Nat.add_mul, Nat.one_mul] at this
          omega
        · have : (rj + 1) * (n * n) ≤ ri * (n * n) := Nat.mul_le_mul_right _ h6
          rw [Nat.add_mul, Nat.one_mul] at this
          omega)
  refine ⟨v, w, data', v1, w1, h1, h2, ?_, ?_⟩
  · intro q p r c hq hpq
    obtain ⟨hr, hcn, rfl⟩ := part_pos he hq
    obtain ⟨-, -, rfl⟩ := part_pos (by rw [hl]; exact he) hpq
    have hpos := pos_lt_square hr hcn
    have hpos' := pos_lt_square hcn hr
    have e1 : (r * n + c) % n = c := by rw [Nat.mul_comm, Nat.mul_add_mod, Nat.mod_eq_of_lt hcn]
    have e2 : (r * n + c) / n = r := by rw [Nat.mul_comm, Nat.mul_add_div hn0, Nat.div_eq_of_lt hcn, Nat.add_zero]
    rw [hl, hri, hrj, h3, if_pos ⟨by omega, by omega⟩, Nat.add_sub_cancel_left, e1, e2, List.getElem?_eq_getElem (by omega)]
    rfl
  · intro q full hq hnp
    rw [h3, if_neg]
    rintro ⟨h4, h5⟩
    exact hnp (prefix_of_part (mem_coords.1 hi) vn hq (by rw [he, hcount, hri]; exact h4) (by rw [he, hcount, hri]; exact h5))

/-- **C121** is false for the transpose of a part assigned to itself: `a[i]... = transpose(a[i]...)` mirrors what is below the diagonal
(element (r, c) becomes the old element with the larger coordinate first), with assertions or not; it is the transpose only if the part
was symmetric. Nothing else changes. -/
theorem C121_view_transpose_false [MulOneClass α] (asserts : Bool) (blockSize : Nat) (junk junk' data : List α) (e : List Nat)
    (hb : 0 < blockSize) (hp : 0 < count e) (hc : count e < 2 ^ 32) (hlen : data.length = count e) (i : Nat) (is : List Nat) (n : Nat)
    (hi : i :: is ∈ coords (e.take (i :: is).length))
    (he : e.drop (i :: is).length = [n, n]) (hju : junk.length = n * n) (hju' : junk'.length = n * n) :
    ∃ v data', chain asserts (.shape e) i (ints is) = .ok v ∧
      assignViewTranspose (· * ·) 1 asserts blockSize junk junk' v v data = .ok data' ∧
      (∀ (q p r c : Nat), (coords e)[q]? = some ((i :: is) ++ [r, c]) → (coords e)[p]? = some ((i :: is) ++ [max r c, min r c]) →
        data'[q]? = data[p]?) ∧
      ∀ (q : Nat) full, (coords e)[q]? = some full → ¬ (i :: is) <+: full → data'[q]? = data[q]? := by
  obtain ⟨v, v1, v2, v3, -, vn⟩ := chain_view (asserts := asserts) hc hp hi
  rw [he] at v2 v3
  have hcount : count [n, n] = n * n := by simp [count]
  rw [hcount] at v2 v3
  generalize hri : ravel (e.take (i :: is).length) (i :: is) = ri at *
  have hn : 0 < n * n := by rw [← hcount]; exact v2.pos
  obtain ⟨x0, hx0⟩ : ∃ x0, data[0]? = some x0 := ⟨_, List.getElem?_eq_getElem (by omega)⟩
  have hn0 : 0 < n := Nat.pos_of_mul_pos_right hn
  have e1 : ∀ r c, c < n → (r * n + c) % n = c := fun r c hcn => by rw [Nat.mul_comm, Nat.mul_add_mod, Nat.mod_eq_of_lt hcn]
  have e2 : ∀ r c, c < n → (r * n + c) / n = r := fun r c hcn => by
    rw [Nat.mul_comm, Nat.mul_add_div hn0, Nat.div_eq_of_lt hcn, Nat.add_zero]
  obtain ⟨data', h1, h2, h3⟩ := viewTranspose_ok (asserts := asserts) (junk := junk) (junk' := junk') v2 v2 hb (data := data)
    (by omega) (by omega) hju hju' (fun k => (data[ri * (n * n) + (max (k / n) (k % n) * n + min (k / n) (k % n))]?).getD x0) (by
      intro r c hr hcn d hdl hd
      have hpos := pos_lt_square hr hcn
      have hpos' := pos_lt_square hcn hr
      simp only [e1 c r hr, e2 c r hr]
      rw [hd]
      by_cases hrc : r < c
      · have h5 : (r + 1) * n ≤ c * n := Nat.mul_le_mul_right _ hrc
        rw [Nat.add_mul, Nat.one_mul] at h5
        rw [if_pos ⟨by omega, by omega⟩, Nat.add_sub_cancel_left, e1 r c hcn, e2 r c hcn, max_comm, min_comm]
      · rw [if_neg, max_eq_right (by omega), min_eq_left (by omega), List.getElem?_eq_getElem (by omega)]
        · rfl
        · rintro ⟨-, h4⟩
          rcases Nat.lt_or_ge c r with h6 | h6
          · have h5 : (c + 1) * n ≤ r * n := Nat.mul_le_mul_right _ h6
            rw [Nat.add_mul, Nat.one_mul] at h5
            omega
          · have : r = c := by omega
            subst this
            omega)
  refine ⟨v, data', v1, h1, ?_, ?_⟩
  · intro q p r c hq hpq
    obtain ⟨hr, hcn, rfl⟩ := part_pos he hq
    obtain ⟨hr', hc', rfl⟩ := part_pos he hpq
    have hpos := pos_lt_square hr hcn
    have hpos' := pos_lt_square hr' hc'
    rw [hri, h3, if_pos ⟨by omega, by omega⟩, Nat.add_sub_cancel_left, e1 r c hcn, e2 r c hcn, List.getElem?_eq_getElem (by omega)]
    rfl
  · intro q full hq hnp
    rw [h3, if_neg]
    rintro ⟨h4, h5⟩
    exact hnp (prefix_of_part (mem_coords.1 hi) vn hq (by rw [he, hcount, hri]; exact h4) (by rw [he, hcount, hri]; exact h5))

/-- A concrete case: `a[0] = transpose(a[0])` for one 2 by 2 matrix with rows (1, 2) and (3, 4) gives (1, 3), (3, 4). -/
example : ∃ v data', chain true (.shape [1, 2, 2]) 0 [] = .ok v ∧
    assignViewTranspose (α := Nat) (· * ·) 1 true 8 [0, 0, 0, 0] [0, 0, 0, 0] v v [1, 2, 3, 4] = .ok data' ∧
    data'[1]? = some 3 ∧ data'[2]? = some 3 := by
  obtain ⟨v, data', h1, h2, h3, -⟩ := C121_view_transpose_false (α := Nat) true 8 [0, 0, 0, 0] [0, 0, 0, 0] [1, 2, 3, 4] [1, 2, 2]
    (by decide) (by decide) (by decide) rfl 0 [] 2 (by decide) rfl rfl rfl
  exact ⟨v, data', h1, h2, by rw [h3 1 2 0 1 (by decide) (by decide)]; rfl, by rw [h3 2 2 1 0 (by decide) (by decide)]; rfl⟩

/-! ### Products and transposes -/

theorem prod_two (a b : Nat) : TransM.prod [a, b] = a * b := by simp [TransM.prod]

/-- **C121**, products: `c = dot(x, y)` where `x` and `y` may be or contain `c` itself (also transposed or scaled) makes `c` the product of
the matrices that `x` and `y` denoted before the assignment: `dot` works on copies. The copies are named `fa` and `fb`. -/
theorem C121_dot_partial [CommSemiring α] [DecidableEq α] (asserts : Bool) (t : MulM.Threads) (junk : List α) (c fa fb : Nat) (s : St α)
    (x y : MulM.Operand α) (M K N : Nat) (f g : Nat → Nat → α) (hx : MulM.Denotes s.mem x M K f) (hy : MulM.Denotes s.mem y K N g)
    (hfa : fa ≠ c) (hfb : fb ≠ c) (hab : fa ≠ fb) (hj : junk.length = M * N) (hne : 0 < M * N) :
    ∃ s', (∀ r, AssignDot asserts t junk c fa fb x y s r ↔ r = .ok s') ∧ s'.ext c = [M, N] ∧
      MulM.Holds (s'.mem c) M N (fun i j => ∑ l ∈ Finset.range K, f i l * g l j) ∧
      ∀ id, id ≠ c → id ≠ fa → id ≠ fb → s'.ext id = s.ext id ∧ s'.mem id = s.mem id := by
  obtain ⟨A, a1, a2, a3, a4⟩ := MulM.fold_operand hx
  obtain ⟨B, b1, b2, b3, b4⟩ := MulM.fold_operand hy
  have hsh : MulM.calculateShape asserts (MulM.dotOp x y).1 = .ok [M, N] := MulM.shape_gemm a1 b1
  generalize hm0 : setData (setData s.mem fa (s.mem (MulM.dotOp x y).2.1)) fb (s.mem (MulM.dotOp x y).2.2) = m0
  have m0a : m0 fa = s.mem x.leaf := by
    rw [← hm0, setData_other _ _ hab, setData_same]
    simp only [MulM.dotOp, a2]
  have m0b : m0 fb = s.mem y.leaf := by
    rw [← hm0, setData_same]
    simp only [MulM.dotOp, b2]
  obtain ⟨m, r1, r2, r3⟩ := resize_ok (asserts := asserts) (junk := junk) (d := c) (n := TransM.prod [M, N]) (m := m0)
    (by rw [prod_two]; exact hne) (by rw [prod_two]; exact hj)
  rw [prod_two] at r2
  obtain ⟨Cm, hCm⟩ := MulM.exists_rows r2
  obtain ⟨-, res, h1, h2, h3⟩ := MulM.C37_value asserts t (MulM.dotOp x y).1 M N K fa fb c m A B Cm hfa hfb a1 b1
    (by rw [r3 fa hfa, m0a]; exact a3) (by rw [r3 fb hfb, m0b]; exact b3) (MulM.holds_iff.2 hCm)
  refine ⟨⟨(setExt s c [M, N]).ext, res⟩, ?_, by simp [setExt], ⟨h3.1, ?_⟩, ?_⟩
  · intro r
    constructor
    · intro h
      cases h with
      | shapeThrows hs => rw [hsh] at hs; cases hs
      | shapeUb hs => rw [hsh] at hs; cases hs
      | resizeThrows hs hr =>
        rw [hsh] at hs
        injection hs with hs
        subst hs
        rw [resize_pos (by rw [prod_two]; exact hne)] at hr
        split at hr <;> cases hr
      | apply hs hr ha he =>
        rw [hsh] at hs
        injection hs with hs
        subst hs
        rw [hm0, r1] at hr
        injection hr with hr
        subst hr
        rw [h1] at ha
        subst ha
        cases he
        rfl
    · rintro rfl
      exact .apply hsh (by rw [hm0]; exact r1) ((h1 _).2 rfl) .ok
  · intro k i j hk
    rw [h3.2 k i j hk]
    congr 1
    simp only [MulM.dotOp, mul_zero, zero_add]
    rw [Finset.mul_sum]
    refine Finset.sum_congr rfl fun l _ => ?_
    rw [a4 i l, b4 l j]
    exact mul_mul_mul_comm _ _ _ _
  · intro id h4 h5 h6
    refine ⟨by simp [setExt, h4], ?_⟩
    simp only [h2 id h4, r3 id h4, ← hm0, setData_other _ _ h6, setData_other _ _ h5]

/-- A concrete case of the hypotheses: `a = dot(a, transpose(a))` for a matrix of two rows and three columns. -/
example : ∃ (s : St Int) (f : Nat → Nat → Int), MulM.Denotes s.mem (.arr 0 [2, 3]) 2 3 f ∧
    MulM.Denotes s.mem (.tr (.arr 0 [2, 3]) 1) 3 2 (fun i j => 1 * f j i) := by
  refine ⟨⟨fun _ => [2, 3], fun _ => [1, 2, 3, 4, 5, 6]⟩, fun i j => (([1, 2, 3, 4, 5, 6] : List Int)[i * 3 + j]?).getD 0, ?_, .tr 1 ?_⟩ <;>
  · refine .arr (MulM.holds_iff.2 ⟨rfl, fun i j hi hj => ?_⟩)
    rcases i with _ | _ | i <;> rcases j with _ | _ | _ | j <;> first | rfl | omega

/-- What a caller expects of a failed assignment, and of `a = transpose(a)`: the array becomes its transpose, or the assignment is
rejected and the array is as it was. -/
def C121TransposeClaim : Prop :=
  ∀ (asserts small : Bool) (threshold blockSize d rows cols : Nat) (junk : List Int) (s : St Int) (t : TransM.TObj Int) (r : Done Int),
    0 < blockSize → s.ext d = [rows, cols] → (s.mem d).length = rows * cols → TransM.transposeFn asserts [rows, cols] [0, 0] 1 = .ok t →
    AssignTranspose (· * ·) asserts small threshold blockSize junk d d t s r →
      (∃ s', r = .ok s' ∧ ∀ (k k' i j : Nat), (coords [rows, cols])[k]? = some [i, j] → (coords [cols, rows])[k']? = some [j, i] →
        (s'.mem d)[k']? = (s.mem d)[k]?) ∨
      ∃ e, r = .throw e s

/-- **C121**, transposes: `a = transpose(a)` with assertions compiled in always throws, but only after `a` has been given the transposed
shape over the elements in their old order. -/
theorem C121_transpose_throws_false [MulOneClass α] (small : Bool) (threshold blockSize d rows cols : Nat) (junk : List α) (s : St α)
    (hlen : (s.mem d).length = rows * cols) (hne : 0 < rows * cols) :
    ∃ t, TransM.transposeFn true [rows, cols] [0, 0] (1 : α) = .ok t ∧
      ∀ r, AssignTranspose (· * ·) true small threshold blockSize junk d d t s r ↔
        r = .throw .assertion ⟨fun id => if id = d then [cols, rows] else s.ext id, s.mem⟩ := by
  refine ⟨⟨[rows, cols], [cols, rows], [1, 0], 1⟩, ?_, ?_⟩
  · simp [TransM.transposeFn, TransM.mkT, TransM.chooseAxes, TransM.prod, TransM.permute, readAt, List.range, List.range.loop]
  · have hres : resize true junk d (TransM.prod [cols, rows]) s.mem = .ok s.mem := by
      rw [prod_two, Nat.mul_comm cols rows, resize_pos hne, if_pos hlen]
    intro r
    constructor
    · intro h
      cases h with
      | resizeThrows h => simp only at h; rw [hres] at h; cases h
      | apply h1 h2 h3 =>
        simp only at h1
        rw [hres] at h1
        injection h1 with h1
        subst h1
        rw [TransM.C33_in_place] at h2
        subst h2
        cases h3
        rfl
    · rintro rfl
      exact .apply hres ((TransM.C33_in_place _ _ _ _ _ _ _ _).2 rfl) .throw

/-- Without assertions the elements are mixed up: the 2 by 2 matrix with rows (1, 2) and (3, 4) becomes (1, 2), (2, 4). -/
theorem C121_transpose_mixes_false :
    AssignTranspose (α := Int) (· * ·) false false 1000 8 [] 0 0 ⟨[2, 2], [2, 2], [1, 0], 1⟩ ⟨fun _ => [2, 2], fun _ => [1, 2, 3, 4]⟩
      (.ok ⟨fun _ => [2, 2], fun id => if id = 0 then [1, 2, 2, 4] else [1, 2, 3, 4]⟩) := by
  have hrun : TransM.Apply (α := Int) (· * ·) false false 1000 8 ⟨[2, 2], [2, 2], [1, 0], 1⟩ 0 0 [2, 2] (fun _ => [1, 2, 3, 4])
      (.ok (fun id => if id = 0 then [1, 2, 2, 4] else [1, 2, 3, 4])) := by
    refine .matrix (rows := 2) (cols := 2) (fun h => by cases h) rfl ?_
    refine .seq (u := ()) (by decide) ?_
    have hi : indices 0 2 (max 8 1) = [0] := by decide +kernel
    have hi' : indices 0 2 8 = [0] := by decide +kernel
    rw [hi]
    simp only [seqAll, TransM.rowOfBlocks, hi']
    have hr : List.range' 0 (min (0 + 8) 2 - 0) = [0, 1] := by decide
    simp only [TransM.block, TransM.blockRange, TransM.cell, hr]
    rw [if_neg (by decide)]
    simp only [seqAll, Prog.bind, run, Mem.get?, Mem.set]
    simp
    funext id
    by_cases h : id = 0
    · subst h; rfl
    · simp [Mem.set, h]
  have hs : setExt (⟨fun _ => [2, 2], fun _ => [1, 2, 3, 4]⟩ : St Int) 0 [2, 2] = ⟨fun _ => [2, 2], fun _ => [1, 2, 3, 4]⟩ := by
    simp [setExt]
  have := AssignTranspose.apply (α := Int) (mul := (· * ·)) (asserts := false) (small := false) (threshold := 1000) (blockSize := 8)
    (junk := []) (d := 0) (id := 0) (t := ⟨[2, 2], [2, 2], [1, 0], 1⟩) (s := ⟨fun _ => [2, 2], fun _ => [1, 2, 3, 4]⟩)
    (m := fun _ => [1, 2, 3, 4]) rfl hrun .ok
  rw [hs] at this
  exact this

/-- **C121** for transposes is false of the code, with and without assertions. -/
theorem C121_transpose_false : ¬ C121TransposeClaim := by
  intro h
  have := h false false 1000 8 0 2 2 [] ⟨fun _ => [2, 2], fun _ => [1, 2, 3, 4]⟩ ⟨[2, 2], [2, 2], [1, 0], 1⟩ _ (by decide) rfl rfl
    rfl C121_transpose_mixes_false
  rcases this with ⟨s', h1, h2⟩ | ⟨e, h1⟩
  · injection h1 with h1
    subst h1
    have := h2 2 1 1 0 (by decide) (by decide)
    revert this
    decide
  · cases h1

end Verif.AliasM
