import Verif.Model.Held
import Verif.Props.Expr
import Verif.Props.Iterate

/-!
# Copies, subscripts and loops of expressions (C122)

The elements of an expression are those of `Spec/Expr.lean` (`valueAt`), by flat position; coordinates are those of `Spec/Shape.lean`.
-/

namespace Verif.HeldM

open ShapeM Conc ExprM ViewM Grid

variable {α : Type}

/-- Every view that the expression holds by value starts at the beginning of its array. -/
def Kept : Held α → Prop
  | .arr _ => True
  | .named _ _ => True
  | .temp _ v => v.offset = 0
  | .scalar _ => True
  | .un _ e => Kept e
  | .bin _ l r => Kept l ∧ Kept r
  | .ref _ => True

/-- The full property: a copy of an expression has the elements of the expression, and so has the variable of a loop over it. -/
def C122Claim : Prop :=
  ∀ (m : Mem Nat) (e : Held Nat) (n : Nat) (d : Nat), d < n → Operands m n n e.tree →
    valueAt m d (copy e).tree = valueAt m d e.tree

theorem copy_kept {e : Held α} (h : Kept e) : copy e = e := by
  induction e with
  | arr id => rfl
  | named id v => rfl
  | temp id v =>
    simp only [copy]
    congr 1
    obtain ⟨s, st, o⟩ := v
    simp only [Kept] at h
    subst h
    rfl
  | scalar c => rfl
  | un f e ih => rw [copy, ih h]
  | bin f l r ihl ihr => rw [copy, ihl h.1, ihr h.2]
  | ref e _ => rfl

/-- **C122**, copies: a copy of an expression whose temporary views all start at the beginning of their arrays, for example one without
temporary views, has the same elements. -/
theorem C122_copy_partial (m : Mem α) (e : Held α) (k : Nat) (h : Kept e) : valueAt m k (copy e).tree = valueAt m k e.tree := by
  rw [copy_kept h]

/-- **C122** is false of the code, for every view: in a copy of `f(a[i]...)` for a temporary view `a[i]...`, element `k` is computed from
element `k` of `a` instead of element `k` of the view. -/
theorem C122_copy_false (asserts : Bool) (m : Mem α) (id : Nat) (e : List Nat) (f : α → α) (hp : 0 < count e) (hc : count e < 2 ^ 32)
    (hlen : (m id).length = count e) (i : Nat) (is : List Nat) (hin : i :: is ∈ coords (e.take (i :: is).length)) :
    ∃ v, chain asserts (.shape e) i (ints is) = .ok v ∧
      ∀ (k q : Nat) c', (coords (e.drop (i :: is).length))[k]? = some c' → (coords e)[q]? = some ((i :: is) ++ c') →
        valueAt m k (Held.un f (.temp id v)).tree = (m id)[q]?.map f ∧
        valueAt m k (copy (Held.un f (.temp id v))).tree = (m id)[k]?.map f := by
  have hin' := mem_coords.1 hin
  have hn : (i :: is).length ≤ e.length := by
    have h1 := hin'.length_eq
    rw [List.length_take] at h1
    omega
  obtain ⟨v, e1, p1⟩ := arrayView_ok (asserts := asserts) (s := .shape e) (by simp) hc hn hin' hp
  refine ⟨v, e1, fun k q c' hk hq => ?_⟩
  obtain ⟨_, _, h3, h4⟩ := pos_split rfl hk hq
  have hq' : q < (m id).length := by
    obtain ⟨h5, _⟩ := List.getElem?_eq_some_iff.1 hq
    rw [length_coords] at h5
    omega
  have hk' : k < (m id).length := by omega
  have s1 : ViewM.scalar v (m id) k = .ok (m id)[q] := by
    unfold ViewM.scalar
    have : ((m id)[q]) = (m id)[ravel (e.take (i :: is).length) (i :: is) * count (e.drop (i :: is).length) + k]'(by omega) := by
      congr 1
    rw [scalarPos_ok p1 h4, Out.ok_bind, this]
    exact readAt_nat _ _ (by simp only [ext] at *; omega)
  have s2 : ViewM.scalar (ViewM.copy v) (m id) k = .ok (m id)[k] := by
    unfold ViewM.scalar
    rw [scalarPos_ok (isView_copy p1) h4, Out.ok_bind, Nat.zero_add]
    exact readAt_nat _ _ hk'
  simp [Held.tree, copy, valueAt, s1, s2, List.getElem?_eq_getElem hq', List.getElem?_eq_getElem hk']

/-- The witness: a copy of `a[1] + b` for `a` with rows (1, 2) and (3, 4) adds row 0. -/
theorem C122_false : ¬ C122Claim := by
  intro h
  have := h (fun id => if id = 0 then [1, 2, 3, 4] else [10, 20]) (.bin (· + ·) (.temp 0 ⟨.shape [2], [1], 2⟩) (.arr 1)) 2 0
    (by decide) ⟨⟨by decide, fun i hi => by
      rcases i with _ | _ | i
      · exact ⟨3, by decide⟩
      · exact ⟨4, by decide⟩
      · omega⟩, rfl⟩
  revert this
  decide

theorem exprChain_view {asserts : Bool} {s : AnyShape} (hv : ∀ n, s ≠ .vector n) (hc : count (ext s) < 2 ^ 32)
    {i : Nat} {is : List Nat} (hin : i :: is ∈ coords ((ext s).take (i :: is).length)) (hp : 0 < count (ext s)) :
    ∃ v, exprChain asserts s i (ints is) = .ok v ∧
      IsView v ((ext s).drop (i :: is).length)
        (ravel ((ext s).take (i :: is).length) (i :: is) * count ((ext s).drop (i :: is).length)) := by
  have hin' := mem_coords.1 hin
  have hl : (i :: is).length ≤ (ext s).length := by
    have h1 := hin'.length_eq
    rw [List.length_take] at h1
    omega
  have hne : ext s ≠ [] := by intro h; rw [h] at hl; simp at hl
  obtain ⟨v0, e0, p0⟩ := isView_ofArray hv hp hc hne
  obtain ⟨v, e1, p1⟩ := chainFrom_ok (asserts := asserts) (i :: is) p0 hl hin'
  refine ⟨v, ?_, by simpa using p1⟩
  unfold exprChain exprIndex
  rw [e0, Out.ok_bind]
  simp only [List.map_cons, chainFrom] at e1
  exact e1

theorem scalar_expr {m : Mem α} {e : Held α} {n d : Nat} (ho : Operands m d n e.tree) {v : View} {x : List Nat} {off k : Nat}
    (h : IsView v x off) (hk : k < count x) (hn : off + k < n) :
    ∃ y, valueAt m (off + k) e.tree = some y ∧ HeldM.scalar v e m k = .ok y := by
  obtain ⟨y, h1, h2⟩ := scalarP_run ho hn
  refine ⟨y, h1, ?_⟩
  unfold HeldM.scalar readExpr
  rw [scalarPos_ok h hk, Out.ok_bind, if_pos (by omega), Int.toNat_natCast, h2]
  rfl

/-- **C122**, subscripts: `f[i][j]...` of an expression is the view of its elements at these subscripts: flat element `k` is the element of
the expression with the coordinates of `k` behind the subscripts. (All shapes but `VectorShape`.) -/
theorem C122_subscript_partial (asserts : Bool) (m : Mem α) (s : AnyShape) (e : Held α) (hv : ∀ n, s ≠ .vector n)
    (hc : count (ext s) < 2 ^ 32) (hp : 0 < count (ext s)) (d : Nat) (ho : Operands m d (count (ext s)) e.tree) (i : Nat) (is : List Nat)
    (hin : i :: is ∈ coords ((ext s).take (i :: is).length)) :
    ∃ v, exprChain asserts s i (ints is) = .ok v ∧ ext v.shape = (ext s).drop (i :: is).length ∧
      ∀ (k q : Nat) c', (coords ((ext s).drop (i :: is).length))[k]? = some c' → (coords (ext s))[q]? = some ((i :: is) ++ c') →
        ∃ y, valueAt m q e.tree = some y ∧ HeldM.scalar v e m k = .ok y := by
  obtain ⟨v, e1, p1⟩ := exprChain_view (asserts := asserts) hv hc hin hp
  refine ⟨v, e1, p1.ext_eq, fun k q c' hk hq => ?_⟩
  obtain ⟨_, _, h3, h4⟩ := pos_split rfl hk hq
  obtain ⟨h5, _⟩ := List.getElem?_eq_some_iff.1 hq
  rw [length_coords] at h5
  rw [h3]
  exact scalar_expr ho p1 h4 (by omega)

/-- **C122**, all subscripts: `f[i][j]...get()` is the element with these coordinates. -/
theorem C122_get_partial (asserts : Bool) (m : Mem α) (s : AnyShape) (e : Held α) (hv : ∀ n, s ≠ .vector n)
    (hc : count (ext s) < 2 ^ 32) (d : Nat) (ho : Operands m d (count (ext s)) e.tree) (i : Nat) (is : List Nat) (q : Nat)
    (hq : (coords (ext s))[q]? = some (i :: is)) :
    ∃ v y, exprChain asserts s i (ints is) = .ok v ∧ valueAt m q e.tree = some y ∧ HeldM.get asserts v e m = .ok y := by
  obtain ⟨hin, hr⟩ := coords_eq_iff.1 hq
  have hl := hin.length_eq
  have ht : (ext s).take (i :: is).length = ext s := List.take_of_length_le (by omega)
  have hd : (ext s).drop (i :: is).length = [] := List.drop_of_length_le (by omega)
  obtain ⟨v, e1, p1⟩ := exprChain_view (asserts := asserts) hv hc (by rw [ht]; exact mem_coords.2 hin) (count_pos_of_inside hin)
  rw [ht, hd] at p1
  obtain ⟨h5, _⟩ := List.getElem?_eq_some_iff.1 hq
  rw [length_coords] at h5
  obtain ⟨y, y1, y2⟩ := scalar_expr (k := 0) ho p1 (by simp [count]) (by simp only [count, Nat.mul_one]; omega)
  refine ⟨v, y, e1, ?_, ?_⟩
  · rw [hr]; simpa [count] using y1
  · unfold HeldM.get
    rw [if_neg (by rw [ndim_eq, p1.ext_eq]; simp), y2]

theorem loop_ok {β : Type} {asserts : Bool} {s : AnyShape} {d : Nat} {ds : List Nat} (hv : ∀ n, s ≠ .vector n) (he : ext s = d :: ds)
    (hp : 0 < count (ext s)) (hc : count (ext s) < two32) (e : Held α) (body : Held α → View → Out (List β)) (out : Nat → List β)
    (hb : ∀ i x, i < d → exprIndex asserts s (i : Nat) = .ok x → IsView x ds (i * count ds) → body e x = .ok (out i)) :
    ∀ n p, p + n = d → loop asserts s e body d n p = .ok (((List.range' p n).map out).flatten) := by
  obtain ⟨v, e1, h⟩ := isView_ofArray hv hp hc (by rw [he]; simp)
  rw [he] at h
  intro n
  induction n with
  | zero =>
    intro p hp
    rw [loop, if_pos (by omega)]
    rfl
  | succ n ih =>
    intro p hp
    obtain ⟨x, x1, x2⟩ := index_ok (asserts := asserts) h (i := p) (by omega)
    have hx : exprIndex asserts s (p : Nat) = .ok x := by
      unfold exprIndex
      rw [e1, Out.ok_bind]
      exact x1
    rw [loop, if_neg (by omega)]
    simp only [hx, Out.ok_bind, hb p x (by omega) hx (by simpa using x2), ih (p + 1) (by omega)]
    simp [List.range'_succ]

theorem forExpr_ok {β : Type} {asserts : Bool} {s : AnyShape} {d : Nat} {ds : List Nat} (hv : ∀ n, s ≠ .vector n) (he : ext s = d :: ds)
    (hp : 0 < count (ext s)) (hc : count (ext s) < two32) (e : Held α) (body : Held α → View → Out (List β)) (out : Nat → List β)
    (hb : ∀ i x, i < d → exprIndex asserts s (i : Nat) = .ok x → IsView x ds (i * count ds) → body (copy e) x = .ok (out i)) :
    forExpr asserts s e body = .ok (((List.range d).map out).flatten) := by
  unfold forExpr
  rw [at_zero he, Out.ok_bind, loop_ok hv he hp hc (copy e) body out hb d 0 (by omega), List.range_eq_range']

theorem flatten_rows {β : Type} (g : Nat → β) (c n : Nat) :
    ((List.range n).map fun i => (List.range c).map fun k => g (i * c + k)).flatten = (List.range (n * c)).map g := by
  induction n with
  | zero => simp
  | succ n ih =>
    rw [List.range_succ, List.map_append, List.flatten_append, ih, Nat.add_mul, Nat.one_mul, List.range_add, List.map_append]
    simp [Function.comp_def]

/-- **C122**, loops: `for (auto x : f)` over an expression without temporary views behind the beginning runs once for each `f[i]`, in
order; here the body collects all flat elements of `x`, and the loop gives the elements of the expression in row-major order. -/
theorem C122_loop_partial (asserts : Bool) (m : Mem α) (s : AnyShape) (e : Held α) (hv : ∀ n, s ≠ .vector n) (hs : ext s ≠ [])
    (hc : count (ext s) < 2 ^ 32) (hp : 0 < count (ext s)) (d : Nat) (ho : Operands m d (count (ext s)) e.tree) (hk : Kept e) :
    ∃ ys, forExpr asserts s e (fun f x => (List.range (size x.shape)).foldr (fun k acc => do
        let y ← HeldM.scalar x f m k
        let r ← acc
        return y :: r) (.ok [])) = .ok ys ∧ ys.length = count (ext s) ∧
      ∀ k, k < count (ext s) → ys[k]? = valueAt m k e.tree := by
  obtain ⟨n, ns, he⟩ := List.exists_cons_of_ne_nil hs
  have hcnt : count (ext s) = n * count ns := by rw [he]; rfl
  obtain ⟨y0, hy0, -⟩ := scalarP_run ho hp
  have hval : ∀ k, k < count (ext s) → valueAt m k e.tree = some ((valueAt m k e.tree).getD y0) := by
    intro k hk
    obtain ⟨y, h1, _⟩ := scalarP_run ho hk
    rw [h1]; rfl
  have hfold : ∀ (x : View) (off : Nat), IsView x ns off → off + count ns ≤ count (ext s) → ∀ l : List Nat, (∀ k ∈ l, k < count ns) →
      l.foldr (fun k acc => do
        let y ← HeldM.scalar x e m k
        let r ← acc
        return y :: r) (.ok []) = .ok (l.map fun k => (valueAt m (off + k) e.tree).getD y0) := by
    intro x off hx hfit l
    induction l with
    | nil => intro _; rfl
    | cons k l ih =>
      intro hl
      have hk' := hl k (by simp)
      obtain ⟨y, y1, y2⟩ := scalar_expr ho hx hk' (by omega)
      rw [List.foldr_cons, ih (fun j hj => hl j (by simp [hj])), y2]
      simp [y1]
  have hrow : ∀ i, i < n → i * count ns + count ns ≤ count (ext s) := by
    intro i hi
    have : (i + 1) * count ns ≤ n * count ns := Nat.mul_le_mul_right _ hi
    rw [Nat.add_mul, Nat.one_mul] at this
    omega
  refine ⟨_, forExpr_ok hv he hp hc e _ (fun i => (List.range (count ns)).map fun k => (valueAt m (i * count ns + k) e.tree).getD y0) ?_,
    ?_, ?_⟩
  · intro i x hi _ hx
    rw [copy_kept hk]
    have hsz : size x.shape = count ns := by rw [size_small (by rw [hx.ext_eq]; exact hx.small), hx.ext_eq]
    simp only [hsz]
    exact hfold x _ hx (hrow i hi) _ (fun k hk => List.mem_range.1 hk)
  · simp [List.length_flatten, Function.comp_def, hcnt]
  · intro k hk'
    rw [flatten_rows (fun j => (valueAt m j e.tree).getD y0), ← hcnt, List.getElem?_map, List.getElem?_range hk', Option.map_some, hval k hk']
    rfl

/-- **C122** is false of the code: the loop variable of `for (auto x : a[1] + b)` runs over `a[0] + b`, as the iterator holds a copy of the
expression; here `a` has the rows (1, 2) and (3, 4) and `b` is (10, 20). -/
theorem C122_loop_false : ∃ (m : Mem Nat) (e : Held Nat), Operands m 2 2 e.tree ∧
    (∀ asserts, ∃ v, chain asserts (.shape [2, 2]) 1 [] = .ok v ∧ e = .bin (· + ·) (.temp 0 v) (.arr 1)) ∧
    (List.range 2).map (fun k => valueAt m k e.tree) = [some 13, some 24] ∧
    ∀ asserts, forExpr asserts (.shape [2]) e (fun f x => do
      let y ← HeldM.get asserts x f m
      return [y]) = .ok [11, 22] := by
  refine ⟨fun id => if id = 0 then [1, 2, 3, 4] else [10, 20], .bin (· + ·) (.temp 0 ⟨.shape [2], [1], 2⟩) (.arr 1), ⟨⟨by decide,
    fun i hi => ?_⟩, rfl⟩, ?_, by decide, by decide⟩
  · rcases i with _ | _ | i
    · exact ⟨3, by decide⟩
    · exact ⟨4, by decide⟩
    · omega
  · intro asserts
    exact ⟨_, by cases asserts <;> rfl, rfl⟩

/-! ## The hypotheses are satisfiable -/

/-- `copy` of `-(a + b)` for two arrays. -/
example : Kept (Held.un (fun x : Int => -x) (.bin (· + ·) (.arr 0) (.arr 1))) := ⟨trivial, trivial⟩

/-- `(a + b)[1][2].get()` for two 2 by 3 arrays. -/
example : ∃ v y, exprChain true (.shape [2, 3]) (1 : Nat) (ints [2]) = .ok v ∧
    valueAt (fun _ => [1, 2, 3, 4, 5, 6]) 5 (Held.bin (· + ·) (.arr 0) (.arr 1)).tree = some y ∧
    HeldM.get true v (.bin (· + ·) (.arr 0) (.arr 1)) (fun _ => [1, 2, 3, 4, 5, 6]) = .ok y :=
  C122_get_partial true (fun _ => [1, 2, 3, 4, 5, 6]) (.shape [2, 3]) (.bin (· + ·) (.arr 0) (.arr 1)) (by simp) (by decide) 6
    ⟨rfl, rfl⟩ 1 [2] 5 (by decide)

end Verif.HeldM
