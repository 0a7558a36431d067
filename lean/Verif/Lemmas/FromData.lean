import Verif.Spec.FromData
import Verif.Props.View
import Mathlib.Tactic.Choose

/-! Evaluation of the constructors from nested data. -/

namespace Verif.FromDataM

open ShapeM Grid ViewM

/-- The scalars in order. -/
def flat {α : Type} : (d : Nat) → Nest α d → List α
  | 0, x => [x]
  | d + 1, (xs : List (Nest α d)) => xs.flatMap (flat d)

theorem u32_nat {n : Nat} (h : n < 2 ^ 32) : u32 (n : Int) = n := by
  unfold u32 two32
  omega

theorem flat_one {α : Type} (xs : List α) : flat 1 xs = xs := by
  have : ∀ l : List α, l.flatMap (flat 0) = l := by
    intro l
    induction l with
    | nil => rfl
    | cons x l ih => exact List.flatMap_cons.trans (congrArg (List.cons x) ih)
  exact this xs

theorem length_flat {α : Type} : ∀ (d : Nat) (x : Nest α d) (dims : List Nat), Regular d x dims → (flat d x).length = count dims
  | 0, x, dims, h => by
    simp only [Regular] at h
    subst h
    rfl
  | d + 1, xs, dims, h => by
    obtain ⟨ds, rfl, hx⟩ := h
    have : ∀ l : List (Nest α d), (∀ x ∈ l, Regular d x ds) → (l.flatMap (flat d)).length = l.length * count ds := by
      intro l hl
      induction l with
      | nil => simp
      | cons x l ih =>
        rw [List.flatMap_cons, List.length_append, ih (fun y hy => hl y (List.mem_cons_of_mem _ hy)),
          length_flat d x ds (hl x List.mem_cons_self), List.length_cons, Nat.add_mul, Nat.one_mul, Nat.add_comm]
    exact this xs hx

theorem flat_itemAt {α : Type} : ∀ (d : Nat) (x : Nest α d) (dims c : List Nat), Regular d x dims → Inside dims c →
    (flat d x)[ravel dims c]? = itemAt d x c
  | 0, x, dims, c, h, hc => by
    simp only [Regular] at h
    subst h
    cases hc
    rfl
  | d + 1, (xs : List (Nest α d)), dims, c, h, hc => by
    obtain ⟨ds, rfl, hx⟩ := h
    cases hc with
    | @cons i _ is _ hi his =>
      have h1 := getElem?_flatMap xs (flat d) (count ds) i (ravel ds is) (fun a ha => length_flat d a ds (hx a ha)) (ravel_lt his)
      have key : ∀ l : List (Nest α d), (∀ x ∈ l, Regular d x ds) → ∀ i : Nat,
          (l[i]?).bind (fun a => (flat d a)[ravel ds is]?) = (l[i]?).bind fun x => itemAt d x is := by
        intro l hl i
        cases hg : l[i]? with
        | none => rfl
        | some x => exact flat_itemAt d x ds is (hl x (List.mem_of_getElem? hg)) his
      exact h1.trans (key xs hx i)

theorem leaves_flat {α : Type} : ∀ (d : Nat) (x : Nest α d), leaves d x = (flat d x).length
  | 0, _ => rfl
  | d + 1, (xs : List (Nest α d)) => by
    have : ∀ l : List (Nest α d), (l.map (leaves d)).sum = (l.flatMap (flat d)).length := by
      intro l
      induction l with
      | nil => rfl
      | cons x l ih => rw [List.map_cons, List.sum_cons, ih, leaves_flat d x, List.flatMap_cons, List.length_append]
    exact this xs

theorem length_fresh {α : Type} (junk : Nat → α) (dims : List Nat) : (fresh junk dims).length = count dims := by
  simp [fresh]

theorem setRow_ok' {α : Type} {asserts : Bool} {n : Nat} {ds : List Nat} (hp : 0 < count (n :: ds)) (hc : count (n :: ds) < 2 ^ 32)
    {i : Nat} (hi : i < n) {t res : List α} (ht : count ds ≤ t.length) (hres : res.length = count (n :: ds)) :
    setRow asserts (n :: ds) i (ds, t) res =
      .ok (res.take (i * count ds) ++ (t.take (count ds) ++ res.drop (i * count ds + count ds))) := by
  obtain ⟨v, e1, p1⟩ := arrayView_ok (asserts := asserts) (s := .shape (n :: ds)) (by intro n h; cases h) hc
    (i := i) (is := []) (by simp [ext]) (by simpa [ext] using hi) hp
  have hoff : ravel (List.take [i].length (ext (.shape (n :: ds)))) [i] * count (List.drop [i].length (ext (.shape (n :: ds)))) =
      i * count ds := by simp [ext, ravel, count]
  rw [hoff] at p1
  have e1' : arrayIndex asserts (.shape (n :: ds)) i = .ok v := by
    simp only [chain, chainFrom, List.map_nil] at e1
    cases hh : arrayIndex asserts (.shape (n :: ds)) i with
    | ok w => rw [hh] at e1; exact e1
    | throw e => rw [hh] at e1; cases e1
    | ub => rw [hh] at e1; cases e1
  have hfit : i * count ds + count ds ≤ res.length := by
    rw [hres, count, ← Nat.succ_mul]
    exact Nat.mul_le_mul_right _ hi
  have hcd : 0 < count ds := by
    rw [count] at hp
    exact Nat.pos_of_mul_pos_left hp
  have hne : t ≠ [] := by intro h; rw [h] at ht; simp at ht; omega
  obtain ⟨a, ha⟩ : ∃ a, a ∈ t := List.exists_mem_of_ne_nil _ hne
  obtain ⟨out, e2, e3, e4⟩ := assign_ok (asserts := asserts) p1 (srcShape := .shape ds) rfl
    (src := fun k _ => readAt t k) (data := res) (fun k => (t[k]?).getD a) hfit (by
      intro k hk data' _
      have hk' : k < t.length := Nat.lt_of_lt_of_le hk ht
      simp [hk'])
  unfold setRow
  simp only [e1', Out.ok_bind, e2]
  congr 1
  apply List.ext_getElem?
  intro q
  rw [e4 q]
  change (if i * count ds ≤ q ∧ q < i * count ds + count ds then _ else _) = _
  rw [List.getElem?_append, List.getElem?_append, List.getElem?_take, List.getElem?_drop, List.length_take,
    Nat.min_eq_left (by omega), List.length_take, Nat.min_eq_left ht, List.getElem?_take]
  by_cases h1 : q < i * count ds
  · rw [if_neg (by omega), if_pos h1, if_pos h1]
  · by_cases h2 : q < i * count ds + count ds
    · have : q - i * count ds < t.length := by omega
      rw [if_pos (by omega), if_neg h1, if_pos (by omega)]
      rw [if_pos (by omega)]
      simp [this]
    · rw [if_neg (by omega), if_neg h1, if_neg (by omega)]
      congr 1
      omega

theorem setRow_ok {α : Type} {asserts : Bool} {n : Nat} {ds : List Nat} (hp : 0 < count (n :: ds)) (hc : count (n :: ds) < 2 ^ 32)
    {i : Nat} (hi : i < n) {t res : List α} (ht : t.length = count ds) (hres : res.length = count (n :: ds)) :
    setRow asserts (n :: ds) i (ds, t) res =
      .ok (res.take (i * count ds) ++ (t ++ res.drop (i * count ds + count ds))) := by
  rw [setRow_ok' hp hc hi (Nat.le_of_eq ht.symm) hres, List.take_of_length_le (Nat.le_of_eq ht)]

theorem fillAll_ok {α : Type} {asserts : Bool} {n : Nat} {ds : List Nat} (hp : 0 < count (n :: ds)) (hc : count (n :: ds) < 2 ^ 32)
    (ts : List (List α)) : ∀ (i : Nat) (res : List α), i + ts.length = n → (∀ t ∈ ts, t.length = count ds) →
      res.length = count (n :: ds) →
      fillAll asserts (n :: ds) i (ts.map fun t => (ds, t)) res = .ok (res.take (i * count ds) ++ ts.flatten) := by
  induction ts with
  | nil =>
    intro i res hi _ hres
    simp only [List.length_nil, Nat.add_zero] at hi
    subst hi
    simp only [List.map_nil, fillAll, List.flatten_nil, List.append_nil]
    rw [List.take_of_length_le (by rw [hres, count])]
  | cons t ts ih =>
    intro i res hi ht hres
    have ht0 := ht t List.mem_cons_self
    simp only [List.length_cons] at hi
    have hfit : i * count ds + count ds ≤ res.length := by
      rw [hres, count, ← Nat.succ_mul]
      exact Nat.mul_le_mul_right _ (by omega)
    simp only [List.map_cons, fillAll]
    rw [setRow_ok hp hc (by omega) ht0 hres, Out.ok_bind, ih (i + 1) _ (by omega) (fun t' h => ht t' (List.mem_cons_of_mem _ h))
      (by simp only [List.length_append, List.length_take, List.length_drop]; omega)]
    congr 1
    rw [List.flatten_cons, ← List.append_assoc, ← List.append_assoc]
    congr 1
    rw [List.take_append_of_le_length (by
      simp only [List.length_append, List.length_take, Nat.add_mul, Nat.one_mul]; omega)]
    apply List.take_of_length_le
    simp only [List.length_append, List.length_take, Nat.add_mul, Nat.one_mul]
    omega

theorem fillRows_ok {α : Type} {asserts : Bool} {n m : Nat} (hp : 0 < count [n, m]) (hc : count [n, m] < 2 ^ 32)
    (ts : List (List α)) : ∀ (i : Nat) (res : List α), (∀ t ∈ ts, t.length = m) →
      fillRows asserts [n, m] i ts res = fillAll asserts [n, m] i (ts.map fun t => ([m], t)) res := by
  have hm : 0 < m := by
    simp only [count, Nat.mul_one] at hp
    exact Nat.pos_of_mul_pos_left hp
  have hm2 : m < 2 ^ 32 := by
    simp only [count, Nat.mul_one] at hp hc
    have : 0 < n := Nat.pos_of_mul_pos_right hp
    exact Nat.lt_of_le_of_lt (Nat.le_mul_of_pos_left m this) hc
  induction ts with
  | nil => intros; rfl
  | cons t ts ih =>
    intro i res ht
    have ht0 := ht t List.mem_cons_self
    have h1 : fromRow asserts t = .ok ([m], t) := by
      unfold fromRow
      rw [ht0, u32_nat hm2]
      simp [hm]
    simp only [fillRows, h1, Out.ok_bind, List.map_cons, fillAll]
    congr 1
    funext res'
    exact ih (i + 1) res' (fun t' h => ht t' (List.mem_cons_of_mem _ h))

theorem checkRows_ok {α : Type} {e : Exc} {m : Nat} {rows : List (List α)} (h : ∀ r ∈ rows, r.length = m) :
    checkRows e m rows = .ok () := by
  induction rows with
  | nil => rfl
  | cons r rs ih =>
    simp only [checkRows, h r List.mem_cons_self, if_pos]
    exact ih fun r hr => h r (List.mem_cons_of_mem _ hr)

theorem fromRows_ok {α : Type} {asserts : Bool} {junk : Nat → α} {form : Form} {rows : List (List α)} {m : Nat}
    (h : ∀ r ∈ rows, r.length = m) (hp : 0 < rows.length * m) (hc : rows.length * m < 2 ^ 32) :
    fromRows asserts junk form rows = .ok ([rows.length, m], rows.flatten) := by
  have hm : 0 < m := Nat.pos_of_mul_pos_left hp
  have hn : 0 < rows.length := Nat.pos_of_mul_pos_right hp
  have hm2 : m < 2 ^ 32 := Nat.lt_of_le_of_lt (Nat.le_mul_of_pos_left m hn) hc
  have hn2 : rows.length < 2 ^ 32 := Nat.lt_of_le_of_lt (Nat.le_mul_of_pos_right _ hm) hc
  cases rows with
  | nil => simp at hn
  | cons r rs =>
    have hr := h r List.mem_cons_self
    have hp' : 0 < count [(r :: rs).length, m] := by simpa only [count, Nat.mul_one] using hp
    have hc' : count [(r :: rs).length, m] < 2 ^ 32 := by simpa only [count, Nat.mul_one] using hc
    have hck : checkIf asserts (rowExc form) m (r :: rs) = .ok () := by
      unfold checkIf
      cases asserts
      · rfl
      · exact checkRows_ok h
    simp only [fromRows]
    rw [u32_nat hn2, hr, u32_nat hm2, hck, Out.ok_bind, fillRows_ok hp' hc' _ _ _ h,
      fillAll_ok hp' hc' _ _ _ (by omega) (by simpa [count] using h) (length_fresh _ _)]
    simp

theorem buildAll_ok {β γ : Type} {f : β → Out γ} {g : β → γ} {l : List β} (h : ∀ x ∈ l, f x = .ok (g x)) :
    buildAll f l = .ok (l.map g) := by
  induction l with
  | nil => rfl
  | cons x l ih =>
    simp only [buildAll, h x List.mem_cons_self, Out.ok_bind, ih fun y hy => h y (List.mem_cons_of_mem _ hy)]
    rfl

theorem checkShapes_ok {α : Type} {asserts : Bool} {z : List Nat} {ts : List (Arr α)} (h : ∀ t ∈ ts, t.1 = z) :
    checkShapes asserts z ts = .ok () := by
  induction ts with
  | nil => rfl
  | cons t ts ih =>
    have : shapeEq t.1 z = true := shapeEq_iff.2 (h t List.mem_cons_self)
    simp only [checkShapes, this, Bool.not_true, Bool.and_false, Bool.false_eq_true, if_false]
    exact ih fun r hr => h r (List.mem_cons_of_mem _ hr)

theorem assemble_ok {α : Type} {asserts : Bool} {junk : Nat → α} {ts : List (List α)} {ds : List Nat}
    (h : ∀ t ∈ ts, t.length = count ds) (hp : 0 < ts.length * count ds) (hc : ts.length * count ds < 2 ^ 32) :
    assemble asserts junk (ts.map fun t => (ds, t)) = .ok (ts.length :: ds, ts.flatten) := by
  have hn : 0 < ts.length := Nat.pos_of_mul_pos_right hp
  have hm : 0 < count ds := Nat.pos_of_mul_pos_left hp
  have hn2 : ts.length < 2 ^ 32 := Nat.lt_of_le_of_lt (Nat.le_mul_of_pos_right _ hm) hc
  cases ts with
  | nil => simp at hn
  | cons t ts =>
    have hfa := fillAll_ok (asserts := asserts) (n := (t :: ts).length) (ds := ds) hp hc (t :: ts) 0 (fresh junk ((t :: ts).length :: ds))
      (by omega) h (length_fresh _ _)
    have hcs : checkShapes asserts ds ((t :: ts).map fun t => (ds, t)) = .ok () := checkShapes_ok (by simp)
    simp only [List.map_cons] at hfa hcs
    simp only [assemble, List.map_cons, hcs, Out.ok_bind]
    have hl : ((ds, t) :: List.map (fun t => (ds, t)) ts).length = (t :: ts).length := by simp
    rw [hl, u32_nat hn2, hfa]
    simp

theorem fromData_ok {α : Type} {asserts : Bool} {junk : Nat → α} {form : Form} : ∀ (d : Nat) (x : Nest α (d + 1)) (dims : List Nat),
    Regular (d + 1) x dims → 0 < count dims → count dims < 2 ^ 32 → fromData asserts junk form d x = .ok (dims, flat (d + 1) x)
  | 0, (xs : List α), dims, h, hp, hc => by
    obtain ⟨ds, rfl, hx⟩ := h
    have hds : ds = [] := by
      cases xs with
      | nil => exact absurd hp (by change ¬ 0 < 0 * _; simp)
      | cons x xs => exact hx x List.mem_cons_self
    subst hds
    simp only [count, Nat.mul_one] at hp hc
    have hf : flat 1 xs = xs := flat_one xs
    rw [hf]
    simp only [fromData, fromRow]
    have hl : u32 (List.length (α := α) xs) = List.length (α := Nest α 0) xs := u32_nat hc
    rw [hl]
    simp [show 0 < List.length (α := α) xs from hp]
  | 1, (xs : List (List α)), dims, h, hp, hc => by
    obtain ⟨ds, rfl, hx⟩ := h
    obtain ⟨m, rfl, hr⟩ : ∃ m, ds = [m] ∧ ∀ r ∈ xs, r.length = m := by
      cases xs with
      | nil => exact absurd hp (by change ¬ 0 < 0 * _; simp)
      | cons x xs =>
        obtain ⟨ds', e1, e2⟩ := hx x List.mem_cons_self
        have hds' : ds' = [] := by
          subst e1
          cases x with
          | nil => exact absurd hp (by change ¬ 0 < _ * (0 * _); simp)
          | cons a x => exact e2 a List.mem_cons_self
        subst hds'
        refine ⟨_, e1, fun r hr => ?_⟩
        obtain ⟨ds'', e3, _⟩ := hx r hr
        rw [e1] at e3
        exact ((List.cons.inj e3).1).symm
    have hf : flat 2 xs = xs.flatten := by
      have : ∀ l : List (List α), l.flatMap (flat 1) = l.flatten := by
        intro l
        rw [← List.flatMap_id]
        congr 1
        funext r
        exact flat_one r
      exact this xs
    rw [hf]
    simp only [count, Nat.mul_one] at hp hc
    exact fromRows_ok hr hp hc
  | d + 2, (xs : List (Nest α (d + 2))), dims, h, hp, hc => by
    obtain ⟨ds, rfl, hx⟩ := h
    have hn : 0 < xs.length := Nat.pos_of_mul_pos_right hp
    have hm : 0 < count ds := Nat.pos_of_mul_pos_left hp
    have hm2 : count ds < 2 ^ 32 := Nat.lt_of_le_of_lt (Nat.le_mul_of_pos_left _ hn) hc
    have hb := buildAll_ok (f := fromData asserts junk form (d + 1)) (g := fun x => (ds, flat (d + 2) x)) (l := xs)
      (fun x hx' => fromData_ok (d + 1) x ds (hx x hx') hm hm2)
    simp only [fromData, fromItems]
    have hif : (asserts && !decide (0 < List.length (α := Nest α (d + 2)) xs)) = false := by simp [hn]
    rw [hif, if_neg (by simp)]
    have h2 := assemble_ok (asserts := asserts) (junk := junk) (ts := xs.map (flat (d + 2))) (ds := ds)
      (by
        intro t ht
        obtain ⟨x, hx1, rfl⟩ := List.mem_map.1 ht
        exact length_flat (d + 2) x ds (hx x hx1)) (by rw [List.length_map]; exact hp) (by rw [List.length_map]; exact hc)
    rw [List.map_map] at h2
    rw [List.length_map] at h2
    have h3 : (List.map (flat (d + 2)) xs).flatten = flat (d + 3) xs := by
      rw [← List.flatMap_def]; rfl
    rw [h3] at h2
    exact (congrArg (fun o => Out.bind o (assemble asserts junk)) hb).trans h2

theorem checkRows_throw {α : Type} {e : Exc} {m : Nat} {rows : List (List α)} (h : ¬ ∀ r ∈ rows, r.length = m) :
    checkRows e m rows = .throw e := by
  induction rows with
  | nil => exact absurd (by simp) h
  | cons r rs ih =>
    by_cases hr : r.length = m
    · simp only [checkRows, hr, if_pos]
      exact ih fun h' => h fun r' hr' => by
        rcases List.mem_cons.1 hr' with rfl | h2
        · exact hr
        · exact h' r' h2
    · simp only [checkRows, hr, if_false]

theorem checkShapes_throw {α : Type} {z : List Nat} {ts : List (Arr α)} (h : ¬ ∀ t ∈ ts, t.1 = z) :
    checkShapes true z ts = .throw .rangeError := by
  induction ts with
  | nil => exact absurd (by simp) h
  | cons r rs ih =>
    by_cases hr : r.1 = z
    · have : shapeEq r.1 z = true := shapeEq_iff.2 hr
      simp only [checkShapes, this, Bool.not_true, Bool.and_false, Bool.false_eq_true, if_false]
      exact ih fun h' => h fun r' hr' => by
        rcases List.mem_cons.1 hr' with rfl | h2
        · exact hr
        · exact h' r' h2
    · have : shapeEq r.1 z = false := by
        cases hb : shapeEq r.1 z with
        | false => rfl
        | true => exact absurd (shapeEq_iff.1 hb) hr
      simp only [checkShapes, this, Bool.not_false, Bool.and_true, if_true]

theorem leaves_mem {α : Type} {d : Nat} {xs : List (Nest α d)} {x : Nest α d} (h : x ∈ xs) : leaves d x ≤ leaves (d + 1) xs := by
  have : ∀ l : List (Nest α d), x ∈ l → leaves d x ≤ (l.map (leaves d)).sum := by
    intro l hl
    induction l with
    | nil => cases hl
    | cons y l ih =>
      rw [List.map_cons, List.sum_cons]
      rcases List.mem_cons.1 hl with rfl | h2
      · omega
      · have := ih h2
        omega
  exact this xs h

theorem buildAll_throw {β γ : Type} {f : β → Out γ} {P : β → Prop} {l : List β} (h : ∀ x ∈ l, P x ∨ ∃ e, f x = .throw e)
    (hok : ∀ x, P x → x ∈ l → ∃ t, f x = .ok t) : (∀ x ∈ l, P x) ∨ ∃ e, buildAll f l = .throw e := by
  induction l with
  | nil => exact .inl (by simp)
  | cons x l ih =>
    rcases h x List.mem_cons_self with hx | ⟨e, he⟩
    · obtain ⟨t, ht⟩ := hok x hx List.mem_cons_self
      rcases ih (fun y hy => h y (List.mem_cons_of_mem _ hy)) (fun y hy hm => hok y hy (List.mem_cons_of_mem _ hm)) with h1 | ⟨e, he⟩
      · refine .inl fun y hy => ?_
        rcases List.mem_cons.1 hy with rfl | h2
        · exact hx
        · exact h1 y h2
      · exact .inr ⟨e, by simp only [buildAll, ht, he, Out.ok_bind, Out.throw_bind]⟩
    · exact .inr ⟨e, by simp only [buildAll, he, Out.throw_bind]⟩

theorem count_leaves {α : Type} {d : Nat} {x : Nest α d} {dims : List Nat} (h : Regular d x dims) : leaves d x = count dims := by
  rw [leaves_flat, length_flat d x dims h]

theorem fromData_total {α : Type} {junk : Nat → α} {form : Form} : ∀ (d : Nat) (x : Nest α (d + 1)), leaves (d + 1) x < 2 ^ 32 →
    (∃ dims, Regular (d + 1) x dims ∧ 0 < count dims) ∨ ∃ e, fromData true junk form d x = .throw e
  | 0, (xs : List α), hs => by
    cases xs with
    | nil => exact .inr ⟨.invalidArgument, rfl⟩
    | cons x xs => exact .inl ⟨[(x :: xs).length], ⟨[], rfl, fun _ _ => rfl⟩, by simp [count]⟩
  | 1, (xs : List (List α)), hs => by
    cases xs with
    | nil => exact .inr ⟨.invalidArgument, rfl⟩
    | cons r rs =>
      have hr : r.length < 2 ^ 32 := by
        have h1 := leaves_mem (d := 1) (xs := r :: rs) (x := r) List.mem_cons_self
        have h2 : leaves 1 r = r.length := (leaves_flat 1 r).trans (congrArg List.length (flat_one r))
        rw [h2] at h1
        exact Nat.lt_of_le_of_lt h1 hs
      by_cases h : ∀ r' ∈ r :: rs, r'.length = r.length
      · by_cases h0 : r.length = 0
        · refine .inr ⟨.invalidArgument, ?_⟩
          simp only [fromData, fromRows, u32_nat hr, checkIf, if_true, checkRows_ok h, Out.ok_bind, fillRows]
          have : fromRow true r = .throw .invalidArgument := by simp [fromRow, h0]
          rw [this]
          rfl
        · refine .inl ⟨[(r :: rs).length, r.length], ⟨[r.length], rfl, fun x hx => ⟨[], ?_, fun _ _ => rfl⟩⟩, ?_⟩
          · rw [← h x hx]
            rfl
          · simp only [count, Nat.mul_one]
            exact Nat.mul_pos (by simp) (by omega)
      · refine .inr ⟨rowExc form, ?_⟩
        simp only [fromData, fromRows, u32_nat hr, checkIf, if_true, checkRows_throw h, Out.throw_bind]
  | d + 2, (xs : List (Nest α (d + 2))), hs => by
    by_cases hn : xs.length = 0
    · refine .inr ⟨.invalidArgument, ?_⟩
      have : (true && !decide (0 < List.length (α := Nest α (d + 2)) xs)) = true := by simp [hn]
      simp only [fromData, fromItems]
      rw [this, if_pos rfl]
    · have hif : (true && !decide (0 < List.length (α := Nest α (d + 2)) xs)) = false := by
        simp only [Bool.true_and, Bool.not_eq_false', decide_eq_true_eq]
        omega
      have hle : ∀ x ∈ xs, leaves (d + 2) x < 2 ^ 32 := fun x hx => Nat.lt_of_le_of_lt (leaves_mem (d := d + 2) hx) hs
      have hok : ∀ x, (∃ dims, Regular (d + 2) x dims ∧ 0 < count dims) → x ∈ xs →
          ∃ t, fromData true junk form (d + 1) x = .ok t := fun x ⟨dims, h1, h2⟩ hx =>
        ⟨_, fromData_ok (d + 1) x dims h1 h2 (by rw [← count_leaves h1]; exact hle x hx)⟩
      rcases buildAll_throw (f := fromData true junk form (d + 1)) (l := xs)
        (fun x hx => fromData_total (d + 1) x (hle x hx)) hok with hall | ⟨e, he⟩
      · have hg : ∃ g : Nest α (d + 2) → List Nat, ∀ x ∈ xs, Regular (d + 2) x (g x) ∧ 0 < count (g x) := by
          choose g hg using hall
          classical
          exact ⟨fun x => if hx : x ∈ xs then g x hx else [], fun x hx => by simpa only [dif_pos hx] using hg x hx⟩
        obtain ⟨g, hg⟩ := hg
        have hb := buildAll_ok (f := fromData true junk form (d + 1)) (g := fun x => (g x, flat (d + 2) x)) (l := xs)
          (fun x hx => fromData_ok (d + 1) x (g x) (hg x hx).1 (hg x hx).2 (by rw [← count_leaves (hg x hx).1]; exact hle x hx))
        cases xs with
        | nil => exact absurd rfl hn
        | cons y ys =>
          by_cases hsame : ∀ x ∈ y :: ys, g x = g y
          · refine .inl ⟨(y :: ys).length :: g y, ⟨g y, rfl, fun x hx => by rw [← hsame x hx]; exact (hg x hx).1⟩, ?_⟩
            exact Nat.mul_pos (by simp) (hg y List.mem_cons_self).2
          · refine .inr ⟨.rangeError, ?_⟩
            simp only [fromData, fromItems]
            rw [hif, if_neg (by simp)]
            have h2 : assemble true junk (List.map (fun x => (g x, flat (d + 2) x)) (y :: ys)) = .throw .rangeError := by
              simp only [List.map_cons, assemble]
              have h3 := checkShapes_throw (α := α) (z := g y) (ts := (y :: ys).map fun x => (g x, flat (d + 2) x)) (by
                intro h
                apply hsame
                intro x hx
                exact h _ (List.mem_map_of_mem hx))
              simp only [List.map_cons] at h3
              rw [h3]
              rfl
            exact (congrArg (fun o => Out.bind o (assemble true junk)) hb).trans h2
      · refine .inr ⟨e, ?_⟩
        simp only [fromData, fromItems]
        rw [hif, if_neg (by simp)]
        exact (congrArg (fun o => Out.bind o (assemble true junk)) he)

/-! ### Matrices -/

theorem callWrite_matrix {α : Type} {asserts : Bool} {n m i j : Nat} (hi : i < n) (hj : j < m) {res : List α}
    (hres : res.length = n * m) (x : α) : callWrite asserts (.matrix n m) res [(i : Int), (j : Int)] x = .ok (res.set (i * m + j) x) := by
  have hlt : i * m + j < res.length := by
    have : (i + 1) * m ≤ n * m := Nat.mul_le_mul_right m hi
    rw [Nat.add_mul, Nat.one_mul] at this
    omega
  unfold callWrite callIndex
  have h0 : at' asserts (.matrix n m) ((0 : Nat) : Int) = .ok n := at_ok asserts (.matrix n m) 0 (by simp [ext])
  have h1 : at' asserts (.matrix n m) ((0 + 1 : Nat) : Int) = .ok m := at_ok asserts (.matrix n m) 1 (by simp [ext])
  have c0 : (asserts && !(decide ((0 : Int) ≤ (i : Int)) && decide ((i : Int) < (n : Int)))) = false := by
    simp [hi]
  have c1 : (asserts && !(decide ((0 : Int) ≤ (j : Int)) && decide ((j : Int) < (m : Int)))) = false := by
    simp [hj]
  have hnd : (asserts && !decide (ndim (.matrix n m) = [(i : Int), (j : Int)].length)) = false := by simp [ndim]
  rw [hnd, if_neg (by simp)]
  simp only [callLoop, h0, h1, Out.ok_bind, c0, c1, Bool.false_eq_true, if_false]
  have : ((0 : Int) * n + i) * m + j = ((i * m + j : Nat) : Int) := by push_cast; ring
  rw [this, writeAt_nat _ _ _ hlt]

theorem setCells_ok {α : Type} {asserts : Bool} {n m i : Nat} (hi : i < n) (xs : List α) : ∀ (j : Nat) (res : List α),
    j + xs.length ≤ m → res.length = n * m →
    setCells asserts (.matrix n m) i j xs res =
      .ok (res.take (i * m + j) ++ (xs ++ res.drop (i * m + j + xs.length))) := by
  induction xs with
  | nil =>
    intro j res _ _
    simp [setCells]
  | cons x xs ih =>
    intro j res hj hres
    simp only [List.length_cons] at hj
    have hlt : i * m + j < res.length := by
      have : (i + 1) * m ≤ n * m := Nat.mul_le_mul_right m hi
      rw [Nat.add_mul, Nat.one_mul] at this
      omega
    simp only [setCells, callWrite_matrix hi (show j < m by omega) hres, Out.ok_bind]
    rw [ih (j + 1) _ (by omega) (by simpa using hres)]
    congr 1
    rw [← Nat.add_assoc, List.take_set, List.take_add_one, List.getElem?_eq_getElem hlt]
    rw [List.drop_set_of_lt (by omega)]
    have hl : (res.take (i * m + j)).length = i * m + j := by rw [List.length_take]; omega
    rw [List.set_append_right _ _ (by omega), hl, Nat.sub_self]
    simp only [Option.toList_some, List.set_cons_zero, List.append_assoc, List.singleton_append, List.length_cons, List.cons_append, List.nil_append]
    rw [show i * m + j + 1 + xs.length = i * m + j + (xs.length + 1) by omega]

theorem setRows_ok {α : Type} {asserts : Bool} {n m : Nat} (rows : List (List α)) : ∀ (i : Nat) (res : List α),
    i + rows.length = n → (∀ r ∈ rows, r.length = m) → res.length = n * m →
    setRows asserts (.matrix n m) m i rows res = .ok (res.take (i * m) ++ rows.flatten) := by
  induction rows with
  | nil =>
    intro i res hi _ hres
    simp only [List.length_nil, Nat.add_zero] at hi
    subst hi
    simp [setRows, List.take_of_length_le (Nat.le_of_eq hres)]
  | cons r rs ih =>
    intro i res hi hr hres
    have hr0 := hr r List.mem_cons_self
    simp only [List.length_cons] at hi
    have hfit : i * m + m ≤ res.length := by
      have : (i + 1) * m ≤ n * m := Nat.mul_le_mul_right m (by omega)
      rw [Nat.add_mul, Nat.one_mul] at this
      omega
    simp only [setRows, hr0, decide_true, Bool.not_true, Bool.and_false, Bool.false_eq_true, if_false]
    rw [setCells_ok (by omega) r 0 res (by omega) hres, Out.ok_bind, ih (i + 1) _ (by omega)
      (fun t' h => hr t' (List.mem_cons_of_mem _ h))
      (by simp only [List.length_append, List.length_take, List.length_drop]; omega)]
    congr 1
    rw [List.flatten_cons, ← List.append_assoc, ← List.append_assoc]
    congr 1
    rw [List.take_append_of_le_length (by
      simp only [List.length_append, List.length_take, Nat.add_mul, Nat.one_mul]; omega)]
    rw [Nat.add_zero]
    apply List.take_of_length_le
    simp only [List.length_append, List.length_take, Nat.add_mul, Nat.one_mul]
    omega

theorem setRows_throw {α : Type} {n m : Nat} (rows : List (List α)) : ∀ (i : Nat) (res : List α),
    i + rows.length = n → (¬ ∀ r ∈ rows, r.length = m) → res.length = n * m →
    setRows true (.matrix n m) m i rows res = .throw .rangeError := by
  induction rows with
  | nil => intro i res _ h; exact absurd (by simp) h
  | cons r rs ih =>
    intro i res hi h hres
    simp only [List.length_cons] at hi
    by_cases hr : r.length = m
    · have hfit : i * m + m ≤ res.length := by
        have : (i + 1) * m ≤ n * m := Nat.mul_le_mul_right m (by omega)
        rw [Nat.add_mul, Nat.one_mul] at this
        omega
      simp only [setRows, hr, decide_true, Bool.not_true, Bool.and_false, Bool.false_eq_true, if_false]
      rw [setCells_ok (by omega) r 0 res (by omega) hres, Out.ok_bind]
      refine ih (i + 1) _ (by omega) (fun h' => h fun r' hr' => ?_)
        (by simp only [List.length_append, List.length_take, List.length_drop]; omega)
      rcases List.mem_cons.1 hr' with rfl | h2
      · exact hr
      · exact h' r' h2
    · simp only [setRows, hr, decide_false, Bool.not_false, Bool.and_true, if_true]

/-! ### Comma initialisation -/

theorem commaFrom_ok {α : Type} {asserts : Bool} (xs : List α) : ∀ (data : List α) (i : Nat), i + xs.length ≤ data.length →
    commaFrom asserts data i xs = .ok (data.take i ++ (xs ++ data.drop (i + xs.length))) := by
  induction xs with
  | nil => intro data i _; simp [commaFrom]
  | cons x xs ih =>
    intro data i h
    simp only [List.length_cons] at h
    have hlt : i < data.length := by omega
    simp only [commaFrom, hlt, decide_true, Bool.not_true, Bool.and_false, Bool.false_eq_true, if_false,
      writeAt_nat data i x hlt, Out.ok_bind]
    rw [ih _ (i + 1) (by simpa using (by omega))]
    congr 1
    rw [List.take_set, List.take_add_one, List.getElem?_eq_getElem hlt, List.drop_set_of_lt (by omega)]
    have hl : (data.take i).length = i := by rw [List.length_take]; omega
    rw [List.set_append_right _ _ (by omega), hl, Nat.sub_self]
    simp only [Option.toList_some, List.set_cons_zero, List.append_assoc, List.singleton_append, List.length_cons, List.cons_append, List.nil_append]
    rw [show i + 1 + xs.length = i + (xs.length + 1) by omega]

theorem commaFrom_throw {α : Type} (xs : List α) : ∀ (data : List α) (i : Nat), i ≤ data.length → data.length < i + xs.length →
    commaFrom true data i xs = .throw .assertion := by
  induction xs with
  | nil => intro data i h1 h2; simp at h2; omega
  | cons x xs ih =>
    intro data i h1 h2
    simp only [List.length_cons] at h2
    by_cases hlt : i < data.length
    · simp only [commaFrom, hlt, decide_true, Bool.not_true, Bool.and_false, Bool.false_eq_true, if_false,
        writeAt_nat data i x hlt, Out.ok_bind]
      exact ih _ (i + 1) (by simpa using (by omega)) (by simpa using (by omega))
    · simp only [commaFrom, hlt, decide_false, Bool.not_false, Bool.and_true, if_true]

end Verif.FromDataM
