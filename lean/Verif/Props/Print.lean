import Verif.Spec.Print
import Verif.Lemmas.Print

/-! # C55: printed arrays show every element in order within balanced brackets -/

namespace Verif.Print

open ShapeM ViewM Grid

/-! ### Elements and brackets -/

theorem elems_append : ∀ (a b : List (Tok α)), elems (a ++ b) = elems a ++ elems b
  | [], _ => rfl
  | .elem x :: a, b => by simp [elems, elems_append a b]
  | .opn :: a, b => by simp [elems, elems_append a b]
  | .cls :: a, b => by simp [elems, elems_append a b]
  | .sep :: a, b => by simp [elems, elems_append a b]
  | .space :: a, b => by simp [elems, elems_append a b]
  | .newline :: a, b => by simp [elems, elems_append a b]

theorem bare_append : ∀ (a b : List (Tok α)), bare (a ++ b) = bare a ++ bare b
  | [], _ => rfl
  | .elem x :: a, b => by simp [bare, bare_append a b]
  | .opn :: a, b => by simp [bare, bare_append a b]
  | .cls :: a, b => by simp [bare, bare_append a b]
  | .sep :: a, b => by simp [bare, bare_append a b]
  | .space :: a, b => by simp [bare, bare_append a b]
  | .newline :: a, b => by simp [bare, bare_append a b]

theorem elems_bare : ∀ a : List (Tok α), elems (bare a) = elems a
  | [] => rfl
  | .elem x :: a => by simp [elems, bare, elems_bare a]
  | .opn :: a => by simp [elems, bare, elems_bare a]
  | .cls :: a => by simp [elems, bare, elems_bare a]
  | .sep :: a => by simp [elems, bare, elems_bare a]
  | .space :: a => by simp [elems, bare, elems_bare a]
  | .newline :: a => by simp [elems, bare, elems_bare a]

theorem bare_spaces : ∀ n, bare (spaces n : List (Tok α)) = []
  | 0 => rfl
  | n + 1 => by
    have := bare_spaces (α := α) n
    unfold spaces at this ⊢
    simp [List.replicate_succ, bare, this]

theorem bare_sepAfter (c : Char) : bare (sepAfter c : List (Tok α)) = [] := by
  unfold sepAfter; split <;> rfl

theorem bare_lineAfter (c : Char) (n : Nat) : bare (lineAfter c n : List (Tok α)) = [] := by
  unfold lineAfter; split <;> split <;> rfl

theorem bare_flatMap {l : List Nat} {f g : Nat → List (Tok α)} (h : ∀ i ∈ l, bare (f i) = g i) : bare (l.flatMap f) = l.flatMap g := by
  induction l with
  | nil => rfl
  | cons a l ih =>
    rw [List.flatMap_cons, List.flatMap_cons, bare_append, h a (by simp), ih fun i hi => h i (by simp [hi])]

theorem elems_flatMap (l : List Nat) (f : Nat → List (Tok α)) : elems (l.flatMap f) = l.flatMap fun i => elems (f i) := by
  induction l with
  | nil => rfl
  | cons a l ih => rw [List.flatMap_cons, List.flatMap_cons, elems_append, ih]

theorem bare_cell (al : α → Int × Int) (separator : Char) (c : Int × Int) (x : α) (last : Bool) : bare (cell al separator c x last) = [.elem x] := by
  unfold cell
  rw [bare_append, bare_append, bare_append, bare_spaces, bare_spaces]
  cases last
  · rw [if_neg (by simp), bare_sepAfter]; rfl
  · rfl

theorem bare_block {al : α → Int × Int} {separator : Char} {data : List α} {cols : List (Int × Int)} :
    ∀ (e : List Nat) (off indent : Nat), off + count e ≤ data.length → (∀ h : e ≠ [], 0 < count e → e.getLast h ≤ cols.length) →
      bare (block al separator data cols e off indent) = nest data e off
  | [], off, _, hl, _ => by
    have : count [] = 1 := rfl
    rw [block, nest, List.getElem?_eq_getElem (by omega)]; rfl
  | [d], off, _, hl, hc => by
    have hcd : count [d] = d := by simp [count]
    rw [hcd] at hl hc
    rw [block, nest, List.cons_append, ← List.singleton_append, bare_append, bare_append, bare_flatMap (g := fun i => nest data [] (off + i * count []))]
    · simp [bare]
    · intro i hi
      have hi := List.mem_range.1 hi
      have h1 : i < cols.length := by
        have := hc (by simp) (by omega)
        simp at this; omega
      unfold cellAt
      have hone : count [] = 1 := rfl
      rw [List.getElem?_eq_getElem h1, List.getElem?_eq_getElem (by omega), nest, hone, Nat.mul_one, List.getElem?_eq_getElem (by omega)]
      exact bare_cell _ _ _ _ _
  | d :: d' :: ds, off, indent, hl, hc => by
    have hcnt : count (d :: d' :: ds) = d * count (d' :: ds) := rfl
    rw [hcnt] at hl hc
    rw [block, nest, List.cons_append, ← List.singleton_append, bare_append, bare_append,
      bare_flatMap (g := fun i => nest data (d' :: ds) (off + i * count (d' :: ds)))]
    · simp [bare]
    · intro i hi
      have hi := List.mem_range.1 hi
      have hb : (i + 1) * count (d' :: ds) ≤ d * count (d' :: ds) := Nat.mul_le_mul_right _ hi
      have hs : (i + 1) * count (d' :: ds) = i * count (d' :: ds) + count (d' :: ds) := by rw [Nat.add_mul, Nat.one_mul]
      rw [bare_append, bare_append, bare_block (d' :: ds) _ _ (by omega) (fun hne hp => by
        have := hc (by simp) (Nat.mul_pos (by omega) hp)
        rw [List.getLast_cons (by simp)] at this
        exact this)]
      have h1 : bare (if i > 0 then spaces (indent + 1) else [] : List (Tok α)) = [] := by
        split
        · exact bare_spaces _
        · rfl
      have h2 : bare (if i + 1 = d then [] else lineAfter separator (ds.length + 2) : List (Tok α)) = [] := by
        split
        · rfl
        · exact bare_lineAfter _ _
      rw [h1, h2]; simp

theorem range_mul_map {β : Type} (m : Nat) (f : Nat → β) : ∀ d : Nat, (List.range (d * m)).map f = (List.range d).flatMap fun i => (List.range m).map fun k => f (i * m + k)
  | 0 => by simp
  | d + 1 => by
    rw [Nat.add_mul, Nat.one_mul, List.range_add, List.map_append, range_mul_map m f d, List.range_succ, List.flatMap_append, List.map_map]
    simp only [List.flatMap_cons, List.flatMap_nil, List.append_nil]
    rfl

theorem slice_eq {data : List α} {off n : Nat} (h : off + n ≤ data.length) : (List.range n).flatMap (fun k => (data[off + k]?).toList) = (data.drop off).take n := by
  induction n with
  | zero => simp
  | succ n ih =>
    rw [List.range_succ, List.flatMap_append, ih (by omega), List.take_succ, List.getElem?_drop]
    simp

theorem elems_nest {data : List α} : ∀ (e : List Nat) (off : Nat), off + count e ≤ data.length →
    elems (nest data e off) = (List.range (count e)).flatMap fun k => (data[off + k]?).toList
  | [], off, h => by
    have hone : count [] = 1 := rfl
    rw [hone] at h ⊢
    rw [nest, List.getElem?_eq_getElem (by omega)]
    simp [elems, List.getElem?_eq_getElem (show off < data.length by omega)]
  | d :: ds, off, h => by
    have hcnt : count (d :: ds) = d * count ds := rfl
    rw [hcnt] at h ⊢
    rw [nest, elems_append, elems_append, elems_flatMap]
    have h1 : ∀ i ∈ List.range d, elems (nest data ds (off + i * count ds)) =
        (List.range (count ds)).flatMap fun k => (data[off + (i * count ds + k)]?).toList := by
      intro i hi
      have hi := List.mem_range.1 hi
      have hb : (i + 1) * count ds ≤ d * count ds := Nat.mul_le_mul_right _ hi
      have hs : (i + 1) * count ds = i * count ds + count ds := by rw [Nat.add_mul, Nat.one_mul]
      rw [elems_nest ds _ (by omega)]
      simp only [Nat.add_assoc]
    have h2 : (List.range d).flatMap (fun i => elems (nest data ds (off + i * count ds))) =
        (List.range d).flatMap fun i => (List.range (count ds)).flatMap fun k => (data[off + (i * count ds + k)]?).toList := by
      rw [List.flatMap_def, List.flatMap_def, List.map_congr_left h1]
    rw [h2]
    have h3 := range_mul_map (count ds) (fun k => (data[off + k]?).toList) d
    rw [List.flatMap_def (l := List.range (d * count ds)), h3, List.flatMap_def, List.flatMap_def]
    simp [elems, List.flatMap_def, List.flatten_flatten, Function.comp_def]

/-! ### Columns -/

theorem advance_append (c : Nat) (a b : List Char) : advance c (a ++ b) = advance (advance c a) b := by
  unfold advance; rw [List.foldl_append]

/-- The column after a list of tokens. -/
def col (bracket separator : Char) (fmt : α → List Char) (ts : List (Tok α)) (c : Nat) : Nat := advance c (ts.flatMap (Tok.text bracket separator fmt))

theorem points_append {bracket separator : Char} {fmt : α → List Char} : ∀ (a b : List (Tok α)) (c : Nat),
    points bracket separator fmt (a ++ b) c = points bracket separator fmt a c ++ points bracket separator fmt b (col bracket separator fmt a c)
  | [], b, c => by simp [points, col, advance]
  | t :: a, b, c => by
    have h := points_append (bracket := bracket) (separator := separator) (fmt := fmt) a b (advance c (t.text bracket separator fmt))
    cases t <;> simp only [List.cons_append, points, h, List.append_assoc, col, List.flatMap_cons, advance_append]

theorem col_append {bracket separator : Char} {fmt : α → List Char} (a b : List (Tok α)) (c : Nat) :
    col bracket separator fmt (a ++ b) c = col bracket separator fmt b (col bracket separator fmt a c) := by
  simp only [col, List.flatMap_append, advance_append]

theorem advance_plain : ∀ {s : List Char} (_ : '\n' ∉ s) (c : Nat), advance c s = c + s.length
  | [], _, c => by simp [advance]
  | ch :: s, h, c => by
    have h1 : ch ≠ '\n' := fun e => h (by simp [e])
    have h2 := advance_plain (s := s) (fun e => h (by simp [e])) (c + 1)
    unfold advance at h2 ⊢
    rw [List.foldl_cons, if_neg h1, h2, List.length_cons]; omega

theorem spaces_points {bracket separator : Char} {fmt : α → List Char} : ∀ (n c : Nat),
    points bracket separator fmt (spaces n) c = [] ∧ col bracket separator fmt (spaces n : List (Tok α)) c = c + n
  | 0, c => ⟨rfl, rfl⟩
  | n + 1, c => by
    obtain ⟨h1, h2⟩ := spaces_points (bracket := bracket) (separator := separator) (fmt := fmt) n (c + 1)
    have hs : (spaces (n + 1) : List (Tok α)) = [.space] ++ spaces n := by simp [spaces, List.replicate_succ]
    have hc : col bracket separator fmt [(.space : Tok α)] c = c + 1 := by simp [col, Tok.text, advance]
    rw [hs, points_append, col_append, hc, h1, h2]
    exact ⟨by simp [points], by omega⟩

theorem brackets_plain (b : Char) : (brackets b).1 ≠ '\n' ∧ (brackets b).2 ≠ '\n' := by
  unfold brackets; split <;> decide

/-- The separator does not break lines and elements are written on one line, with the alignment the code computes. -/
structure Plain (separator : Char) (fmt : α → List Char) (al : α → Int × Int) : Prop where
  sep : separator ≠ '\n'
  elem : ∀ x, '\n' ∉ fmt x
  pre : ∀ x, (al x).1 = ((fmt x).idxOf '.' : Nat)
  post : ∀ x, (al x).2 = ((fmt x).length : Int) - ((fmt x).idxOf '.' : Nat)

/-- Width of a separator. -/
def sepWidth (separator : Char) : Nat := if separator = ' ' then 1 else 2

theorem sepAfter_points {bracket separator : Char} {fmt : α → List Char} (hs : separator ≠ '\n') (c : Nat) :
    points bracket separator fmt (sepAfter separator) c = [] ∧ col bracket separator fmt (sepAfter separator : List (Tok α)) c = c + sepWidth separator := by
  unfold sepAfter sepWidth
  split
  · exact ⟨rfl, by simp [col, Tok.text, advance]⟩
  · exact ⟨rfl, by simp [col, Tok.text, advance, hs]⟩

theorem lineAfter_points {bracket separator : Char} {fmt : α → List Char} (n c : Nat) :
    points bracket separator fmt (lineAfter separator n) c = [] ∧ col bracket separator fmt (lineAfter separator n : List (Tok α)) c = 0 := by
  unfold lineAfter
  split <;> split <;> simp [points, col, Tok.text, advance]

/-- Where an element of column `c` has its decimal point, the cell starting at column `b`, and where the cell ends. -/
theorem cell_points {bracket separator : Char} {fmt : α → List Char} {al : α → Int × Int} (h : Plain separator fmt al) {q : Int × Int} {x : α} {last : Bool}
    (h1 : (al x).1 ≤ q.1) (h2 : (al x).2 ≤ q.2) (b : Nat) :
    points bracket separator fmt (cell al separator q x last) b = [b + q.1.toNat] ∧
    col bracket separator fmt (cell al separator q x last) b = b + q.1.toNat + q.2.toNat + if last then 0 else sepWidth separator := by
  have hp := h.pre x
  have hq := h.post x
  have hle : (fmt x).idxOf '.' ≤ (fmt x).length := List.idxOf_le_length
  unfold cell
  simp only [points_append, col_append, spaces_points, List.nil_append]
  have he : ∀ c, col bracket separator fmt [Tok.elem x] c = c + (fmt x).length := fun c => by
    simp [col, Tok.text, advance_plain (h.elem x)]
  rw [he]
  have hpe : ∀ c, points bracket separator fmt [Tok.elem x] c = [c + (fmt x).idxOf '.'] := fun c => by simp [points]
  rw [hpe]
  constructor
  · cases last
    · simp only [Bool.false_eq_true, if_false, (sepAfter_points h.sep _).1]
      simp only [List.append_nil, List.cons.injEq, and_true]
      omega
    · simp only [if_true, points, List.append_nil, List.cons.injEq, and_true]
      omega
  · cases last
    · simp only [Bool.false_eq_true, if_false, (sepAfter_points h.sep _).2]
      omega
    · simp only [if_true, col, List.flatMap_nil, advance, List.foldl_nil]
      omega

/-- Where the decimal points of column `j` are, counted from the start of the row. -/
def place (separator : Char) (cols : List (Int × Int)) : Nat → Nat
  | 0 => (cols[0]?.getD (0, 0)).1.toNat
  | j + 1 => ((List.range (j + 1)).map fun i => (cols[i]?.getD (0, 0)).1.toNat + (cols[i]?.getD (0, 0)).2.toNat + sepWidth separator).sum +
      (cols[j + 1]?.getD (0, 0)).1.toNat

/-- Columns wide enough for the elements. -/
def Wide (al : α → Int × Int) (data : List α) (cols : List (Int × Int)) (w : Nat) : Prop :=
  ∀ k x, data[k]? = some x → ∃ q, cols[k % w]? = some q ∧ (al x).1 ≤ q.1 ∧ (al x).2 ≤ q.2

theorem place_eq (separator : Char) (cols : List (Int × Int)) (j : Nat) : place separator cols j =
    ((List.range j).map fun i => (cols[i]?.getD (0, 0)).1.toNat + (cols[i]?.getD (0, 0)).2.toNat + sepWidth separator).sum + (cols[j]?.getD (0, 0)).1.toNat := by
  cases j <;> simp [place]

theorem row_points {bracket separator : Char} {fmt : α → List Char} {al : α → Int × Int} (h : Plain separator fmt al) {data : List α}
    {cols : List (Int × Int)} {d off : Nat} (hoff : d ∣ off) (hlen : off + d ≤ data.length) (hw : Wide al data cols d) (b : Nat) : ∀ n, n ≤ d →
    points bracket separator fmt ((List.range n).flatMap fun i => cellAt al separator data cols d (off + i) i) b = (List.range n).map (fun i => b + place separator cols i) ∧
    (n < d → col bracket separator fmt ((List.range n).flatMap fun i => cellAt al separator data cols d (off + i) i) b =
      b + ((List.range n).map fun i => (cols[i]?.getD (0, 0)).1.toNat + (cols[i]?.getD (0, 0)).2.toNat + sepWidth separator).sum)
  | 0, _ => ⟨rfl, fun _ => rfl⟩
  | n + 1, hn => by
    obtain ⟨h1, h2⟩ := row_points h hoff hlen hw b n (by omega)
    have h2 := h2 (by omega)
    have hx : data[off + n]? = some data[off + n] := List.getElem?_eq_getElem (by omega)
    obtain ⟨q, hq, hq1, hq2⟩ := hw (off + n) _ hx
    have hm : (off + n) % d = n := by
      obtain ⟨c, rfl⟩ := hoff
      rw [Nat.mul_add_mod, Nat.mod_eq_of_lt (by omega)]
    rw [hm] at hq
    have hcell : cellAt al separator data cols d (off + n) n = cell al separator q data[off + n] (decide (n + 1 = d)) := by
      unfold cellAt; rw [hq, hx]
    obtain ⟨p1, p2⟩ := cell_points (bracket := bracket) h (last := decide (n + 1 = d)) hq1 hq2
      (b + ((List.range n).map fun i => (cols[i]?.getD (0, 0)).1.toNat + (cols[i]?.getD (0, 0)).2.toNat + sepWidth separator).sum)
    rw [List.range_succ, List.flatMap_append, points_append, col_append, h1, h2]
    simp only [List.flatMap_cons, List.flatMap_nil, List.append_nil, List.map_append, List.map_cons, List.map_nil, List.sum_append, List.sum_cons, List.sum_nil]
    rw [hcell, p1, p2]
    refine ⟨?_, fun hlt => ?_⟩
    · congr 2
      rw [place_eq, hq]; simp only [Option.getD_some]; omega
    · rw [hq, decide_eq_false (by omega)]; simp only [Option.getD_some, Bool.false_eq_true, if_false]; omega

theorem opn_points {bracket separator : Char} {fmt : α → List Char} (c : Nat) :
    points bracket separator fmt [(.opn : Tok α)] c = [] ∧ col bracket separator fmt [(.opn : Tok α)] c = c + 1 :=
  ⟨rfl, by simp [col, Tok.text, advance, (brackets_plain bracket).1]⟩

theorem cls_points {bracket separator : Char} {fmt : α → List Char} (c : Nat) : points bracket separator fmt [(.cls : Tok α)] c = [] := rfl

theorem block_points {bracket separator : Char} {fmt : α → List Char} {al : α → Int × Int} (h : Plain separator fmt al) {data : List α}
    {cols : List (Int × Int)} : ∀ {e : List Nat} (hne : e ≠ []) {off indent : Nat} (_ : e.getLast hne ∣ off) (_ : off + count e ≤ data.length)
    (_ : Wide al data cols (e.getLast hne)),
    points bracket separator fmt (block al separator data cols e off indent) indent =
      (List.range (count e)).map fun k => indent + e.length + place separator cols (k % e.getLast hne)
  | [d], hne, off, indent, hoff, hlen, hw => by
    have hcd : count [d] = d := by simp [count]
    rw [hcd] at hlen ⊢
    simp only [List.getLast_singleton] at hoff hw ⊢
    rw [block, List.cons_append, ← List.singleton_append, points_append, points_append, cls_points, List.append_nil, (opn_points _).1, (opn_points _).2,
      (row_points h hoff hlen hw (indent + 1) d (Nat.le_refl d)).1]
    refine List.map_congr_left fun k hk => ?_
    rw [Nat.mod_eq_of_lt (List.mem_range.1 hk)]; rfl
  | d :: d' :: ds, hne, off, indent, hoff, hlen, hw => by
    have hcnt : count (d :: d' :: ds) = d * count (d' :: ds) := rfl
    rw [hcnt] at hlen ⊢
    have hgl : (d :: d' :: ds).getLast hne = (d' :: ds).getLast (by simp) := List.getLast_cons (by simp)
    rw [hgl] at hoff hw ⊢
    have hdv := last_dvd (e := d' :: ds) (by simp)
    rw [block, List.cons_append, ← List.singleton_append, points_append, points_append, cls_points, List.append_nil, (opn_points _).1, (opn_points _).2,
      range_mul_map, List.nil_append]
    have key : ∀ n, n ≤ d → points bracket separator fmt ((List.range n).flatMap fun i => (if i > 0 then spaces (indent + 1) else []) ++
        block al separator data cols (d' :: ds) (off + i * count (d' :: ds)) (indent + 1) ++
        if i + 1 = d then [] else lineAfter separator (ds.length + 2)) (indent + 1) =
        ((List.range n).flatMap fun i => (List.range (count (d' :: ds))).map fun k =>
          indent + (d :: d' :: ds).length + place separator cols ((i * count (d' :: ds) + k) % (d' :: ds).getLast (by simp))) ∧
        (n < d → n ≠ 0 → col bracket separator fmt ((List.range n).flatMap fun i => (if i > 0 then spaces (indent + 1) else []) ++
        block al separator data cols (d' :: ds) (off + i * count (d' :: ds)) (indent + 1) ++
        if i + 1 = d then [] else lineAfter separator (ds.length + 2)) (indent + 1) = 0) := by
      intro n
      induction n with
      | zero => exact fun _ => ⟨rfl, fun _ h => absurd rfl h⟩
      | succ n ih =>
        intro hn
        obtain ⟨i1, i2⟩ := ih (by omega)
        rw [List.range_succ, List.flatMap_append, List.flatMap_append, points_append, col_append, i1]
        simp only [List.flatMap_cons, List.flatMap_nil, List.append_nil]
        have hcol : ∀ c, (n = 0 → c = indent + 1) → (n ≠ 0 → c = 0) →
            col bracket separator fmt (if n > 0 then spaces (indent + 1) else [] : List (Tok α)) c = indent + 1 := by
          intro c c1 c2
          by_cases hn0 : n = 0
          · rw [if_neg (by omega), c1 hn0]; rfl
          · rw [if_pos (by omega), (spaces_points _ _).2, c2 hn0]; omega
        have hpre : ∀ c, points bracket separator fmt (if n > 0 then spaces (indent + 1) else [] : List (Tok α)) c = [] := by
          intro c
          split
          · exact (spaces_points _ _).1
          · rfl
        have hb : (n + 1) * count (d' :: ds) ≤ d * count (d' :: ds) := Nat.mul_le_mul_right _ hn
        have hs : (n + 1) * count (d' :: ds) = n * count (d' :: ds) + count (d' :: ds) := by rw [Nat.add_mul, Nat.one_mul]
        have hrec := block_points (bracket := bracket) h (e := d' :: ds) (by simp) (off := off + n * count (d' :: ds)) (indent := indent + 1)
          (Nat.dvd_add hoff (hdv.mul_left _)) (by omega) hw
        have hpost : ∀ c, points bracket separator fmt (if n + 1 = d then [] else lineAfter separator (ds.length + 2) : List (Tok α)) c = [] := by
          intro c
          split
          · rfl
          · exact (lineAfter_points _ _).1
        generalize hc0 : col bracket separator fmt ((List.range n).flatMap fun i => (if i > 0 then spaces (indent + 1) else []) ++
          block al separator data cols (d' :: ds) (off + i * count (d' :: ds)) (indent + 1) ++
          if i + 1 = d then [] else lineAfter separator (ds.length + 2)) (indent + 1) = c0 at i2 ⊢
        have hc1 : n = 0 → c0 = indent + 1 := by
          rintro rfl
          rw [← hc0]; rfl
        have hc2 : n ≠ 0 → c0 = 0 := fun hz => i2 (by omega) hz
        rw [points_append, points_append, col_append, hpost, hpre, hcol _ hc1 hc2, hrec]
        refine ⟨?_, fun hlt _ => ?_⟩
        · simp only [List.nil_append, List.append_nil]
          congr 1
          refine List.map_congr_left fun k hk => ?_
          obtain ⟨m, hm⟩ := hdv
          have : (n * count (d' :: ds) + k) % (d' :: ds).getLast (by simp) = k % (d' :: ds).getLast (by simp) := by
            rw [hm, ← Nat.mul_assoc, Nat.mul_comm n, Nat.mul_assoc, Nat.mul_add_mod]
          rw [this]
          simp only [List.length_cons]; omega
        · rw [col_append, if_neg (by omega), (lineAfter_points _ _).2]
    exact (key d (Nat.le_refl d)).1

/-! ### Whole arrays -/

/-- Enough columns, wide enough. -/
theorem cols_ok {α : Type} (al : α → Int × Int) {data : List α} {e : List Nat} (hne : e ≠ []) (hl : data.length = count e) :
    (∀ h : e ≠ [], 0 < count e → e.getLast h ≤ (foldCols al data (e.getLast hne) 0 (count e) []).length) ∧
    Wide al data (foldCols al data (e.getLast hne) 0 (count e) []) (e.getLast hne) := by
  by_cases hw : 0 < e.getLast hne
  · obtain ⟨h1, h2⟩ := foldCols_spec al data hw (count e) (by omega)
    refine ⟨fun _ hp => ?_, fun k x hx => ?_⟩
    · have := Nat.le_of_dvd hp (last_dvd hne)
      rw [h1]; omega
    · obtain ⟨hk, -⟩ := List.getElem?_eq_some_iff.1 hx
      exact h2 k (by omega) x hx
  · refine ⟨fun _ _ => by omega, fun k x hx => ?_⟩
    obtain ⟨hk, -⟩ := List.getElem?_eq_some_iff.1 hx
    have h0 : e.getLast hne = 0 := by omega
    have := last_dvd hne
    rw [h0, Nat.zero_dvd] at this
    omega

theorem toTokens_rows {α : Type} {asserts : Bool} {al : α → Int × Int} {separator : Char} {data : List α} {v : View} {e : List Nat} (hne : e ≠ [])
    (hr : Rows asserts v e 0) (hl : data.length = count e) :
    toTokens asserts al separator data v = .ok (block al separator data (foldCols al data (e.getLast hne) 0 (count e) []) e 0 0) := by
  have hnd : ndim v.shape = e.length := by rw [ndim_eq, hr.ext_eq]
  unfold toTokens
  rw [hnd, colWidths_ok hne (by omega) hr (by omega), Out.ok_bind, write_ok (by omega) hr (by omega) (cols_ok al hne hl).1]
  rfl

/-- **C55**: printing an array never fails, writes nested brackets exactly as the shape says, and inside them every element once, in row-major order.
This covers every shape with at least one dimension and fewer than 2^32 elements, also shapes with extent 0, any element type and any separator.
Missing: 0-dimensional arrays (`C55_zero_dim`). -/
theorem C55_print_partial {α : Type} (asserts : Bool) (al : α → Int × Int) (separator : Char) (data : List α) (s : AnyShape)
    (hn : ext s ≠ []) (hc : count (ext s) < two32) (hl : data.length = count (ext s)) :
    ∃ out, arrayTokens asserts al separator data s = .ok out ∧ bare out = nest data (ext s) 0 ∧ elems out = data := by
  obtain ⟨v, h1, -, h2⟩ := rows_ofArray (asserts := asserts) hn hc
  have h3 := toTokens_rows (al := al) (separator := separator) hn h2 hl
  refine ⟨_, by rw [arrayTokens, h1, Out.ok_bind, h3], ?_⟩
  have h4 := bare_block (al := al) (separator := separator) (data := data) (ext s) 0 0 (by omega) (cols_ok al hn hl).1
  refine ⟨h4, ?_⟩
  rw [← elems_bare, h4, elems_nest _ _ (by omega), slice_eq (by omega), List.drop_zero, List.take_of_length_le (by omega)]

example : ∃ out, arrayTokens true (fun _ : Nat => (1, 0)) ' ' [1, 2, 3, 4, 5, 6] (.shape [2, 3]) = .ok out ∧
    bare out = [.opn, .opn, .elem 1, .elem 2, .elem 3, .cls, .opn, .elem 4, .elem 5, .elem 6, .cls, .cls] := by
  obtain ⟨out, h1, h2, -⟩ := C55_print_partial true (fun _ : Nat => (1, 0)) ' ' [1, 2, 3, 4, 5, 6] (.shape [2, 3]) (by decide) (by decide) (by decide)
  exact ⟨out, h1, h2⟩

/-- The alignment the code computes for `kind`. -/
def alignOf (kind : Kind) (fmt : α → List Char) (x : α) : Int × Int := alignment kind (fmt x)

/-- The alignment part of C55 for element types of one kind: elements of the same column of the array are printed with their decimal points in the
same column of the output. The text of an integer has no decimal point, and no element's text has a line break. -/
def C55AlignClaim (kind : Kind) : Prop :=
  ∀ (α : Type) (asserts : Bool) (bracket separator : Char) (fmt : α → List Char) (data : List α) (s : AnyShape) (hn : ext s ≠ []),
    separator ≠ '\n' → (∀ x, '\n' ∉ fmt x) → (kind = .integral → ∀ x, '.' ∉ fmt x) → count (ext s) < two32 → data.length = count (ext s) →
    ∃ out, arrayTokens asserts (alignOf kind fmt) separator data s = .ok out ∧ (points bracket separator fmt out 0).length = data.length ∧
      Aligned ((ext s).getLast hn) (points bracket separator fmt out 0)

theorem aligned_map {w n : Nat} {f : Nat → Nat} : Aligned w ((List.range n).map fun k => f (k % w)) := by
  intro i j hij p q hp hq
  rw [List.getElem?_map] at hp hq
  obtain ⟨a, ha, rfl⟩ := Option.map_eq_some_iff.1 hp
  obtain ⟨b, hb, rfl⟩ := Option.map_eq_some_iff.1 hq
  obtain ⟨_, rfl⟩ := List.getElem?_eq_some_iff.1 ha
  obtain ⟨_, rfl⟩ := List.getElem?_eq_some_iff.1 hb
  simp [hij]

theorem plain_of {kind : Kind} (hk : kind ≠ .other) {separator : Char} {fmt : α → List Char} (hs : separator ≠ '\n') (hf : ∀ x, '\n' ∉ fmt x)
    (hi : kind = .integral → ∀ x, '.' ∉ fmt x) : Plain separator fmt (alignOf kind fmt) := by
  refine ⟨hs, hf, fun x => ?_, fun x => ?_⟩
  · cases kind with
    | integral => simp [alignOf, alignment, List.idxOf_eq_length (hi rfl x)]
    | floating =>
      by_cases h : '.' ∈ fmt x
      · simp [alignOf, alignment, h]
      · simp [alignOf, alignment, h, List.idxOf_eq_length h]
    | other => exact absurd rfl hk
  · cases kind with
    | integral => simp [alignOf, alignment, List.idxOf_eq_length (hi rfl x)]
    | floating =>
      by_cases h : '.' ∈ fmt x
      · simp [alignOf, alignment, h]
      · simp [alignOf, alignment, h, List.idxOf_eq_length h]
    | other => exact absurd rfl hk

/-- **C55**, alignment: integer and floating-point elements of one column are aligned at the decimal point, for every shape and content. -/
theorem C55_aligned_partial {kind : Kind} (hk : kind ≠ .other) : C55AlignClaim kind := by
  intro α asserts bracket separator fmt data s hn hs hf hi hc hl
  obtain ⟨v, h1, -, h2⟩ := rows_ofArray (asserts := asserts) hn hc
  have h3 := toTokens_rows (al := alignOf kind fmt) (separator := separator) hn h2 hl
  refine ⟨_, by rw [arrayTokens, h1, Out.ok_bind, h3], ?_⟩
  rw [block_points (plain_of hk hs hf hi) hn (Nat.dvd_zero _) (by omega) (cols_ok _ hn hl).2]
  exact ⟨by simp [hl], aligned_map (f := fun k => 0 + (ext s).length + place separator _ k)⟩

/-- Text for the examples: `true` is written with one character, `false` with two. -/
def twoTexts : Bool → List Char
  | true => ['1']
  | false => ['1', '2']

example : ∃ out, arrayTokens true (alignOf .integral twoTexts) ' ' [true, true, false, true] (.shape [2, 2]) = .ok out ∧
    points 's' ' ' twoTexts out 0 = [4, 6, 4, 6] := by
  refine ⟨[.opn, .opn, .space, .elem true, .space, .elem true, .cls, .newline, .space, .opn, .elem false, .space, .elem true, .cls, .cls], ?_, ?_⟩ <;>
    decide +kernel

/-- Elements of any other type (complex numbers, half precision, dual numbers, …) are not aligned: the code takes their width to be zero. -/
theorem C55_other_aligned_false : ¬ C55AlignClaim .other := by
  intro h
  obtain ⟨out, h1, -, h3⟩ := h Bool true 's' ' ' twoTexts [true, true, false, true] (.shape [2, 2]) (by decide) (by decide)
    (by intro x; cases x <;> decide) (by intro h; cases h) (by decide) (by decide)
  have h4 : arrayTokens true (alignOf .other twoTexts) ' ' [true, true, false, true] (.shape [2, 2]) =
      .ok [.opn, .opn, .elem true, .space, .elem true, .cls, .newline, .space, .opn, .elem false, .space, .elem true, .cls, .cls] := by decide +kernel
  rw [h4] at h1
  have h5 := Out.ok.inj h1
  subst h5
  have h6 := h3 1 3 (by decide) 5 6 (by decide +kernel) (by decide +kernel)
  exact absurd h6 (by decide)

/-- Printing a view, also a 0-dimensional one as subscripting all dimensions gives: brackets and elements are those of the view. -/
theorem C55_view {α : Type} (asserts : Bool) (al : α → Int × Int) (separator : Char) (data : List α) {v : View} {e : List Nat} {off : Nat}
    (hv : IsView v e off) (hl : off + count e ≤ data.length) :
    ∃ out, toTokens asserts al separator data v = .ok out ∧ bare out = nest data e off ∧ elems out = (data.drop off).take (count e) := by
  have hr := rows_isView (asserts := asserts) hv
  have hnd : ndim v.shape = e.length := by rw [ndim_eq, hr.ext_eq]
  have fin : ∀ out, bare out = nest data e off → elems out = (data.drop off).take (count e) := fun out h => by
    rw [← elems_bare, h, elems_nest _ _ hl, slice_eq hl]
  by_cases hne : e = []
  · subst hne
    refine ⟨_, by
      unfold toTokens
      rw [hnd, colWidths.eq_def]
      dsimp only
      rw [if_neg (by rw [hnd]; decide), if_neg (by rw [hnd]; decide), Out.ok_bind, write_ok (by decide) hr hl (fun h => absurd rfl h)], ?_⟩
    have := bare_block (al := al) (separator := separator) (data := data) (cols := []) [] off 0 hl (fun h => absurd rfl h)
    exact ⟨this, fin _ this⟩
  · have hpos := hv.pos
    have hcols : ∀ h : e ≠ [], 0 < count e → e.getLast h ≤ (foldCols al data (e.getLast hne) off (count e) []).length := by
      intro _ _
      have hw : 0 < e.getLast hne := Nat.pos_of_dvd_of_pos (last_dvd hne) hpos
      have hle := Nat.le_of_dvd hpos (last_dvd hne)
      have hshift : foldCols al data (e.getLast hne) off (count e) [] = foldCols al (data.drop off) (e.getLast hne) 0 (count e) [] := by
        unfold foldCols
        simp only [List.getElem?_drop, Nat.zero_add]
      have := (foldCols_spec al (data.drop off) hw (count e) (by simp; omega)).1
      rw [hshift, this]; omega
    refine ⟨_, by
      unfold toTokens
      rw [hnd, colWidths_ok hne (by omega) hr hl, Out.ok_bind, write_ok (by omega) hr hl hcols], ?_⟩
    have := bare_block (al := al) (separator := separator) e off 0 hl hcols
    exact ⟨this, fin _ this⟩

/-- A 0-dimensional array cannot be printed: computing its stride writes in front of an array on the stack. -/
theorem C55_zero_dim {α : Type} (asserts : Bool) (al : α → Int × Int) (separator : Char) (data : List α) :
    arrayTokens asserts al separator data (.shape []) = .ub := rfl

/-- A format specification must be shorter than 16 characters; a longer one is written past the end of the formatter. -/
theorem C55_spec_iff (spec : List Char) : (∃ r, parseSpec spec = .ok r) ↔ spec.length < 16 := by
  unfold parseSpec
  by_cases h : spec.length < 16
  · rw [if_pos h]; exact ⟨fun _ => h, fun _ => ⟨_, rfl⟩⟩
  · rw [if_neg h]; exact ⟨fun ⟨_, hr⟩ => (by cases hr), fun h' => absurd h' h⟩

end Verif.Print
