import Verif.Model.TransposeSimd
import Verif.Lemmas.Transpose
import Mathlib.Tactic.FinCases
import Mathlib.Data.Fintype.Basic

/-! The vectorised transposes of square (or small) matrices. -/

namespace Verif.TransM

open Conc

variable {α : Type}

/-! ### The kernels -/

theorem avx2Float_eq (x : Fin 8 → Fin 8 → α) (k i : Fin 8) : avx2Float x k i = x i k := by
  fin_cases k <;> fin_cases i <;> rfl

theorem sseFloat_eq (x : Fin 4 → Fin 4 → α) (k i : Fin 4) : sseFloat x k i = x i k := by
  fin_cases k <;> fin_cases i <;> rfl

theorem neonFloat_eq (x : Fin 4 → Fin 4 → α) (k i : Fin 4) : neonFloat x k i = x i k := by
  fin_cases k <;> fin_cases i <;> rfl

theorem twoByTwo_eq (x : Fin 2 → Fin 2 → α) (k i : Fin 2) : twoByTwo x k i = x i k := by
  fin_cases k <;> fin_cases i <;> rfl

/-! ### Programs -/

theorem bind_assoc {β γ δ : Type} (p : Prog α β) (f : β → Prog α γ) (g : γ → Prog α δ) :
    (p.bind f).bind g = p.bind fun b => (f b).bind g := by
  induction p with
  | ret b => rfl
  | fail => rfl
  | read a k ih => simp only [Prog.bind]; congr 1; funext v; exact ih v
  | write a v k ih => simp only [Prog.bind]; rw [ih]

theorem run_collect {β : Type} {n : Nat} {p : Fin n → Prog α β} {m : Mem α} {f : Fin n → β} (h : ∀ i, run (p i) m = .ok (f i, m)) :
    run (collect n p) m = .ok (f, m) := by
  induction n with
  | zero =>
    simp only [collect, run]
    congr 2
    funext i
    exact i.elim0
  | succ n ih =>
    have e := ih fun i => h i.succ
    have e1 : ∀ q : β → Prog α (Fin (n + 1) → β), run ((p 0).bind q) m = run (q (f 0)) m := fun q => by rw [run_bind, h 0]; rfl
    have e2 : ∀ q : (Fin n → β) → Prog α (Fin (n + 1) → β), run ((collect n fun i => p i.succ).bind q) m = run (q fun i => f i.succ) m :=
      fun q => by rw [run_bind, e]; rfl
    rw [collect, e1, e2, run]
    congr 2
    funext i
    cases i using Fin.cases <;> rfl

theorem does_collect {β : Type} {Pre : Mem α → Prop} {n : Nat} {S : Fin n → Addr → Prop} {val : Addr → α} {p : Fin n → Prog α β}
    (h : ∀ i, Does Pre (S i) val ((p i).bind fun _ => .ret ())) :
    Does Pre (fun a => ∃ i, S i a) val ((collect n p).bind fun _ => .ret ()) := by
  induction n with
  | zero => exact does_ret.congr fun a => ⟨False.elim, fun ⟨i, _⟩ => i.elim0⟩
  | succ n ih =>
    have h1 := does_bind (h 0) (q := fun _ => (collect n fun i => p i.succ).bind fun _ => .ret ()) (ih fun i => h i.succ)
    rw [bind_assoc] at h1
    simp only [collect, bind_assoc]
    refine h1.congr fun a => ⟨?_, ?_⟩
    · rintro (h | ⟨i, h⟩)
      · exact ⟨0, h⟩
      · exact ⟨i.succ, h⟩
    · rintro ⟨i, h⟩
      cases i using Fin.cases with
      | zero => exact .inl h
      | succ i => exact .inr ⟨i, h⟩

theorem fits_collect {β : Type} {R W : Addr → Prop} {n : Nat} {p : Fin n → Prog α β} (h : ∀ i, Fits R W (p i)) :
    Fits R W (collect n p) := by
  induction n with
  | zero => trivial
  | succ n ih =>
    exact Fits.bind (h 0) fun _ => Fits.bind (ih fun i => h i.succ) fun _ => trivial

/-! ### The loops -/

/-- The block containing `x` is complete. -/
def Full (w n x : Nat) : Prop := x / w * w + w ≤ n

instance (w n x : Nat) : Decidable (Full w n x) := inferInstanceAs (Decidable (_ ≤ _))

theorem full_iff {w n x i : Nat} (hw : 0 < w) (hi : i ∈ indices 0 n w) (h1 : i ≤ x) (h2 : x < i + w) : Full w n x ↔ i + w ≤ n := by
  obtain ⟨k, rfl, _⟩ := (mem_indices_mul hw).1 hi
  have : x / w = k := by
    apply Nat.div_eq_of_lt_le
    · omega
    · rw [Nat.add_mul]; omega
  unfold Full
  rw [this]
  simp

/-- What each element of the target ends up as: `f row col` of the element of the source. -/
def sval (f : Nat → Nat → α → α) (m0 : Mem α) (src rows cols : Nat) (alpha : α) (a : Addr) : α :=
  match (m0 src)[(a.2 % rows) * cols + a.2 / rows]? with
  | some v => f (a.2 % rows) (a.2 / rows) v
  | none => alpha

theorem sval_eq {f : Nat → Nat → α → α} {m0 : Mem α} {src dst rows cols : Nat} {alpha v : α} {row col : Nat} (hr : row < rows)
    (hv : (m0 src)[row * cols + col]? = some v) :
    sval f m0 src rows cols alpha (dst, col * rows + row) = f row col v := by
  have h1 : (col * rows + row) % rows = row := by rw [Nat.mul_add_mod_self_right]; exact Nat.mod_eq_of_lt hr
  have h2 : (col * rows + row) / rows = col := by
    rw [Nat.mul_comm, Nat.mul_add_div (by omega), Nat.div_eq_of_lt hr, Nat.add_zero]
  unfold sval
  simp only [h1, h2, hv]

theorem does_write {Pre : Mem α → Prop} {val : Addr → α} {a : Addr} {v : α} (hin : ∀ m, Pre m → ∃ o, m.get? a = some o)
    (hpre : ∀ m, Pre m → Pre (m.set a v)) (hv : v = val a) : Does Pre (fun b => b = a) val (.write a v (.ret ())) := by
  intro m hm
  obtain ⟨o, ho⟩ := hin m hm
  refine ⟨m.set a v, by simp only [run, ho], hpre m hm, ?_, fun b hb => get?_set_ne hb⟩
  rintro b rfl
  rw [get?_set_self ho, hv]

theorem pre_set {m0 m : Mem α} {src dst n i : Nat} {v : α} (hne : src ≠ dst) (h : Pre m0 src dst n m) :
    Pre m0 src dst n (m.set (dst, i) v) :=
  ⟨by rw [set_other (by exact hne)]; exact h.1, by rw [length_set]; exact h.2⟩

/-- The value function of the vectorised versions. -/
def simdVal (s : Simd α) (mul : α → α → α) (rows cols : Nat) (alpha : α) (row col : Nat) (v : α) : α :=
  if Full s.w rows row ∧ Full s.w cols col then mul v alpha else edgeMul s mul v alpha

theorem does_edge {f : Nat → Nat → α → α} {mul' : α → α → α} {m0 : Mem α} {src dst rows cols : Nat} {alpha : α} (hne : src ≠ dst)
    (hsrc : (m0 src).length = rows * cols) {row col : Nat} (hr : row < rows) (hc : col < cols)
    (hf : ∀ v, f row col v = mul' v alpha) :
    Does (Pre m0 src dst (rows * cols)) (fun a => a = (dst, col * rows + row)) (sval f m0 src rows cols alpha)
      (cell mul' src dst rows cols alpha row col) := by
  rintro m hm
  have hp : row * cols + col < (m0 src).length := by
    rw [hsrc, Nat.mul_comm rows cols]
    exact pos_lt hc hr
  have g1 : m.get? (src, row * cols + col) = some (m0 src)[row * cols + col] := by
    simp only [Mem.get?, hm.1]
    exact List.getElem?_eq_getElem hp
  have hw := does_write (Pre := Pre m0 src dst (rows * cols)) (val := sval f m0 src rows cols alpha) (a := (dst, col * rows + row))
    (v := mul' (m0 src)[row * cols + col] alpha)
    (fun m hm => ⟨_, List.getElem?_eq_getElem (by rw [hm.2]; exact pos_lt hr hc)⟩) (fun m hm => pre_set hne hm)
    (by rw [sval_eq hr (List.getElem?_eq_getElem hp), hf])
  obtain ⟨m', h1, h2⟩ := hw m hm
  refine ⟨m', ?_, h2⟩
  simp only [cell, run, g1] at h1 ⊢
  exact h1

theorem does_kernel {s : Simd α} {mul : α → α → α} {f : Nat → Nat → α → α} {m0 : Mem α} {src dst n : Nat} {alpha : α} (hne : src ≠ dst)
    (hal : s.align = 1) (hF : ∀ x k i, s.F x k i = x i k) (hsrc : (m0 src).length = n * n) {i j : Nat} (hi : i + s.w ≤ n)
    (hj : j + s.w ≤ n) (hf : ∀ row col v, i ≤ row → row < i + s.w → j ≤ col → col < j + s.w → f row col v = mul v alpha) :
    Does (Pre m0 src dst (n * n)) (fun a => ∃ row ∈ blockRange i s.w n, ∃ col ∈ blockRange j s.w n, a = (dst, col * n + row))
      (sval f m0 src n n alpha) (kernel s mul src dst (i * n + j) (j * n + i) alpha n) := by
  intro m hm
  have hlt : ∀ (r c : Fin s.w), (i + r.val) * n + (j + c.val) < (m0 src).length := by
    intro r c
    rw [hsrc]
    exact pos_lt (by omega) (by omega)
  have hadd : ∀ r c : Nat, i * n + j + r * n + c = (i + r) * n + (j + c) := by
    intro r c
    rw [Nat.add_mul]
    omega
  have hadd' : ∀ r c : Nat, j * n + i + r * n + c = (j + r) * n + (i + c) := by
    intro r c
    rw [Nat.add_mul]
    omega
  have hload : run (collect s.w fun r => collect s.w fun c => load (src, i * n + j + r.val * n + c.val)) m =
      .ok (fun r c => (m0 src)[(i + r.val) * n + (j + c.val)]'(hlt r c), m) := by
    refine run_collect fun r => run_collect fun c => ?_
    have : m.get? (src, i * n + j + r.val * n + c.val) = some ((m0 src)[(i + r.val) * n + (j + c.val)]'(hlt r c)) := by
      simp only [Mem.get?, hm.1, hadd]
      exact List.getElem?_eq_getElem (hlt r c)
    simp only [load, run, this]
  have hst : Does (Pre m0 src dst (n * n)) (fun a => ∃ k : Fin s.w, ∃ l : Fin s.w, a = (dst, j * n + i + k.val * n + l.val))
      (sval f m0 src n n alpha)
      ((collect s.w fun k => storeRow s mul dst (j * n + i + k.val * n)
        (s.F (fun r c => (m0 src)[(i + r.val) * n + (j + c.val)]'(hlt r c)) k) alpha).bind fun _ => .ret ()) := by
    refine does_collect fun k => ?_
    unfold storeRow
    rw [hal, if_pos (Nat.mod_one _)]
    refine does_collect fun l => ?_
    simp only [Prog.bind]
    refine does_write (fun m hm => ?_) (fun m hm => pre_set hne hm) ?_
    · refine ⟨_, List.getElem?_eq_getElem (h := ?_)⟩
      rw [hadd', hm.2]
      exact pos_lt (by omega) (by omega)
    · rw [hF, hadd', sval_eq (by omega) (List.getElem?_eq_getElem (hlt l k)),
        hf (i + l.val) (j + k.val) _ (by omega) (by omega) (by omega) (by omega)]
  obtain ⟨m', h1, h2, h3, h4⟩ := hst m hm
  have hS : ∀ a : Addr, (∃ row ∈ blockRange i s.w n, ∃ col ∈ blockRange j s.w n, a = (dst, col * n + row)) ↔
      ∃ k : Fin s.w, ∃ l : Fin s.w, a = (dst, j * n + i + k.val * n + l.val) := by
    intro a
    constructor
    · rintro ⟨row, hr, col, hc, rfl⟩
      obtain ⟨r1, r2, -⟩ := mem_blockRange.1 hr
      obtain ⟨c1, c2, -⟩ := mem_blockRange.1 hc
      refine ⟨⟨col - j, by omega⟩, ⟨row - i, by omega⟩, ?_⟩
      rw [hadd']
      simp only
      rw [show j + (col - j) = col by omega, show i + (row - i) = row by omega]
    · rintro ⟨k, l, rfl⟩
      exact ⟨i + l.val, mem_blockRange.2 (by omega), j + k.val, mem_blockRange.2 (by omega), by rw [hadd']⟩
  refine ⟨m', ?_, h2, fun a ha => h3 a ((hS a).1 ha), fun a ha => h4 a fun h => ha ((hS a).2 h)⟩
  unfold kernel
  rw [run_bind, hload]
  exact h1

/-- The shapes on which the kernel's single stride is right, or the kernel is never used. -/
def StrideOk (w rows cols : Nat) : Prop := rows = cols ∨ rows < w ∨ cols < w

theorem does_simdBlock {s : Simd α} {mul : α → α → α} {m0 : Mem α} {src dst rows cols : Nat} {alpha : α} (hne : src ≠ dst)
    (hw : 0 < s.w) (hal : s.align = 1) (hF : ∀ x k i, s.F x k i = x i k) (hsrc : (m0 src).length = rows * cols)
    (hok : StrideOk s.w rows cols) {i j : Nat} (hi : i ∈ indices 0 rows s.w) (hj : j ∈ indices 0 cols s.w) :
    Does (Pre m0 src dst (rows * cols))
      (fun a => ∃ row ∈ blockRange i s.w rows, ∃ col ∈ blockRange j s.w cols, a = (dst, col * rows + row))
      (sval (simdVal s mul rows cols alpha) m0 src rows cols alpha) (simdBlock s mul src dst rows cols alpha i j) := by
  unfold simdBlock
  split
  · rename_i h
    rcases hok with rfl | h' | h'
    · refine does_kernel hne hal hF hsrc h.1 h.2 fun row col v a1 a2 a3 a4 => ?_
      unfold simdVal
      rw [if_pos ⟨(full_iff hw hi a1 a2).2 h.1, (full_iff hw hj a3 a4).2 h.2⟩]
    · omega
    · omega
  · rename_i h
    unfold block
    refine does_seqAll (S := fun row a => ∃ col ∈ blockRange j s.w cols, a = (dst, col * rows + row)) fun row hrow => ?_
    refine does_seqAll (S := fun col a => a = (dst, col * rows + row)) fun col hcol => ?_
    obtain ⟨r1, r2, r3⟩ := mem_blockRange.1 hrow
    obtain ⟨c1, c2, c3⟩ := mem_blockRange.1 hcol
    refine does_edge hne hsrc r3 c3 fun v => ?_
    unfold simdVal
    rw [if_neg]
    rintro ⟨f1, f2⟩
    exact h ⟨(full_iff hw hi r1 r2).1 f1, (full_iff hw hj c1 c2).1 f2⟩

theorem does_simdRow {s : Simd α} {mul : α → α → α} {m0 : Mem α} {src dst rows cols : Nat} {alpha : α} (hne : src ≠ dst)
    (hw : 0 < s.w) (hal : s.align = 1) (hF : ∀ x k i, s.F x k i = x i k) (hsrc : (m0 src).length = rows * cols)
    (hok : StrideOk s.w rows cols) {i : Nat} (hi : i ∈ indices 0 rows s.w) :
    Does (Pre m0 src dst (rows * cols)) (Band dst rows cols s.w i) (sval (simdVal s mul rows cols alpha) m0 src rows cols alpha)
      (simdRow s mul src dst rows cols alpha i) := by
  unfold simdRow
  refine (does_seqAll fun j hj => does_simdBlock hne hw hal hF hsrc hok hi hj).congr ?_
  intro a
  constructor
  · rintro ⟨j, _, row, hrow, col, hcol, rfl⟩
    exact ⟨row, col, (mem_blockRange.1 hrow).1, (mem_blockRange.1 hrow).2.1, (mem_blockRange.1 hrow).2.2,
      (mem_blockRange.1 hcol).2.2, rfl⟩
  · rintro ⟨row, col, h1, h2, h3, h4, rfl⟩
    obtain ⟨j, hj, h5, h6⟩ := block_of hw h4
    exact ⟨j, hj, row, mem_blockRange.2 ⟨h1, h2, h3⟩, col, mem_blockRange.2 ⟨h5, h6, h4⟩, rfl⟩

theorem fits_simdRow {s : Simd α} {mul : α → α → α} {src dst rows cols : Nat} {alpha : α} (hal : s.align = 1)
    (hok : StrideOk s.w rows cols) (i : Nat) :
    Fits (fun a => a.1 = src) (Band dst rows cols s.w i) (simdRow s mul src dst rows cols alpha i) := by
  unfold simdRow
  refine fits_seqAll fun j _ => ?_
  unfold simdBlock
  split
  · rename_i h
    have hsq : rows = cols := by
      rcases hok with h' | h' | h'
      · exact h'
      · omega
      · omega
    subst hsq
    unfold kernel
    refine Fits.bind (fits_collect fun r => fits_collect fun c => ⟨.inl rfl, fun _ => trivial⟩) fun x => ?_
    refine Fits.bind (fits_collect fun k => ?_) fun _ => trivial
    unfold storeRow
    rw [hal, if_pos (Nat.mod_one _)]
    refine fits_collect fun l => ⟨?_, trivial⟩
    refine ⟨i + l.val, j + k.val, by omega, by omega, by omega, by omega, ?_⟩
    rw [Nat.add_mul, show j * rows + i + k.val * rows + l.val = j * rows + k.val * rows + (i + l.val) by omega]
  · unfold block
    refine fits_seqAll fun row hrow => fits_seqAll fun col hcol => ⟨.inl rfl, fun v => ⟨?_, trivial⟩⟩
    exact ⟨row, col, (mem_blockRange.1 hrow).1, (mem_blockRange.1 hrow).2.1, (mem_blockRange.1 hrow).2.2,
      (mem_blockRange.1 hcol).2.2, rfl⟩

theorem simd_loop {s : Simd α} {mul : α → α → α} {m0 : Mem α} {src dst rows cols : Nat} {alpha : α} (hne : src ≠ dst)
    (hw : 0 < s.w) (hal : s.align = 1) (hF : ∀ x k i, s.F x k i = x i k)
    (hsrc : (m0 src).length = rows * cols) (hdst : (m0 dst).length = rows * cols) (hok : StrideOk s.w rows cols) :
    ∃ res, LoopOK (simdRow s mul src dst rows cols alpha) (indices 0 rows s.w) (fun _ a => a.1 = src)
        (Band dst rows cols s.w) m0 res ∧ (res dst).length = rows * cols ∧
      (∀ row col v, row < rows → col < cols → (m0 src)[row * cols + col]? = some v →
        (res dst)[col * rows + row]? = some (simdVal s mul rows cols alpha row col v)) ∧
      ∀ id, id ≠ dst → res id = m0 id := by
  obtain ⟨res, h1, h2, h3, h4⟩ := loop_of_does (Pre := Pre m0 src dst (rows * cols)) (R := fun _ a => a.1 = src)
    (S := Band dst rows cols s.w) (val := sval (simdVal s mul rows cols alpha) m0 src rows cols alpha)
    (body := simdRow s mul src dst rows cols alpha) (its := indices 0 rows s.w) (m0 := m0) nodup_indices ⟨rfl, hdst⟩
    (fun i hi => does_simdRow hne hw hal hF hsrc hok hi) (fun i _ => fits_simdRow hal hok i) (by
      rintro i hi j hj hij a ⟨row, col, b1, b2, b3, b4, rfl⟩
      refine ⟨?_, fun h => hne h.symm⟩
      rintro ⟨row', col', c1, c2, c3, c4, hh⟩
      have := pos_inj b3 c3 (Prod.mk.inj hh).2
      obtain ⟨rfl, rfl⟩ := this
      exact hij (block_unique hw hi hj b1 b2 c1 c2))
  refine ⟨res, h1, h2.2, ?_, ?_⟩
  · intro row col v hr hc hv
    obtain ⟨i, hi, c1, c2⟩ := block_of hw hr
    have := h3 (dst, col * rows + row) ⟨i, hi, row, col, c1, c2, hr, hc, rfl⟩
    rw [sval_eq hr hv] at this
    exact this
  · intro id hid
    apply List.ext_getElem?
    intro q
    exact h4 (id, q) (by
      rintro ⟨i, _, row, col, _, _, _, _, hh⟩
      exact hid (Prod.mk.inj hh).1)

end Verif.TransM
