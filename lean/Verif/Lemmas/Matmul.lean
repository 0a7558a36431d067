import Verif.Model.Matmul
import Verif.Lemmas.Transpose

/-! The generic BLAS routines, element by element and without using any law of the scalars. -/

namespace Verif.MulM

open ShapeM Conc TransM

/-- `m'` is `m` with elements `addr i`, `i ∈ L`, of array `c` replaced by `f i` of what they were. -/
structure After {α : Type} (c : Nat) (m : Mem α) (L : List Nat) (addr : Nat → Nat) (f : Nat → α → α) (m' : Mem α) : Prop where
  others : ∀ id, id ≠ c → m' id = m id
  len : (m' c).length = (m c).length
  upd : ∀ i ∈ L, ∀ v, (m c)[addr i]? = some v → (m' c)[addr i]? = some (f i v)
  rest : ∀ q : Nat, (∀ i ∈ L, q ≠ addr i) → (m' c)[q]? = (m c)[q]?

theorem after_set {α : Type} {c : Nat} {m : Mem α} {q : Nat} {v : α} (hq : q < (m c).length) :
    ((m.set (c, q) v) c)[q]? = some v ∧ ∀ p : Nat, p ≠ q → ((m.set (c, q) v) c)[p]? = (m c)[p]? := by
  constructor
  · exact get?_set_self (a := (c, q)) (List.getElem?_eq_getElem hq)
  · intro p hp
    exact get?_set_ne (a := (c, q)) (b := (c, p)) (fun h => hp (Prod.mk.inj h).2)

/-- Running updates of distinct elements one after the other. -/
theorem upd_seqAll {α : Type} {c : Nat} {m0 m : Mem α} {addr : Nat → Nat} {f : Nat → α → α} {body : Nat → Prog α Unit} {L : List Nat}
    (hn : L.Nodup) (hinj : ∀ i ∈ L, ∀ j ∈ L, addr i = addr j → i = j)
    (hb : ∀ i ∈ L, ∀ m : Mem α, (∀ id, id ≠ c → m id = m0 id) → ∀ v, (m c)[addr i]? = some v →
      run (body i) m = .ok ((), m.set (c, addr i) (f i v)))
    (hm : ∀ id, id ≠ c → m id = m0 id) (hin : ∀ i ∈ L, addr i < (m c).length) :
    ∃ m', run (seqAll body L) m = .ok ((), m') ∧ After c m L addr f m' := by
  induction L generalizing m with
  | nil => exact ⟨m, rfl, fun _ _ => rfl, rfl, by simp, fun _ _ => rfl⟩
  | cons i L ih =>
    obtain ⟨hi, hn'⟩ := List.nodup_cons.1 hn
    have hlt := hin i List.mem_cons_self
    obtain ⟨s1, s2⟩ := after_set (v := f i ((m c)[addr i])) hlt
    obtain ⟨m', hr, ha⟩ := ih hn' (fun x hx y hy => hinj x (List.mem_cons_of_mem _ hx) y (List.mem_cons_of_mem _ hy))
      (fun x hx => hb x (List.mem_cons_of_mem _ hx)) (m := m.set (c, addr i) (f i ((m c)[addr i])))
      (fun id hid => by rw [set_other (by exact hid)]; exact hm id hid)
      (fun x hx => by rw [length_set]; exact hin x (List.mem_cons_of_mem _ hx))
    have hne : ∀ j ∈ L, addr j ≠ addr i := by
      intro j hj h
      have := hinj j (List.mem_cons_of_mem _ hj) i List.mem_cons_self h
      subst this
      exact hi hj
    refine ⟨m', ?_, fun id hid => ?_, ?_, ?_, ?_⟩
    · rw [seqAll, run_bind, hb i List.mem_cons_self m hm _ (List.getElem?_eq_getElem hlt)]
      exact hr
    · rw [ha.others id hid, set_other (by exact hid)]
    · rw [ha.len, length_set]
    · intro j hj v hv
      rcases List.mem_cons.1 hj with rfl | hj
      · rw [ha.rest _ fun k hk => (hne k hk).symm, s1]
        rw [List.getElem?_eq_getElem hlt] at hv
        rw [Option.some.inj hv]
      · exact ha.upd j hj v (by rw [s2 _ (hne j hj)]; exact hv)
    · intro q hq
      rw [ha.rest q fun j hj => hq j (List.mem_cons_of_mem _ hj), s2 q (hq i List.mem_cons_self)]

theorem After.trans {α : Type} {c : Nat} {m m1 m2 : Mem α} {L : List Nat} {addr : Nat → Nat} {f g : Nat → α → α}
    (h1 : After c m L addr f m1) (h2 : After c m1 L addr g m2) : After c m L addr (fun i v => g i (f i v)) m2 :=
  ⟨fun id hid => (h2.others id hid).trans (h1.others id hid), h2.len.trans h1.len,
    fun i hi v hv => h2.upd i hi _ (h1.upd i hi v hv), fun q hq => (h2.rest q hq).trans (h1.rest q hq)⟩

variable {α : Type} [Zero α] [One α] [Add α] [Mul α] [DecidableEq α]

/-- The sum in the order the code forms it. -/
def dotSum (n : Nat) (f g : Nat → α) : α := (List.range n).foldl (fun acc i => acc + f i * g i) 0

theorem run_dotFrom {x y : Ptr} {incX incY : Nat} {f g : Nat → α} {m : Mem α} {n i : Nat} {acc : α}
    (hx : ∀ j, i ≤ j → j < i + n → m.get? (x.addr (j * incX)) = some (f j))
    (hy : ∀ j, i ≤ j → j < i + n → m.get? (y.addr (j * incY)) = some (g j)) :
    run (dotFrom x incX y incY n i acc) m = .ok ((List.range' i n).foldl (fun acc j => acc + f j * g j) acc, m) := by
  induction n generalizing i acc with
  | zero => rfl
  | succ n ih =>
    simp only [dotFrom, run, hx i (Nat.le_refl _) (by omega), hy i (Nat.le_refl _) (by omega)]
    rw [ih (fun j h1 h2 => hx j (by omega) (by omega)) (fun j h1 h2 => hy j (by omega) (by omega)), List.range'_succ]
    rfl

theorem run_dotu {x y : Ptr} {incX incY n : Nat} {f g : Nat → α} {m : Mem α}
    (hx : ∀ j, j < n → m.get? (x.addr (j * incX)) = some (f j)) (hy : ∀ j, j < n → m.get? (y.addr (j * incY)) = some (g j)) :
    run (dotu n x incX y incY) m = .ok (dotSum n f g, m) := by
  unfold dotu dotSum
  rw [run_dotFrom (fun j _ h => hx j (by omega)) (fun j _ h => hy j (by omega)), List.range_eq_range']

/-- What `scal_init` makes of an element. -/
def scal (beta v : α) : α := if beta = 0 then 0 else v * beta

theorem run_scalInit {n : Nat} {beta : α} {y : Ptr} {incY : Nat} {m : Mem α} (hinc : 0 < incY ∨ n ≤ 1)
    (hin : ∀ i, i < n → y.off + i * incY < (m y.id).length) :
    ∃ m', run (scalInit n beta y incY) m = .ok ((), m') ∧
      After y.id m (List.range n) (fun i => y.off + i * incY) (fun _ v => scal beta v) m' := by
  have hinj : ∀ i ∈ List.range n, ∀ j ∈ List.range n, y.off + i * incY = y.off + j * incY → i = j := by
    intro i hi j hj h
    rw [List.mem_range] at hi hj
    rcases hinc with h' | h'
    · exact Nat.eq_of_mul_eq_mul_right h' (by omega)
    · omega
  unfold scalInit
  split
  · rename_i h0
    refine upd_seqAll (m0 := m) List.nodup_range hinj (fun i hi m' hm' v hv => ?_) (fun _ _ => rfl)
      (fun i hi => hin i (List.mem_range.1 hi))
    have : m'.get? (y.addr (i * incY)) = some v := hv
    simp only [run, this, scal, if_pos h0]
    rfl
  · rename_i h0
    refine upd_seqAll (m0 := m) List.nodup_range hinj (fun i hi m' hm' v hv => ?_) (fun _ _ => rfl)
      (fun i hi => hin i (List.mem_range.1 hi))
    have : m'.get? (y.addr (i * incY)) = some v := hv
    simp only [run, this, scal, if_neg h0]
    rfl

/-- `gemv_generic` as an update of `y`: rows of `op(A)` given by `row i`. -/
theorem run_gemvGeneric {trans : Bool} {m n : Nat} {alpha beta : α} {A x y : Ptr} {ldA incX incY : Nat} {mem : Mem α}
    {opA : Nat → Nat → α} {xv : Nat → α} (hA : A.id ≠ y.id) (hx : x.id ≠ y.id)
    (hinc : 0 < incY ∨ (if trans then n else m) ≤ 1)
    (hin : ∀ i, i < (if trans then n else m) → y.off + i * incY < (mem y.id).length)
    (hopA : ∀ i l, i < (if trans then n else m) → l < (if trans then m else n) →
      mem.get? (A.addr (if trans then i + l * ldA else i * ldA + l)) = some (opA i l))
    (hxv : ∀ l, l < (if trans then m else n) → mem.get? (x.addr (l * incX)) = some (xv l)) :
    ∃ mem', run (gemvGeneric trans m n alpha A ldA x incX beta y incY) mem = .ok ((), mem') ∧
      After y.id mem (List.range (if trans then n else m)) (fun i => y.off + i * incY)
        (fun i v => scal beta v + alpha * dotSum (if trans then m else n) (opA i) xv) mem' := by
  have get_eq : ∀ {m' : Mem α}, (∀ id, id ≠ y.id → m' id = mem id) → ∀ a : Addr, a.1 ≠ y.id → m'.get? a = mem.get? a := by
    intro m' h a ha
    simp only [Mem.get?, h a.1 ha]
  have hadd : ∀ {m' : Mem α} {a : Nat} {v d : α}, (m' y.id)[a]? = some v →
      run (addTo (y.id, a) alpha d) m' = .ok ((), m'.set (y.id, a) (v + alpha * d)) := by
    intro m' a v d hv
    have : m'.get? (y.id, a) = some v := hv
    simp only [addTo, run, this]
  cases trans with
  | true =>
    simp only [if_true] at *
    obtain ⟨m1, r1, a1⟩ := run_scalInit (beta := beta) (y := y) (incY := incY) (n := n) (m := mem) hinc hin
    obtain ⟨m2, r2, a2⟩ := upd_seqAll (c := y.id) (m0 := m1) (m := m1) (addr := fun i => y.off + i * incY)
      (f := fun i v => v + alpha * dotSum m (opA i) xv)
      (body := fun i => (dotu m ⟨A.id, A.off + i⟩ ldA x incX).bind fun d => addTo (y.addr (i * incY)) alpha d)
      (L := List.range n) List.nodup_range (by
        intro i hi j hj h
        rw [List.mem_range] at hi hj
        rcases hinc with h' | h'
        · exact Nat.eq_of_mul_eq_mul_right h' (by omega)
        · omega) (by
        intro i hi m' hm' v hv
        have hi' := List.mem_range.1 hi
        have hoth : ∀ id, id ≠ y.id → m' id = mem id := fun id hid => (hm' id hid).trans (a1.others id hid)
        rw [run_bind, run_dotu (f := opA i) (g := xv)]
        · exact hadd hv
        · intro l hl
          rw [get_eq hoth _ hA, ← hopA i l hi' hl]
          simp only [Ptr.addr, Nat.add_assoc]
        · intro l hl
          rw [get_eq hoth _ hx]
          exact hxv l hl) (fun _ _ => rfl) (fun i hi => by
        rw [a1.len]
        exact hin i (List.mem_range.1 hi))
    refine ⟨m2, ?_, a1.trans a2⟩
    unfold gemvGeneric
    rw [if_pos rfl, run_bind, r1]
    exact r2
  | false =>
    simp only [Bool.false_eq_true, if_false] at *
    obtain ⟨m1, r1, a1⟩ := run_scalInit (beta := beta) (y := y) (incY := incY) (n := m) (m := mem) hinc hin
    obtain ⟨m2, r2, a2⟩ := upd_seqAll (c := y.id) (m0 := m1) (m := m1) (addr := fun i => y.off + i * incY)
      (f := fun i v => v + alpha * dotSum n (opA i) xv)
      (body := fun i => (dotu n ⟨A.id, A.off + i * ldA⟩ 1 x incX).bind fun d => addTo (y.addr (i * incY)) alpha d)
      (L := List.range m) List.nodup_range (by
        intro i hi j hj h
        rw [List.mem_range] at hi hj
        rcases hinc with h' | h'
        · exact Nat.eq_of_mul_eq_mul_right h' (by omega)
        · omega) (by
        intro i hi m' hm' v hv
        have hi' := List.mem_range.1 hi
        have hoth : ∀ id, id ≠ y.id → m' id = mem id := fun id hid => (hm' id hid).trans (a1.others id hid)
        rw [run_bind, run_dotu (f := opA i) (g := xv)]
        · exact hadd hv
        · intro l hl
          rw [get_eq hoth _ hA, ← hopA i l hi' hl]
          simp only [Ptr.addr, Nat.add_assoc, Nat.mul_one]
        · intro l hl
          rw [get_eq hoth _ hx]
          exact hxv l hl) (fun _ _ => rfl) (fun i hi => by
        rw [a1.len]
        exact hin i (List.mem_range.1 hi))
    refine ⟨m2, ?_, a1.trans a2⟩
    unfold gemvGeneric
    rw [if_neg (by decide), run_bind, r1]
    exact r2

/-! ### Accesses out of bounds -/

omit [Zero α] [One α] [Add α] [Mul α] [DecidableEq α] in
theorem run_cases {β : Type} (p : Prog α β) (m : Mem α) : run p m = .ub ∨ ∃ r, run p m = .ok r ∧ ∀ id, (r.2 id).length = (m id).length := by
  induction p generalizing m with
  | ret x => exact .inr ⟨_, rfl, fun _ => rfl⟩
  | fail => exact .inl rfl
  | read a k ih =>
    simp only [run]
    cases m.get? a with
    | none => exact .inl rfl
    | some v => exact ih v m
  | write a v k ih =>
    simp only [run]
    cases m.get? a with
    | none => exact .inl rfl
    | some _ =>
      rcases ih (m.set a v) with h | ⟨r, h, h'⟩
      · exact .inl h
      · exact .inr ⟨r, h, fun id => by rw [h', length_set]⟩

omit [Zero α] [One α] [Add α] [Mul α] [DecidableEq α] in
theorem bind_ub {β γ : Type} {p : Prog α β} {q : β → Prog α γ} {m : Mem α} (h : run p m = .ub) : run (p.bind q) m = .ub := by
  rw [run_bind, h]
  rfl

omit [Zero α] [One α] [Add α] [Mul α] [DecidableEq α] in
theorem bind_ub' {β γ : Type} {p : Prog α β} {q : β → Prog α γ} {m : Mem α}
    (h : ∀ m' x, (∀ id, (m' id).length = (m id).length) → run (q x) m' = .ub) : run (p.bind q) m = .ub := by
  rcases run_cases p m with h' | ⟨r, h', h''⟩
  · exact bind_ub h'
  · rw [run_bind, h']
    exact h r.2 r.1 h''

omit [Zero α] [One α] [Add α] [Mul α] [DecidableEq α] in
theorem seqAll_ub {body : Nat → Prog α Unit} {L : List Nat} {i : Nat} {m : Mem α} (hi : i ∈ L)
    (h : ∀ m', (∀ id, (m' id).length = (m id).length) → run (body i) m' = .ub) : run (seqAll body L) m = .ub := by
  induction L generalizing m with
  | nil => cases hi
  | cons j L ih =>
    rw [seqAll]
    rcases List.mem_cons.1 hi with rfl | hi
    · exact bind_ub (h m fun _ => rfl)
    · exact bind_ub' fun m' _ hm' => ih hi fun m'' hm'' => h m'' fun id => (hm'' id).trans (hm' id)

omit [One α] in
theorem scalInit_ub {n i incY : Nat} {beta : α} {y : Ptr} {m : Mem α} (hi : i < n) (h : (m y.id).length ≤ y.off + i * incY) :
    run (scalInit n beta y incY) m = .ub := by
  have hg : ∀ m' : Mem α, (∀ id, (m' id).length = (m id).length) → m'.get? (y.addr (i * incY)) = none := by
    intro m' hm'
    exact List.getElem?_eq_none (by rw [hm']; exact h)
  unfold scalInit
  split
  · exact seqAll_ub (List.mem_range.2 hi) fun m' hm' => by simp only [run, hg m' hm']
  · exact seqAll_ub (List.mem_range.2 hi) fun m' hm' => by simp only [run, hg m' hm']

omit [Zero α] [One α] [DecidableEq α] in
theorem dotFrom_ub {x y : Ptr} {incX incY n i j : Nat} {acc : α} {m : Mem α}
    (h : m.get? (x.addr (j * incX)) = none ∨ m.get? (y.addr (j * incY)) = none) (h1 : i ≤ j) (h2 : j < i + n) :
    run (dotFrom x incX y incY n i acc) m = .ub := by
  induction n generalizing i acc with
  | zero => omega
  | succ n ih =>
    simp only [dotFrom, run]
    cases hx : m.get? (x.addr (i * incX)) with
    | none => rfl
    | some a =>
      simp only
      cases hy : m.get? (y.addr (i * incY)) with
      | none => rfl
      | some b =>
        refine ih ?_ (by omega)
        rcases Nat.eq_or_lt_of_le h1 with rfl | h1
        · rw [hx, hy] at h
          rcases h with h | h <;> cases h
        · exact h1

omit [One α] [DecidableEq α] in
theorem dotu_ub {x y : Ptr} {incX incY n j : Nat} {m : Mem α}
    (h : m.get? (x.addr (j * incX)) = none ∨ m.get? (y.addr (j * incY)) = none) (h2 : j < n) : run (dotu n x incX y incY) m = .ub :=
  dotFrom_ub h (Nat.zero_le _) (by omega)

/-! ### Footprints -/

theorem fits_dotFrom {R W : Addr → Prop} {x y : Ptr} {incX incY n i : Nat} {acc : α} (hx : ∀ a : Addr, a.1 = x.id → R a)
    (hy : ∀ a : Addr, a.1 = y.id → R a) : Fits R W (dotFrom x incX y incY n i acc) := by
  induction n generalizing i acc with
  | zero => trivial
  | succ n ih => exact ⟨.inl (hx _ rfl), fun _ => ⟨.inl (hy _ rfl), fun _ => ih⟩⟩

theorem fits_scalInit {R W : Addr → Prop} {n : Nat} {beta : α} {y : Ptr} {incY : Nat} (h : ∀ i, i < n → W (y.addr (i * incY))) :
    Fits R W (scalInit n beta y incY) := by
  unfold scalInit
  split
  · exact fits_seqAll fun i hi => ⟨h i (List.mem_range.1 hi), trivial⟩
  · exact fits_seqAll fun i hi => ⟨.inr (h i (List.mem_range.1 hi)), fun _ => ⟨h i (List.mem_range.1 hi), trivial⟩⟩

theorem fits_gemvGeneric {R W : Addr → Prop} {trans : Bool} {m n : Nat} {alpha beta : α} {A x y : Ptr} {ldA incX incY : Nat}
    (hA : ∀ a : Addr, a.1 = A.id → R a) (hx : ∀ a : Addr, a.1 = x.id → R a)
    (h : ∀ i, i < (if trans then n else m) → W (y.addr (i * incY))) :
    Fits R W (gemvGeneric trans m n alpha A ldA x incX beta y incY) := by
  unfold gemvGeneric
  cases trans with
  | true =>
    rw [if_pos rfl]
    exact Fits.bind (fits_scalInit h) fun _ => fits_seqAll fun i hi => Fits.bind (fits_dotFrom hA hx) fun _ =>
      ⟨.inr (h i (List.mem_range.1 hi)), fun _ => ⟨h i (List.mem_range.1 hi), trivial⟩⟩
  | false =>
    rw [if_neg (by decide)]
    exact Fits.bind (fits_scalInit h) fun _ => fits_seqAll fun i hi => Fits.bind (fits_dotFrom hA hx) fun _ =>
      ⟨.inr (h i (List.mem_range.1 hi)), fun _ => ⟨h i (List.mem_range.1 hi), trivial⟩⟩

/-! ### gemm -/

/-- An array holding a matrix row by row. -/
def Rows (l : List α) (rows cols : Nat) (f : Nat → Nat → α) : Prop :=
  l.length = rows * cols ∧ ∀ i j, i < rows → j < cols → l[i * cols + j]? = some (f i j)

/-- `op(X)`. -/
def op (t : Bool) (f : Nat → Nat → α) (i j : Nat) : α := if t then f j i else f i j

theorem run_column {transA transB : Bool} {M N K : Nat} {alpha : α} {a b c ldA ldB : Nat} {mem : Mem α} {Am Bm : Nat → Nat → α}
    (hac : a ≠ c) (hbc : b ≠ c) (hK : 0 < K) (hM : 0 < M)
    (hA : ∀ i l, i < M → l < K → mem.get? (a, if transA then l * ldA + i else i * ldA + l) = some (op transA Am i l))
    (hB : ∀ l j, l < K → j < N → mem.get? (b, if transB then j * ldB + l else l * ldB + j) = some (op transB Bm l j))
    (hc : (mem c).length = M * N) {j : Nat} (hj : j < N) :
    ∃ mem', run (gemmColumn transA transB M K alpha ⟨a, 0⟩ ldA ⟨b, 0⟩ ldB ⟨c, 0⟩ N j) mem = .ok ((), mem') ∧
      After c mem (List.range M) (fun i => j + i * N)
        (fun i v => scal 1 v + alpha * dotSum K (op transA Am i) (fun l => op transB Bm l j)) mem' := by
  have hin : ∀ i, i < M → 0 + j + i * N < (mem c).length := by
    intro i hi
    rw [hc]
    have := pos_lt (rows := N) (cols := M) hj hi
    rw [Nat.mul_comm N M] at this
    omega
  have h0 : ∀ {m n : Nat}, 0 < m → 0 < n → ¬ (m = 0 ∨ n = 0) := by omega
  cases transA <;> cases transB <;> simp only [gemmColumn, gemv, Bool.false_eq_true, if_true, if_false] at hA hB ⊢
  · rw [if_neg (h0 hM hK)]
    have := run_gemvGeneric (trans := false) (m := M) (n := K) (alpha := alpha) (beta := 1) (A := ⟨a, 0⟩) (x := ⟨b, 0 + j⟩) (y := ⟨c, 0 + j⟩)
      (ldA := ldA) (incX := ldB) (incY := N) (mem := mem) (opA := op false Am) (xv := fun l => op false Bm l j) hac hbc (.inl (by omega))
      hin (fun i l hi hl => by simpa [Ptr.addr] using hA i l hi hl) (fun l hl => by
        rw [← hB l j hl hj]; simp [Ptr.addr, Nat.add_comm])
    simpa using this
  · rw [if_neg (h0 hM hK)]
    have := run_gemvGeneric (trans := false) (m := M) (n := K) (alpha := alpha) (beta := 1) (A := ⟨a, 0⟩) (x := ⟨b, 0 + j * ldB⟩)
      (y := ⟨c, 0 + j⟩)
      (ldA := ldA) (incX := 1) (incY := N) (mem := mem) (opA := op false Am) (xv := fun l => op true Bm l j) hac hbc (.inl (by omega))
      hin (fun i l hi hl => by simpa [Ptr.addr] using hA i l hi hl) (fun l hl => by
        rw [← hB l j hl hj]; simp [Ptr.addr])
    simpa using this
  · rw [if_neg (h0 hK hM)]
    have := run_gemvGeneric (trans := true) (m := K) (n := M) (alpha := alpha) (beta := 1) (A := ⟨a, 0⟩) (x := ⟨b, 0 + j⟩) (y := ⟨c, 0 + j⟩)
      (ldA := ldA) (incX := ldB) (incY := N) (mem := mem) (opA := op true Am) (xv := fun l => op false Bm l j) hac hbc (.inl (by omega))
      hin (fun i l hi hl => by rw [← hA i l hi hl]; simp [Ptr.addr, Nat.add_comm]) (fun l hl => by
        rw [← hB l j hl hj]; simp [Ptr.addr, Nat.add_comm])
    simpa using this
  · rw [if_neg (h0 hK hM)]
    have := run_gemvGeneric (trans := true) (m := K) (n := M) (alpha := alpha) (beta := 1) (A := ⟨a, 0⟩) (x := ⟨b, 0 + j * ldB⟩)
      (y := ⟨c, 0 + j⟩)
      (ldA := ldA) (incX := 1) (incY := N) (mem := mem) (opA := op true Am) (xv := fun l => op true Bm l j) hac hbc (.inl (by omega))
      hin (fun i l hi hl => by rw [← hA i l hi hl]; simp [Ptr.addr, Nat.add_comm]) (fun l hl => by
        rw [← hB l j hl hj]; simp [Ptr.addr])
    simpa using this

/-- The elements of column `j`. -/
def Col (c M N j : Nat) (a : Addr) : Prop := ∃ i, i < M ∧ a = (c, j + i * N)

theorem fits_column {transA transB : Bool} {M N K : Nat} {alpha : α} {a b c ldA ldB j : Nat} (hac : a ≠ c) (hbc : b ≠ c) :
    Fits (fun q => q.1 ≠ c) (Col c M N j) (gemmColumn transA transB M K alpha ⟨a, 0⟩ ldA ⟨b, 0⟩ ldB ⟨c, 0⟩ N j) := by
  have hA : ∀ q : Addr, q.1 = a → q.1 ≠ c := fun q h => h ▸ hac
  have hB : ∀ q : Addr, q.1 = b → q.1 ≠ c := fun q h => h ▸ hbc
  have hC : ∀ i, i < M → Col c M N j ((⟨c, 0 + j⟩ : Ptr).addr (i * N)) := fun i hi => ⟨i, hi, by simp [Ptr.addr]⟩
  cases transA <;> cases transB <;> simp only [gemmColumn, gemv]
  all_goals
    split
    · trivial
    · exact fits_gemvGeneric hA hB (by simpa using hC)

theorem gemm_result {t : Threads} {transA transB : Bool} {M N K : Nat} {alpha beta : α} {a b c ldA ldB : Nat} {mem : Mem α}
    {Am Bm Cm : Nat → Nat → α} (hac : a ≠ c) (hbc : b ≠ c)
    (hA : ∀ i l, i < M → l < K → mem.get? (a, if transA then l * ldA + i else i * ldA + l) = some (op transA Am i l))
    (hB : ∀ l j, l < K → j < N → mem.get? (b, if transB then j * ldB + l else l * ldB + j) = some (op transB Bm l j))
    (hC : Rows (mem c) M N Cm) :
    ∃ res, (∀ o, Gemm t transA transB M N K alpha ⟨a, 0⟩ ldA ⟨b, 0⟩ ldB beta ⟨c, 0⟩ N mem o ↔ o = .ok res) ∧
      (∀ id, id ≠ c → res id = mem id) ∧
      Rows (res c) M N fun i j => if alpha = 0 then scal beta (Cm i j) else if K = 0 then scal beta (Cm i j) else
        scal 1 (scal beta (Cm i j)) + alpha * dotSum K (op transA Am i) (fun l => op transB Bm l j) := by
  by_cases hMN : M = 0 ∨ N = 0
  · refine ⟨mem, fun o => ⟨fun h => ?_, ?_⟩, fun _ _ => rfl, hC.1, fun i j hi hj => by omega⟩
    · cases h with
      | empty _ => rfl
      | initUb h _ => exact absurd hMN h
      | noAlpha h _ _ => exact absurd hMN h
      | loop h _ _ _ => exact absurd hMN h
    · rintro rfl
      exact .empty hMN
  · -- the scaled matrix
    obtain ⟨m1, r1, a1⟩ := run_scalInit (beta := beta) (y := ⟨c, 0⟩) (incY := 1) (n := M * N) (m := mem) (.inl (by decide)) (fun i hi => by
      rw [show (⟨c, 0⟩ : Ptr).id = c from rfl, hC.1]
      simpa using hi)
    simp only [Nat.mul_one, Nat.zero_add] at a1
    have hinit : run (gescalInit M N beta ⟨c, 0⟩ N) mem = .ok ((), m1) := by
      unfold gescalInit
      rw [if_pos rfl]
      exact r1
    have hC1 : Rows (m1 c) M N fun i j => scal beta (Cm i j) := by
      refine ⟨a1.len.trans hC.1, fun i j hi hj => ?_⟩
      refine a1.upd (i * N + j) (List.mem_range.2 ?_) _ (hC.2 i j hi hj)
      have := pos_lt (rows := N) (cols := M) hj hi
      rwa [Nat.mul_comm N M] at this
    by_cases h0 : alpha = 0
    · refine ⟨m1, fun o => ⟨fun h => ?_, ?_⟩, a1.others, ?_⟩
      · cases h with
        | empty h => exact absurd h hMN
        | initUb _ h => rw [hinit] at h; cases h
        | noAlpha _ h _ => rw [hinit] at h; exact congrArg Out.ok (Prod.mk.inj (Out.ok.inj h)).2.symm
        | loop _ _ h _ => exact absurd h0 h
      · rintro rfl
        exact .noAlpha hMN hinit h0
      · simpa [h0] using hC1
    · have get1 : ∀ q : Addr, q.1 ≠ c → m1.get? q = mem.get? q := by
        intro q hq
        simp only [Mem.get?, a1.others q.1 hq]
      -- the final matrix
      let fin : Nat → Nat → α := fun i j => if K = 0 then scal beta (Cm i j) else
        scal 1 (scal beta (Cm i j)) + alpha * dotSum K (op transA Am i) (fun l => op transB Bm l j)
      let res : Mem α := fun id => if id = c then (List.range (M * N)).map fun q : Nat => fin (q / N) (q % N) else m1 id
      have hres : Rows (res c) M N fin := by
        refine ⟨by simp [res], fun i j hi hj => ?_⟩
        have hlt : i * N + j < M * N := by
          have := pos_lt (rows := N) (cols := M) hj hi
          rwa [Nat.mul_comm N M] at this
        have e1 : (i * N + j) / N = i := by
          rw [Nat.mul_comm, Nat.mul_add_div (by omega), Nat.div_eq_of_lt hj, Nat.add_zero]
        have e2 : (i * N + j) % N = j := by rw [Nat.mul_add_mod_self_right, Nat.mod_eq_of_lt hj]
        simp only [res, if_true]
        rw [List.getElem?_map, List.getElem?_range hlt, Option.map_some, e1, e2]
      have hloop : LoopOK (gemmColumn transA transB M K alpha ⟨a, 0⟩ ldA ⟨b, 0⟩ ldB ⟨c, 0⟩ N) (List.range N) (fun _ q => q.1 ≠ c)
          (Col c M N) m1 res := by
        refine ⟨List.nodup_range, fun j _ => fits_column hac hbc, ?_, ?_, ?_⟩
        · rintro i hi j hj hij q ⟨x, hx, rfl⟩
          rw [List.mem_range] at hi hj
          refine ⟨?_, fun h => h rfl⟩
          rintro ⟨y, hy, h⟩
          have h' := (Prod.mk.inj h).2
          have := pos_inj (rows := N) (r := i) (c := x) (r' := j) (c' := y) hi hj (by omega)
          exact hij this.1
        · intro j hj
          rw [List.mem_range] at hj
          by_cases hK : K = 0
          · refine ⟨m1, ?_, ?_⟩
            · cases transA <;> cases transB <;> simp [gemmColumn, gemv, hK, run]
            · rintro q ⟨i, hi, rfl⟩
              have e1 := hC1.2 i j hi hj
              have e2 := hres.2 i j hi hj
              simp only [fin, hK, if_true] at e2
              change (m1 c)[j + i * N]? = (res c)[j + i * N]?
              rw [Nat.add_comm j, e1, e2]
          · obtain ⟨m', r', a'⟩ := run_column (transA := transA) (transB := transB) (M := M) (N := N) (K := K) (alpha := alpha) (a := a) (b := b)
              (c := c) (ldA := ldA) (ldB := ldB) (mem := m1) (Am := Am) (Bm := Bm) hac hbc (by omega) (by omega)
              (fun i l hi hl => by rw [get1 _ hac]; exact hA i l hi hl) (fun l j hl hj => by rw [get1 _ hbc]; exact hB l j hl hj)
              hC1.1 hj
            refine ⟨m', r', ?_⟩
            rintro q ⟨i, hi, rfl⟩
            have e1 := a'.upd i (List.mem_range.2 hi) (scal beta (Cm i j)) (by
              have := hC1.2 i j hi hj
              rwa [Nat.add_comm] at this)
            have e2 := hres.2 i j hi hj
            simp only [fin, hK, if_false] at e2
            rw [Nat.add_comm] at e2
            exact e1.trans e2.symm
        · intro q hq
          by_cases hqc : q.1 = c
          · obtain ⟨id, q⟩ := q
            simp only at hqc
            subst hqc
            by_cases hlt : q < M * N
            · exfalso
              have hN : 0 < N := by omega
              refine hq (q % N) (List.mem_range.2 (Nat.mod_lt _ hN)) ⟨q / N, ?_, ?_⟩
              · rw [Nat.div_lt_iff_lt_mul hN]; exact hlt
              · rw [Nat.mul_comm, Nat.mod_add_div]
            · simp only [Mem.get?]
              rw [List.getElem?_eq_none (by rw [hres.1]; omega), List.getElem?_eq_none (by rw [hC1.1]; omega)]
          · simp only [Mem.get?, res, if_neg hqc]
      refine ⟨res, fun o => ?_, fun id hid => ?_, ?_⟩
      · rw [← outcome_iff hloop (par := t.parallel N)]
        constructor
        · intro h
          cases h with
          | empty h => exact absurd h hMN
          | initUb _ h => rw [hinit] at h; cases h
          | noAlpha _ _ h => exact absurd h h0
          | loop _ h _ h' =>
            rw [hinit] at h
            have := (Prod.mk.inj (Out.ok.inj h)).2
            subst this
            exact h'
        · intro h
          exact .loop hMN hinit h0 h
      · simp only [res, if_neg hid]
        exact a1.others id hid
      · refine ⟨hres.1, fun i j hi hj => ?_⟩
        rw [hres.2 i j hi hj]
        simp only [fin, if_neg h0]

end Verif.MulM
