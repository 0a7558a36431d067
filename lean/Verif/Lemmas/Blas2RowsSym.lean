import Verif.Lemmas.Blas2Rows

/-! Lemmas: products with symmetric and hermitian matrices stored by rows. -/

namespace Verif.Blas

open Finset

variable {K : Type}

section
variable [CommRing K] [StarRing K] {m : Mem K} {x incX y incY : Int} {n : Nat} {alpha : K} {xv : Nat → K}

theorem addDot_snap (hi : incY ≠ 0) {p : Nat} (hp : p < n) {D : M K K} {d : K} {w : Nat → K}
    (hD : D (snap m y incY n w) = .ok (d, snap m y incY n w)) :
    addDot alpha D (start n y incY + (p : Int) * incY) (snap m y incY n w) =
      .ok ((), snap m y incY n fun i => w i + if i = p then alpha * d else 0) := by
  unfold addDot
  rw [start_elem, bind_ok hD, bind_ok (load_ok (snap_in hi hp)), store_ok (by rw [snap_in hi hp]; simp), snap_set hi hp]
  refine congrArg (fun z => Out.ok ((), z)) (snap_congr hi fun i _ => ?_)
  by_cases e : i = p
  · subst e; simp
  · simp [e]

theorem hemvDiag_snap {re : K → K} (hi : incY ≠ 0) {p : Nat} (hp : p < n) {dg : Int} {a : K} {w : Nat → K}
    (hx : ∀ w j, j < n → snap m y incY n w (elem x incX n j) = .val (xv j))
    (hdg : snap m y incY n w dg = .val a) :
    hemvDiag re alpha dg (start n x incX + (p : Int) * incX) (start n y incY + (p : Int) * incY) (snap m y incY n w) =
      .ok ((), snap m y incY n fun i => w i + if i = p then alpha * re a * xv p else 0) := by
  unfold hemvDiag
  rw [start_elem, start_elem, bind_ok (load_ok hdg), bind_ok (load_ok (hx w p hp)), bind_ok (load_ok (snap_in hi hp)),
    store_ok (by rw [snap_in hi hp]; simp), snap_set hi hp]
  refine congrArg (fun z => Out.ok ((), z)) (snap_congr hi fun i _ => ?_)
  by_cases e : i = p
  · subst e; simp
  · simp [e]

theorem axpyAt_snap {c : Bool} (hi : incY ≠ 0) {p s len : Nat} (hp : p < n) {a : Int} {r w : Nat → K} (hs : s + len ≤ n)
    (hx : ∀ w j, j < n → snap m y incY n w (elem x incX n j) = .val (xv j))
    (ha : ∀ k, k < len → m (a + (k : Nat)) = .val (r (s + k)))
    (hd : ∀ k j, k < len → j < n → a + (k : Nat) ≠ elem y incY n j) :
    axpyAt c len alpha (start n x incX + (p : Int) * incX) a 1 (start n y incY + (s : Int) * incY) incY (snap m y incY n w) =
      .ok ((), snap m y incY n fun j => w j + alpha * xv p * seg s len (fun j => cj c (r j)) j) := by
  unfold axpyAt
  rw [start_elem, bind_ok (load_ok (hx w p hp)), segAxpy_run hi hs ha hd]

theorem axpyAtR_eq {c : Bool} (k : Nat) (xi a incA y incY : Int) :
    axpyAtR c k alpha xi a incA y incY = axpyAt c k alpha xi a incA y incY := by
  unfold axpyAtR axpyAt
  simp only [mul_comm]

/-- One pass of a symmetric product: an inner product with one piece of the row, an update with another. -/
theorem symPass (hi : incY ≠ 0) {p s len s' len' : Nat} (hp : p < n) {a a' : Int} {r w : Nat → K} (hs : s + len ≤ n)
    (hs' : s' + len' ≤ n) (hx : ∀ w j, j < n → snap m y incY n w (elem x incX n j) = .val (xv j))
    (ha : ∀ k, k < len → m (a + (k : Nat)) = .val (r (s + k)))
    (hd : ∀ k j, k < len → j < n → a + (k : Nat) ≠ elem y incY n j)
    (ha' : ∀ k, k < len' → m (a' + (k : Nat)) = .val (r (s' + k)))
    (hd' : ∀ k j, k < len' → j < n → a' + (k : Nat) ≠ elem y incY n j) :
    (do
      addDot alpha (dotuGeneric len a 1 (start n x incX + (s : Int) * incX) incX) (start n y incY + (p : Int) * incY)
      axpyAt false len' alpha (start n x incX + (p : Int) * incX) a' 1 (start n y incY + (s' : Int) * incY) incY : M K Unit)
        (snap m y incY n w) = .ok ((), snap m y incY n fun i =>
      (w i + if i = p then alpha * ∑ j ∈ range n, seg s len r j * xv j else 0) + alpha * xv p * seg s' len' r i) := by
  rw [bind_ok (addDot_snap hi hp (d := ∑ j ∈ range n, seg s len r j * xv j) _)]
  · rw [axpyAt_snap (c := false) (r := r) hi hp hs' hx ha' hd']
    simp [cj]
  · have := segDot_run (c := false) (n := n) (s := s) (len := len) (a := a) (x := x) (incX := incX)
      (m := snap m y incY n w) (r := r) (v := xv) hs (fun k hk => by
        rw [snap_out fun j hj => hd k j hk hj]; exact ha k hk) (fun j hj => hx w j hj)
    simpa [cj, dotC] using this

/-- One pass of a hermitian product, with the part `s, len` of the row beside the diagonal. -/
theorem herPass {re : K → K} {c : Bool} (hi : incY ≠ 0) {p s len : Nat} (hp : p < n) {a dg : Int} {r w : Nat → K}
    (hs : s + len ≤ n) (hps : ¬(s ≤ p ∧ p < s + len))
    (hx : ∀ w j, j < n → snap m y incY n w (elem x incX n j) = .val (xv j))
    (ha : ∀ k, k < len → m (a + (k : Nat)) = .val (r (s + k)))
    (hd : ∀ k j, k < len → j < n → a + (k : Nat) ≠ elem y incY n j) (hdg : m dg = .val (r p))
    (hdd : ∀ j, j < n → dg ≠ elem y incY n j) :
    (do
      hemvDiag re alpha dg (start n x incX + (p : Int) * incX) (start n y incY + (p : Int) * incY)
      addDot alpha (dotC c len a 1 (start n x incX + (s : Int) * incX) incX) (start n y incY + (p : Int) * incY)
      axpyAt (!c) len alpha (start n x incX + (p : Int) * incX) a 1 (start n y incY + (s : Int) * incY) incY : M K Unit)
        (snap m y incY n w) = .ok ((), snap m y incY n fun i =>
      (w i + if i = p then alpha * ∑ j ∈ range n, (if j = p then re (r p) else seg s len (fun j => cj c (r j)) j) * xv j
        else 0) + alpha * xv p * seg s len (fun j => cj (!c) (r j)) i) := by
  rw [bind_ok (hemvDiag_snap hi hp hx ((snap_out hdd).trans hdg))]
  rw [bind_ok (addDot_snap hi hp (d := ∑ j ∈ range n, seg s len (fun j => cj c (r j)) j * xv j) _)]
  · rw [axpyAt_snap (c := !c) (r := r) hi hp hs hx ha hd]
    refine congrArg (fun z => Out.ok ((), z)) (snap_congr hi fun i _ => ?_)
    have e : ∑ j ∈ range n, (if j = p then re (r p) else seg s len (fun j => cj c (r j)) j) * xv j =
        re (r p) * xv p + ∑ j ∈ range n, seg s len (fun j => cj c (r j)) j * xv j := by
      have h1 : ∀ j, (if j = p then re (r p) else seg s len (fun j => cj c (r j)) j) * xv j =
          (if j = p then re (r p) * xv p else 0) + seg s len (fun j => cj c (r j)) j * xv j := by
        intro j
        by_cases ej : j = p
        · subst ej
          have : seg s len (fun j => cj c (r j)) j = 0 := by unfold seg; rw [if_neg hps]
          simp [this]
        · simp [ej]
      rw [sum_congr rfl fun j _ => h1 j, sum_add_distrib, sum_ite_eq' (range n) p, if_pos (mem_range.2 hp)]
    rw [e]
    by_cases ei : i = p
    · subst ei; simp; ring
    · simp [ei]
  · exact segDot_run (c := c) (r := r) (v := xv) hs (fun k hk => by
        rw [snap_out fun j hj => hd k j hk hj]; exact ha k hk) (fun j hj => hx _ j hj)

end

theorem cj_not_seg [CommRing K] [StarRing K] (c : Bool) (s l : Nat) (v : Nat → K) (j : Nat) :
    seg s l (fun j => cj c (v j)) j = cj c (seg s l v j) := by
  unfold seg
  split
  · rfl
  · cases c <;> simp [cj]

/-- What the rows of a stored triangle look like. -/
structure TriRows (R : Rows) (u : UpLo) (n : Nat) : Prop where
  pos : ∀ i, i < n → 0 < R.len i
  le : ∀ i, i < n → R.first i + R.len i ≤ n
  up : u = .upper → ∀ i, i < n → R.first i = i
  lo : u = .lower → ∀ i, i < n → R.first i + R.len i = i + 1

/-- The matrix with the stored triangle, zero elsewhere. -/
def rowM [Zero K] (R : Rows) (Q : Nat → Nat → K) (i j : Nat) : K := seg (R.first i) (R.len i) (Q i) j

section
variable [CommRing K] [StarRing K] [DecidableEq K] {R : Rows} {u : UpLo} {m : Mem K} {x incX y incY : Int} {n : Nat}
  {alpha beta : K} {xv yv : Nat → K} {Q : Nat → Nat → K}

theorem tbRows_tri (u : UpLo) (n k : Nat) (A ldA : Int) : TriRows (tbRows u n k A ldA) u n := by
  cases u <;> constructor <;> simp only [tbRows, reduceCtorEq, false_implies, true_implies, implies_true] <;> omega

theorem tpRows_tri (u : UpLo) (n : Nat) (A : Int) : TriRows (tpRows u n A) u n := by
  cases u <;> constructor <;> simp only [tpRows, reduceCtorEq, false_implies, true_implies, implies_true] <;> omega

/-- `sbmv` on the rows. -/
theorem sbmvRows_run (hR : TriRows R u n) (hA : RowsAt m R n Q) (hx : VecAt m x incX n xv) (hy : InitAt beta m y incY n yv)
    (hi : incY ≠ 0) (hdA : RowsDisj R n y incY n) (hdx : VecDisj x incX n y incY n) (f : Nat → M K Unit)
    (hf : ∀ i, i < n → f i = (match u with
      | .upper => do
        addDot alpha (dotuGeneric (R.len i) (R.row i) 1 (start n x incX + (i : Int) * incX) incX) (start n y incY + (i : Int) * incY)
        axpyAt false (R.len i - 1) alpha (start n x incX + (i : Int) * incX) (R.row i + 1) 1
          (start n y incY + (i : Int) * incY + incY) incY
      | .lower => do
        addDot alpha (dotuGeneric (R.len i) (R.row i) 1 (start n x incX + (R.first i : Int) * incX) incX)
          (start n y incY + (i : Int) * incY)
        axpyAt false (R.len i - 1) alpha (start n x incX + (i : Int) * incX) (R.row i) 1
          (start n y incY + (R.first i : Int) * incY) incY)) :
    (do
      scalInitGeneric n beta (start n y incY) incY
      loop n f : M K Unit) m = .ok ((), snap m y incY n fun i =>
        beta * yv i + alpha * ∑ j ∈ range n, symM u (rowM R Q) i j * xv j) := by
  have hxs : ∀ w j, j < n → snap m y incY n w (elem x incX n j) = .val (xv j) := fun w j hj => by
    rw [snap_out fun k hk => hdx j k hj hk]; exact hx j hj
  rw [bind_ok (scalInit_snap hy hi), dx_passes hi (xv := xv) (alpha := alpha) (D := rowM R Q) (X := fun p =>
    seg (if u = .upper then p + 1 else R.first p) (R.len p - 1) (Q p)) f fun p hp w => ?_]
  · refine congrArg (fun z => Out.ok ((), z)) (snap_congr hi fun i hin => ?_)
    congr 2
    refine sum_congr rfl fun j hj => ?_
    rw [mem_range] at hj
    congr 1
    have h1 := hR.pos i hin
    have h2 := hR.pos j hj
    cases hu : u
    · have h3 := hR.up hu i hin
      have h4 := hR.up hu j hj
      subst hu
      simp only [symM, rowM, seg, h3, h4, if_true]
      split_ifs <;> first | omega | simp
    · have h3 := hR.lo hu i hin
      have h4 := hR.lo hu j hj
      subst hu
      simp only [symM, rowM, seg, reduceCtorEq, if_false]
      split_ifs <;> first | omega | simp
  · rw [hf p hp]
    have h1 := hR.pos p hp
    have h2 := hR.le p hp
    cases u
    · have h3 := hR.up rfl p hp
      have := symPass (alpha := alpha) (w := w) (r := Q p) (a := R.row p) (a' := R.row p + 1) (s := p) (len := R.len p)
        (s' := p + 1) (len' := R.len p - 1) hi hp (by omega) (by omega) hxs
        (fun k hk => by rw [hA p k hp hk, h3]) (fun k j hk hj => hdA p k j hp hk hj)
        (fun k hk => by
          have := hA p (k + 1) hp (by omega)
          rw [h3] at this
          rw [show p + 1 + k = p + (k + 1) by omega, ← this]; congr 1; push_cast; ring)
        (fun k j hk hj e => hdA p (k + 1) j hp (by omega) hj (by rw [← e]; push_cast; ring))
      have e1 : start n y incY + (p : Int) * incY + incY = start n y incY + ((p + 1 : Nat) : Int) * incY := by push_cast; ring
      simp only [e1, rowM, h3, if_true]
      exact this
    · have := symPass (alpha := alpha) (w := w) (r := Q p) (a := R.row p) (a' := R.row p) (s := R.first p) (len := R.len p)
        (s' := R.first p) (len' := R.len p - 1) hi hp (by omega) (by omega) hxs
        (fun k hk => hA p k hp hk) (fun k j hk hj => hdA p k j hp hk hj)
        (fun k hk => hA p k hp (by omega)) (fun k j hk hj => hdA p k j hp (by omega) hj)
      simp only [rowM, reduceCtorEq, if_false]
      exact this

/-- `spmv` on the rows: for a lower triangle the diagonal belongs to the update instead of the inner product. -/
theorem spmvLower_run (hR : TriRows R .lower n) (hA : RowsAt m R n Q) (hx : VecAt m x incX n xv)
    (hy : InitAt beta m y incY n yv)
    (hi : incY ≠ 0) (hdA : RowsDisj R n y incY n) (hdx : VecDisj x incX n y incY n) (f : Nat → M K Unit)
    (hf : ∀ i, i < n → f i = (do
        addDot alpha (dotuGeneric (R.len i - 1) (R.row i) 1 (start n x incX + (R.first i : Int) * incX) incX)
          (start n y incY + (i : Int) * incY)
        axpyAt false (R.len i) alpha (start n x incX + (i : Int) * incX) (R.row i) 1
          (start n y incY + (R.first i : Int) * incY) incY)) :
    (do
      scalInitGeneric n beta (start n y incY) incY
      loop n f : M K Unit) m = .ok ((), snap m y incY n fun i =>
        beta * yv i + alpha * ∑ j ∈ range n, symM .lower (rowM R Q) i j * xv j) := by
  have hxs : ∀ w j, j < n → snap m y incY n w (elem x incX n j) = .val (xv j) := fun w j hj => by
    rw [snap_out fun k hk => hdx j k hj hk]; exact hx j hj
  rw [bind_ok (scalInit_snap hy hi), dx_passes hi (xv := xv) (alpha := alpha)
    (D := fun p => seg (R.first p) (R.len p - 1) (Q p)) (X := rowM R Q) f fun p hp w => ?_]
  · refine congrArg (fun z => Out.ok ((), z)) (snap_congr hi fun i hin => ?_)
    congr 2
    refine sum_congr rfl fun j hj => ?_
    rw [mem_range] at hj
    congr 1
    have h1 := hR.pos i hin
    have h2 := hR.pos j hj
    have h3 := hR.lo rfl i hin
    have h4 := hR.lo rfl j hj
    simp only [symM, rowM, seg]
    by_cases e : i = j
    · subst e
      split_ifs <;> first | omega | simp
    · split_ifs <;> first | omega | simp
  · rw [hf p hp]
    have h1 := hR.pos p hp
    have h2 := hR.le p hp
    have := symPass (alpha := alpha) (w := w) (r := Q p) (a := R.row p) (a' := R.row p) (s := R.first p)
      (len := R.len p - 1) (s' := R.first p) (len' := R.len p) hi hp (by omega) (by omega) hxs
      (fun k hk => hA p k hp (by omega)) (fun k j hk hj => hdA p k j hp (by omega) hj)
      (fun k hk => hA p k hp hk) (fun k j hk hj => hdA p k j hp hk hj)
    exact this

theorem hrows_run {re : K → K} {c : Bool} (hR : TriRows R u n) (hA : RowsAt m R n Q) (hx : VecAt m x incX n xv)
    (hy : InitAt beta m y incY n yv) (hi : incY ≠ 0) (hdA : RowsDisj R n y incY n) (hdx : VecDisj x incX n y incY n) :
    (do
      scalInitGeneric n beta (start n y incY) incY
      loop n (hrowsBody re R u c alpha (start n x incX) incX (start n y incY) incY) : M K Unit) m =
      .ok ((), snap m y incY n fun i => beta * yv i + alpha * ∑ j ∈ range n,
        (if i = j then re (Q i i) else cj c (herM re u (rowM R Q) i j)) * xv j) := by
  have hxs : ∀ w j, j < n → snap m y incY n w (elem x incX n j) = .val (xv j) := fun w j hj => by
    rw [snap_out fun k hk => hdx j k hj hk]; exact hx j hj
  have cj0 : ∀ b : Bool, cj b (0 : K) = 0 := fun b => by cases b <;> simp [cj]
  have cc : ∀ (b : Bool) (z : K), cj (!b) z = cj b (star z) := by
    intro b z; cases b <;> simp [cj]
  rw [bind_ok (scalInit_snap hy hi), dx_passes hi (xv := xv) (alpha := alpha)
    (D := fun p j => if j = p then re (Q p p) else
      seg (if u = .upper then p + 1 else R.first p) (R.len p - 1) (fun j => cj c (Q p j)) j)
    (X := fun p => seg (if u = .upper then p + 1 else R.first p) (R.len p - 1) (fun j => cj (!c) (Q p j))) _
    fun p hp w => ?_]
  · refine congrArg (fun z => Out.ok ((), z)) (snap_congr hi fun i hin => ?_)
    congr 2
    refine sum_congr rfl fun j hj => ?_
    rw [mem_range] at hj
    congr 1
    have h1 := hR.pos i hin
    have h2 := hR.pos j hj
    simp only [cj_not_seg]
    by_cases e : i = j
    · subst e
      have : seg (if u = .upper then i + 1 else R.first i) (R.len i - 1) (Q i) i = 0 := by
        cases hu : u
        · simp [seg]
        · have h3 := hR.lo hu i hin
          simp only [seg, reduceCtorEq, if_false]
          rw [if_neg (by omega)]
      simp [this, cj0]
    · have e' : j ≠ i := fun h => e h.symm
      rw [if_neg e', if_neg e, cc]
      cases hu : u
      · have h3 := hR.up hu i hin
        have h4 := hR.up hu j hj
        simp only [herM, rowM, seg, h3, h4, if_true, if_neg e]
        split_ifs <;> first | omega | simp [cj0]
      · have h3 := hR.lo hu i hin
        have h4 := hR.lo hu j hj
        simp only [herM, rowM, seg, reduceCtorEq, if_false, if_neg e]
        split_ifs <;> first | omega | simp [cj0]
  · have h1 := hR.pos p hp
    have h2 := hR.le p hp
    cases hu : u
    · have h3 := hR.up hu p hp
      have := herPass (re := re) (c := c) (alpha := alpha) (w := w) (r := Q p) (a := R.row p + 1) (dg := R.row p) (s := p + 1)
        (len := R.len p - 1) hi hp (by omega) (by omega) hxs
        (fun k hk => by
          have := hA p (k + 1) hp (by omega)
          rw [h3] at this
          rw [show p + 1 + k = p + (k + 1) by omega, ← this]; congr 1; push_cast; ring)
        (fun k j hk hj e => hdA p (k + 1) j hp (by omega) hj (by rw [← e]; push_cast; ring))
        (by have := hA p 0 hp h1; simpa [h3] using this)
        (fun j hj e => hdA p 0 j hp h1 hj (by rw [← e]; simp))
      have e1 : ∀ z inc : Int, start n z inc + (p : Int) * inc + inc = start n z inc + ((p + 1 : Nat) : Int) * inc := by
        intro z inc; push_cast; ring
      simp only [hrowsBody, e1, if_true]
      exact this
    · have h3 := hR.lo hu p hp
      have e3 : R.first p + (R.len p - 1) = p := by omega
      have := herPass (re := re) (c := c) (alpha := alpha) (w := w) (r := Q p) (a := R.row p)
        (dg := R.row p + ((R.len p - 1 : Nat) : Int)) (s := R.first p)
        (len := R.len p - 1) hi hp (by omega) (by omega) hxs
        (fun k hk => hA p k hp (by omega)) (fun k j hk hj => hdA p k j hp (by omega) hj)
        (by have := hA p (R.len p - 1) hp (by omega); rwa [e3] at this)
        (fun j hj => hdA p (R.len p - 1) j hp (by omega) hj)
      simp only [hrowsBody, reduceCtorEq, if_false]
      exact this

end

end Verif.Blas
