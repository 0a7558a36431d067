import Verif.Model.Vendor
import Verif.Lemmas.Matmul
import Mathlib.Algebra.BigOperators.Group.Finset.Basic
import Mathlib.Algebra.BigOperators.Ring.Finset
import Mathlib.Tactic.Linarith

/-! Lemmas for Props/Vendor.lean. -/

namespace Verif.VendorM

open ShapeM MulM

variable {α : Type}

theorem total_eq [AddCommMonoid α] [Mul α] (k : Nat) (f : Nat → α) : total k f = ∑ l ∈ Finset.range k, f l := by
  have : total k f = ((List.range k).map f).sum := rfl
  rw [this]
  induction k with
  | zero => simp
  | succ k ih => rw [Finset.sum_range_succ, List.range_succ, List.map_append, List.sum_append, ih rfl]; simp

theorem find_pos {l : Layout} (hv : l.valid = true) {i j : Nat} (hi : i < l.rows) (hj : j < l.cols) : l.find (l.pos i j) = some (i, j) := by
  obtain ⟨r, c, ld, o⟩ := l
  cases o with
  | row =>
    simp only [Layout.valid, decide_eq_true_eq] at hv
    simp only at hi hj
    have h1 : (i * ld + j) / ld = i := by
      rw [Nat.mul_comm, Nat.mul_add_div (by omega), Nat.div_eq_of_lt (by omega), Nat.add_zero]
    have h2 : (i * ld + j) % ld = j := by
      rw [Nat.mul_comm, Nat.mul_add_mod, Nat.mod_eq_of_lt (by omega)]
    simp [Layout.find, Layout.pos, h1, h2, hi, hj]
  | col =>
    simp only [Layout.valid, decide_eq_true_eq] at hv
    simp only at hi hj
    have h1 : (j * ld + i) / ld = j := by
      rw [Nat.mul_comm, Nat.mul_add_div (by omega), Nat.div_eq_of_lt (by omega), Nat.add_zero]
    have h2 : (j * ld + i) % ld = i := by
      rw [Nat.mul_comm, Nat.mul_add_mod, Nat.mod_eq_of_lt (by omega)]
    simp [Layout.find, Layout.pos, h1, h2, hi, hj]

theorem store_length (l : Layout) (f : Nat → Nat → α → α) (c : List α) : (l.store f c).length = c.length := by simp [Layout.store]

theorem store_at {l : Layout} (hv : l.valid = true) (f : Nat → Nat → α → α) {c : List α} {i j : Nat} (hi : i < l.rows) (hj : j < l.cols)
    {v : α} (h : c[l.pos i j]? = some v) : (l.store f c)[l.pos i j]? = some (f i j v) := by
  simp [Layout.store, List.getElem?_mapIdx, h, find_pos hv hi hj]

/-- What a row-major array of the right size means to a vendor library. -/
theorem read_row [Zero α] {t : Bool} {r c : Nat} {data : List α} {f : Nat → Nat → α}
    (h : Rows data (if t then c else r) (if t then r else c) f) {i j : Nat} (hi : i < r) (hj : j < c) :
    Layout.read ⟨if t then c else r, if t then r else c, if t then r else c, .row⟩ t data i j = op t f i j := by
  cases t with
  | true =>
    have h' : Rows data c r f := h
    simp [Layout.read, Layout.pos, op, List.getD, h'.2 j i hj hi]
  | false =>
    have h' : Rows data r c f := h
    simp [Layout.read, Layout.pos, op, List.getD, h'.2 i j hi hj]

theorem span_row {r c : Nat} (hr : 0 < r) : (⟨r, c, c, .row⟩ : Layout).span = r * c := by
  obtain ⟨r, rfl⟩ : ∃ k, r = k + 1 := ⟨r - 1, by omega⟩
  simp [Layout.span, Nat.succ_mul]

/-- The product of row-major matrices. -/
theorem product_rows [Semiring α] {tA tB : Bool} {M N K : Nat} {alpha beta : α} {a b c : List α} {Am Bm Cm : Nat → Nat → α}
    (hA : Rows a (if tA then K else M) (if tA then M else K) Am) (hB : Rows b (if tB then N else K) (if tB then K else N) Bm)
    (hC : Rows c M N Cm) :
    Rows (productOver ⟨if tA then K else M, if tA then M else K, if tA then M else K, .row⟩
      ⟨if tB then N else K, if tB then K else N, if tB then K else N, .row⟩ ⟨M, N, N, .row⟩ tA tB alpha a b beta c) M N
      fun i j => alpha * ∑ l ∈ Finset.range K, op tA Am i l * op tB Bm l j + beta * Cm i j := by
  refine ⟨by rw [productOver, store_length, hC.1], fun i j hi hj => ?_⟩
  have := store_at (l := ⟨M, N, N, .row⟩) (by simp [Layout.valid])
    (fun i j v => alpha * total (Layout.opCols ⟨if tA then K else M, if tA then M else K, if tA then M else K, .row⟩ tA)
      (fun l => Layout.read ⟨if tA then K else M, if tA then M else K, if tA then M else K, .row⟩ tA a i l *
        Layout.read ⟨if tB then N else K, if tB then K else N, if tB then K else N, .row⟩ tB b l j) + beta * v) hi hj (hC.2 i j hi hj)
  rw [productOver]
  refine this.trans ?_
  have hk : Layout.opCols ⟨if tA then K else M, if tA then M else K, if tA then M else K, .row⟩ tA = K := by cases tA <;> rfl
  rw [total_eq, hk]
  congr 3
  refine Finset.sum_congr rfl fun l hl => ?_
  rw [Finset.mem_range] at hl
  rw [read_row hA hi hl, read_row hB hl hj]

theorem rows_len {l : List α} {r c : Nat} {f : Nat → Nat → α} (h : Rows l r c f) : l.length = r * c := h.1

end Verif.VendorM
