import Verif.Lemmas.GpuGemm
import Mathlib.Algebra.BigOperators.Group.Finset.Basic
import Mathlib.Algebra.BigOperators.Intervals
import Mathlib.Algebra.Ring.Defs
import Mathlib.Data.List.FinRange

/-! Bounds on the number of steps; sums. -/

namespace Verif.Gpu

section
variable {L V : Type}

theorem Prog.AtMost.succ {n : Nat} {p : Prog L V} (h : p.AtMost n) : p.AtMost (n + 1) := by
  induction n generalizing p with
  | zero => cases p <;> first | trivial | exact absurd h id
  | succ n ih =>
    cases p with
    | ret => trivial
    | fail => trivial
    | read l k => exact fun v => ih (h v)
    | write l v k => exact ih (p := k) h
    | barrier k => exact ih (p := k) h

theorem Prog.AtMost.mono {n m : Nat} {p : Prog L V} (h : p.AtMost n) (hm : n ≤ m) : p.AtMost m := by
  induction hm with
  | refl => exact h
  | step _ ih => exact ih.succ

theorem Prog.AtMost.ret {n : Nat} : (Prog.ret : Prog L V).AtMost n := by cases n <;> trivial

theorem Prog.AtMost.within {n lim i : Nat} {p : Prog L V} (h : p.AtMost n) : (Gpu.within lim i p).AtMost n := by
  unfold Gpu.within
  split
  · exact h
  · cases n <;> trivial

theorem Prog.AtMost.read {n : Nat} {l : L} {k : V → Prog L V} (h : ∀ v, (k v).AtMost n) : (Prog.read l k).AtMost (n + 1) := h
theorem Prog.AtMost.write {n : Nat} {l : L} {v : V} {k : Prog L V} (h : k.AtMost n) : (Prog.write l v k).AtMost (n + 1) := h
theorem Prog.AtMost.barrier {n : Nat} {k : Prog L V} (h : k.AtMost n) : (Prog.barrier k).AtMost (n + 1) := h
end

variable {K : Type} [Zero K] [Add K] [Mul K]

theorem gemvLoop_atMost {lim : Nat} {g : GemvArgs K} {idx b : Nat} {k : K → Prog GemvLoc K} (h : ∀ s, (k s).AtMost b) :
    ∀ (r j : Nat) (s : K), (gemvLoop lim g idx k r j s).AtMost (2 * r + b)
  | 0, _, s => by simpa [gemvLoop] using h s
  | r + 1, j, s => by
    rw [show 2 * (r + 1) + b = 2 * r + b + 1 + 1 by omega]
    exact Prog.AtMost.within (Prog.AtMost.read fun _ => Prog.AtMost.within (Prog.AtMost.read fun _ => gemvLoop_atMost h r (j + 1) _))

theorem gemv_atMost {lim : Nat} {g : GemvArgs K} {idx : Nat} : (gemv lim g idx).AtMost (2 * g.n + 2) := by
  unfold gemv
  split
  · exact gemvLoop_atMost (b := 2) (fun s => Prog.AtMost.within (Prog.AtMost.read fun _ => Prog.AtMost.write Prog.AtMost.ret)) _ _ _
  · exact Prog.AtMost.ret

theorem transpose_atMost {lim rows cols D : Nat} {alpha : K} {g l : Nat × Nat} : (transpose lim rows cols D alpha g l).AtMost 5 := by
  have ht : (transposeTail lim rows cols D alpha g l).AtMost 2 := by
    unfold transposeTail
    split
    · exact Prog.AtMost.within (Prog.AtMost.read fun _ => Prog.AtMost.write Prog.AtMost.ret)
    · exact Prog.AtMost.ret
  unfold transpose
  split
  · exact Prog.AtMost.within (Prog.AtMost.read fun _ => Prog.AtMost.write (Prog.AtMost.barrier ht))
  · exact Prog.AtMost.mono (Prog.AtMost.barrier ht) (by omega)

theorem gemmInner_atMost {p : GemmArgs K} {g l : Nat × Nat} {base b : Nat} {k : K → Prog GemmLoc K} (h : ∀ s, (k s).AtMost b) :
    ∀ (r j : Nat) (s : K), (gemmInner p g l base k r j s).AtMost (2 * r + b)
  | 0, _, s => by simpa [gemmInner] using h s
  | r + 1, j, s => by
    rw [show 2 * (r + 1) + b = 2 * r + b + 1 + 1 by omega, gemmInner]
    split
    · exact Prog.AtMost.read fun _ => Prog.AtMost.read fun _ => gemmInner_atMost h r (j + 1) _
    · exact (gemmInner_atMost h r (j + 1) s).mono (by omega)

theorem gemmTiles_atMost {lim D : Nat} {p : GemmArgs K} {g l : Nat × Nat} : ∀ (r t : Nat) (s : K), (gemmTiles lim D p g l r t s).AtMost (r * (2 * D + 6) + 2)
  | 0, _, s => by
    rw [gemmTiles]; unfold gemmFinish
    split
    · exact Prog.AtMost.mono (Prog.AtMost.within (Prog.AtMost.read fun _ => Prog.AtMost.write (Prog.AtMost.ret (n := 0)))) (by omega)
    · exact Prog.AtMost.ret
  | r + 1, t, s => by
    rw [gemmTiles]
    have h1 : (gemmInner p g l (t * D) (fun s => .barrier (gemmTiles lim D p g l r (t + 1) s)) D 0 s).AtMost (2 * D + (r * (2 * D + 6) + 2 + 1)) :=
      gemmInner_atMost (fun s => Prog.AtMost.barrier (gemmTiles_atMost r (t + 1) s)) D 0 s
    have h2 : ∀ {b : Nat} {q : Prog GemmLoc K}, q.AtMost b → (gemmLoadB lim D p g l t q).AtMost (b + 2) := by
      intro b q hq
      unfold gemmLoadB
      split
      · exact Prog.AtMost.within (Prog.AtMost.read fun _ => Prog.AtMost.write hq)
      · exact Prog.AtMost.mono (Prog.AtMost.write hq) (by omega)
    have h3 : ∀ {b : Nat} {q : Prog GemmLoc K}, q.AtMost b → (gemmLoadA lim D p g l t q).AtMost (b + 2) := by
      intro b q hq
      unfold gemmLoadA
      split
      · exact Prog.AtMost.within (Prog.AtMost.read fun _ => Prog.AtMost.write hq)
      · exact Prog.AtMost.mono (Prog.AtMost.write hq) (by omega)
    refine (h3 (h2 (Prog.AtMost.barrier h1))).mono ?_
    have : (r + 1) * (2 * D + 6) = r * (2 * D + 6) + (2 * D + 6) := by rw [Nat.add_mul, Nat.one_mul]
    omega

/-- Every work item of a grid. -/
def allItems (gx gy D : Nat) : List (Item gx gy D) := (List.finRange gx ×ˢ List.finRange gy) ×ˢ (List.finRange D ×ˢ List.finRange D)

theorem mem_allItems {gx gy D : Nat} (t : Item gx gy D) : t ∈ allItems gx gy D := by
  obtain ⟨⟨a, b⟩, c, d⟩ := t
  simp [allItems]

end Verif.Gpu

namespace Verif.Gpu
section
variable {K : Type} [Semiring K]
open Finset

theorem foldl_range_sum (f : Nat → K) (n : Nat) (s : K) : (List.range n).foldl (fun s j => s + f j) s = s + ∑ j ∈ range n, f j := by
  induction n with
  | zero => simp
  | succ n ih => rw [List.range_succ, List.foldl_append, ih, Finset.sum_range_succ]; simp [add_assoc]

theorem dotFrom_sum (A X : Nat → K) (n : Nat) : dotFrom A X n 0 0 = ∑ j ∈ range n, A j * X j := by
  rw [dotFrom, ← List.range_eq_range', foldl_range_sum (fun j => A j * X j), zero_add]

theorem tileSum_sum {D : Nat} {p : GemmArgs K} {a b : Nat → K} {g l : Nat × Nat} {t : Nat} {s : K} :
    tileSum D p a b g l t D 0 s = s + ∑ j ∈ range D, if t * D + j < p.k then valA D p a g t l.2 j * valB D p b g t j l.1 else 0 := by
  rw [tileSum, ← List.range_eq_range', ← foldl_range_sum]
  congr 1
  funext s j
  split <;> simp

theorem accAt_sum {D : Nat} {p : GemmArgs K} {a b : Nat → K} {g l : Nat × Nat} (t : Nat) :
    accAt D p a b g l t = ∑ q ∈ range (t * D), if q < p.k then valA D p a g (q / D) l.2 (q % D) * valB D p b g (q / D) (q % D) l.1 else 0 := by
  induction t with
  | zero => simp [accAt]
  | succ t ih =>
    have h1 : accAt D p a b g l (t + 1) = tileSum D p a b g l t D 0 (accAt D p a b g l t) := by simp [accAt, List.range_succ]
    rw [h1, tileSum_sum, ih, Nat.add_mul, Nat.one_mul, Finset.sum_range_add]
    congr 1
    refine Finset.sum_congr rfl fun j hj => ?_
    rw [Finset.mem_range] at hj
    have hD : 0 < D := by omega
    have e1 : (t * D + j) / D = t := by rw [Nat.mul_comm, Nat.mul_add_div hD, Nat.div_eq_of_lt hj, Nat.add_zero]
    have e2 : (t * D + j) % D = j := by rw [Nat.mul_comm, Nat.mul_add_mod, Nat.mod_eq_of_lt hj]
    rw [e1, e2]

/-- The accumulator at the end, for a result inside the matrix. -/
theorem accAt_end {D tiles : Nat} {p : GemmArgs K} {a b : Nat → K} {g l : Nat × Nat} (hD : 0 < D) (ht : p.k ≤ tiles * D) (hm : g.2 * D + l.2 < p.m) (hn : g.1 * D + l.1 < p.n) :
    accAt D p a b g l tiles = ∑ q ∈ range p.k, a (p.atA (g.2 * D + l.2) q) *
      if q / D * D + l.1 < p.k then b (p.atB (g.1 * D + l.1) (g.2 * D + q % D) (q / D * D + l.1)) else 0 := by
  rw [accAt_sum, ← Finset.sum_filter]
  have : (range (tiles * D)).filter (· < p.k) = range p.k := by
    ext q; simp only [Finset.mem_filter, Finset.mem_range]; omega
  rw [this]
  refine Finset.sum_congr rfl fun q hq => ?_
  rw [Finset.mem_range] at hq
  have e : q / D * D + q % D = q := by rw [Nat.mul_comm]; exact Nat.div_add_mod q D
  simp [valA, valB, e, hq, hm, hn]
end
end Verif.Gpu
