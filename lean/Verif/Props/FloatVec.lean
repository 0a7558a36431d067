import Verif.Props.Vector
import Verif.Lemmas.FloatSum
import Mathlib.Data.List.Nodup

/-!
# C111: vectors in floating-point arithmetic

The code of C54 run on floating-point numbers, for vectors without padding.
-/

namespace Verif.Vec

open Ieee

variable {f : Fmt}

/-- Adding up values that are sums themselves. -/
theorem addUp_sumOf (n : Nat) (g : Nat → Fl f) (L : Nat → List (ℚ × ℚ)) (h : ∀ i, i < n → SumOf f (L i) (g i).val) :
    SumOf f ((List.range n).flatMap L) (addUp n g).val := by
  unfold addUp
  induction n with
  | zero => exact .empty
  | succ n ih =>
    rw [List.range_succ, List.flatMap_append, List.foldl_append]
    have := SumOf.add (ih fun i hi => h i (by omega)) (h n (by omega))
    simpa using! this

/-- The lanes of all packets are all lanes. -/
theorem lanes_perm (w p : Nat) :
    ((List.range w).flatMap fun l => (List.range p).map fun i => i * w + l).Perm (List.range (p * w)) := by
  refine (List.perm_ext_iff_of_nodup ?_ List.nodup_range).2 fun j => ?_
  · rw [List.nodup_flatMap]
    constructor
    · intro l hl
      have hw : 0 < w := by have := List.mem_range.1 hl; omega
      exact List.nodup_range.map_on fun i _ i' _ h => Nat.eq_of_mul_eq_mul_right hw (by omega)
    · refine List.Pairwise.imp_of_mem ?_ (List.nodup_range (n := w))
      intro l l' hl hl' hne
      rw [Function.onFun, List.disjoint_left]
      intro j hj hj'
      obtain ⟨i, -, rfl⟩ := List.mem_map.1 hj
      obtain ⟨i', -, h⟩ := List.mem_map.1 hj'
      have h1 := List.mem_range.1 hl
      have h2 := List.mem_range.1 hl'
      have a1 : (i * w + l) % w = l := by rw [Nat.mul_comm, Nat.mul_add_mod, Nat.mod_eq_of_lt h1]
      have a2 : (i' * w + l') % w = l' := by rw [Nat.mul_comm, Nat.mul_add_mod, Nat.mod_eq_of_lt h2]
      rw [h] at a2
      exact hne (a1.symm.trans a2)
  · simp only [List.mem_flatMap, List.mem_map, List.mem_range]
    constructor
    · rintro ⟨l, hl, i, hi, rfl⟩
      calc i * w + l < i * w + w := by omega
        _ = (i + 1) * w := by ring
        _ ≤ p * w := Nat.mul_le_mul_right _ hi
    · intro h
      have hw : 0 < w := by
        rcases Nat.eq_zero_or_pos w with h0 | h0
        · rw [h0] at h
          omega
        · exact h0
      exact ⟨j % w, Nat.mod_lt _ hw, j / w, (Nat.div_lt_iff_lt_mul hw).2 h, by rw [Nat.mul_comm]; exact Nat.div_add_mod _ _⟩

/-- The packets of a vector added lane by lane, then the lanes. -/
theorem blocks_sumOf (w p : Nat) (x y : Nat → ℚ) (g : Nat → Fl f) (h : ∀ j, j < p * w → SumOf f [(x j, y j)] (g j).val) :
    SumOf f ((List.range (p * w)).map fun j => (x j, y j)) (addUp w fun l => addUp p fun i => g (i * w + l)).val := by
  have h1 := addUp_sumOf w (fun l => addUp p fun i => g (i * w + l))
    (fun l => (List.range p).flatMap fun i => [(x (i * w + l), y (i * w + l))]) (fun l hl =>
      addUp_sumOf p (fun i => g (i * w + l)) (fun i => [(x (i * w + l), y (i * w + l))]) fun i hi => h _ (by
        calc i * w + l < i * w + w := by omega
          _ = (i + 1) * w := by ring
          _ ≤ p * w := Nat.mul_le_mul_right _ hi))
  have e : ((List.range w).flatMap fun l => (List.range p).flatMap fun i => [(x (i * w + l), y (i * w + l))]) =
      ((List.range w).flatMap fun l => (List.range p).map fun i => i * w + l).map fun j => (x j, y j) := by
    rw [List.map_flatMap]
    congr 1
    funext l
    rw [List.map_map]
    rw [← List.flatMap_singleton' (List.map _ _), List.flatMap_map]
    rfl
  rw [e] at h1
  exact .reorder ((lanes_perm w p).map _) h1

theorem packets_mul {n w : Nat} (hw : 1 ≤ w) (hdvd : w ∣ n) : packets n w * w = n := by
  obtain ⟨k, rfl⟩ := hdvd
  unfold packets
  rw [show w * k + w - 1 = (w - 1) + w * k by omega, Nat.add_mul_div_left _ _ (by omega), Nat.div_eq_of_lt (by omega), Nat.zero_add, Nat.mul_comm]

theorem sum_eqs (n : Nat) (x y : Nat → ℚ) :
    exactSum ((List.range n).map fun j => (x j, y j)) = ∑ j ∈ Finset.range n, x j * y j ∧
    magnitudeSum ((List.range n).map fun j => (x j, y j)) = ∑ j ∈ Finset.range n, |x j * y j| := by
  induction n with
  | zero => simp [exactSum, magnitudeSum]
  | succ n ih =>
    rw [Finset.sum_range_succ, Finset.sum_range_succ, ← ih.1, ← ih.2]
    simp [exactSum, magnitudeSum, List.range_succ]

/-- The error of a sum of `n` terms. -/
theorem sum_bound {n : Nat} {x y : Nat → ℚ} {v : ℚ} (h : SumOf f ((List.range n).map fun j => (x j, y j)) v) :
    |v - ∑ j ∈ Finset.range n, x j * y j| ≤ ((1 + unitRoundoff f) ^ n - 1) * (∑ j ∈ Finset.range n, |x j * y j|) +
      n * (1 + unitRoundoff f) ^ n * halfTiny f := by
  have e := h.error
  rw [(sum_eqs n x y).1, (sum_eqs n x y).2, List.length_map, List.length_range] at e
  exact e

/-- **C111**, reductions: `dot`, `sum` and `mag2` of any expressions over vectors of `n` components (a multiple of the packet width) evaluate
the sum of the products of the components in some order, and are within `n` roundings of the sum of the magnitudes. -/
theorem C111_reductions_partial (asserts : Bool) {n w : Nat} (hw : 1 ≤ w) (hdvd : w ∣ n) (mem : Nat → Fl f) {a b : Expr (Fl f)}
    (ha : Uniform n w a) (hva : HasVec a) (hb : Uniform n w b) :
    (∃ v, dot asserts mem a b = .ok v ∧ SumOf f ((List.range n).map fun j => ((meaning a j).val, (meaning b j).val)) v.val ∧
      |v.val - ∑ j ∈ Finset.range n, (meaning a j).val * (meaning b j).val| ≤
        ((1 + unitRoundoff f) ^ n - 1) * (∑ j ∈ Finset.range n, |(meaning a j).val * (meaning b j).val|) +
        n * (1 + unitRoundoff f) ^ n * halfTiny f) ∧
    (∃ v, mag2 asserts mem a = .ok v ∧ SumOf f ((List.range n).map fun j => ((meaning a j).val, (meaning a j).val)) v.val ∧ 0 ≤ v.val ∧
      |v.val - ∑ j ∈ Finset.range n, (meaning a j).val * (meaning a j).val| ≤
        ((1 + unitRoundoff f) ^ n - 1) * (∑ j ∈ Finset.range n, (meaning a j).val * (meaning a j).val) +
        n * (1 + unitRoundoff f) ^ n * halfTiny f) ∧
    ∃ v, sum asserts mem a = .ok v ∧ SumOf f ((List.range n).map fun j => ((meaning a j).val, 1)) v.val ∧
      |v.val - ∑ j ∈ Finset.range n, (meaning a j).val| ≤
        ((1 + unitRoundoff f) ^ (n - 1) - 1) * (∑ j ∈ Finset.range n, |(meaning a j).val|) := by
  have hp := packets_mul hw hdvd
  refine ⟨?_, ?_, ?_⟩
  · obtain ⟨r, h1, h2, h3, h4⟩ := eval_spec (asserts := asserts) hw mem (e := .bin (· * ·) a b) ⟨ha, hb⟩ (Or.inl hva)
    have h := blocks_sumOf (f := f) w (packets n w) (fun j => (meaning a j).val) (fun j => (meaning b j).val) r.lane fun j hj => by
      rw [h4 j hj]
      exact .product _ _
    rw [hp] at h
    refine ⟨r.sum, ?_, ?_, ?_⟩
    · unfold dot sum
      rw [h1]
      rfl
    · unfold V.sum V.length
      rw [h2, h3]
      exact h
    · unfold V.sum V.length
      rw [h2, h3]
      exact sum_bound h
  · obtain ⟨r, h1, h2, h3, h4⟩ := eval_spec (asserts := asserts) hw mem ha hva
    have h := blocks_sumOf (f := f) w (packets n w) (fun j => (meaning a j).val) (fun j => (meaning a j).val) (fun j => r.lane j * r.lane j)
      fun j hj => by
        rw [h4 j hj]
        exact .product _ _
    rw [hp] at h
    have e : mag2 asserts mem a = .ok (addUp w fun l => addUp (packets n w) fun i => r.lane (i * w + l) * r.lane (i * w + l)) := by
      unfold mag2
      rw [h1, Out.ok_bind, V.sum2, V.length, h2, h3]
    refine ⟨_, e, h, h.nonneg ?_, ?_⟩
    · intro p hp
      obtain ⟨j, -, rfl⟩ := List.mem_map.1 hp
      exact mul_self_nonneg _
    · have := sum_bound h
      simp only [abs_mul_self] at this
      exact this
  · obtain ⟨r, h1, h2, h3, h4⟩ := eval_spec (asserts := asserts) hw mem ha hva
    have h := blocks_sumOf (f := f) w (packets n w) (fun j => (meaning a j).val) (fun _ => 1) r.lane fun j hj => by
      rw [h4 j hj]
      have := SumOf.product (f := f) (meaning a j).val 1
      rwa [mul_one, rnd_of_repr (meaning a j).repr] at this
    rw [hp] at h
    have e : sum asserts mem a = .ok (addUp w fun l => addUp (packets n w) fun i => r.lane (i * w + l)) := by
      unfold sum
      rw [h1, Out.ok_bind, V.sum, V.length, h2, h3]
    refine ⟨_, e, h, ?_⟩
    have := h.error_exact (by
      intro p hp
      obtain ⟨j, -, rfl⟩ := List.mem_map.1 hp
      rw [mul_one]
      exact (meaning a j).repr)
    rw [(sum_eqs n _ _).1, (sum_eqs n _ _).2, List.length_map, List.length_range] at this
    simpa using this

/-- **C111**, the cross product: each component is within two roundings of the two products. -/
theorem C111_cross (asserts : Bool) (mem : Nat → Fl f) (a b : V (Fl f)) (ha : a.dims = 3) (hb : b.dims = 3) :
    ∃ r, cross asserts mem a b = .ok r ∧ r.dims = 3 ∧ ∀ i : Fin 3,
      |(comps r i).val - crossProduct (fun i => (comps a i).val) (fun i => (comps b i).val) i| ≤
        ((1 + unitRoundoff f) ^ 2 - 1) * (|(comps a (i + 1)).val * (comps b (i + 2)).val| + |(comps a (i + 2)).val * (comps b (i + 1)).val|) +
        2 * (1 + unitRoundoff f) ^ 2 * halfTiny f := by
  have g : ∀ v : V (Fl f), v.dims = 3 → ∀ i : Nat, i < 3 → v.get asserts (i : Int) = .ok (v.lane i) := fun v hv i hi =>
    ((C54_access asserts v i 0).1 (by omega)).1
  unfold cross
  rw [decide_eq_true ⟨ha, hb⟩, Out.assert_true, Out.ok_bind]
  rw [show (0 : Int) = ((0 : Nat) : Int) from rfl, show (1 : Int) = ((1 : Nat) : Int) from rfl, show (2 : Int) = ((2 : Nat) : Int) from rfl]
  rw [g a ha 0 (by decide), g a ha 1 (by decide), g a ha 2 (by decide), g b hb 0 (by decide), g b hb 1 (by decide), g b hb 2 (by decide)]
  simp only [Out.ok_bind]
  unfold ofList
  rw [decide_eq_true (by simp), Out.assert_true, Out.ok_bind]
  refine ⟨_, rfl, rfl, ?_⟩
  have key : ∀ w x y z : Fl f, |(w * x - y * z).val - (w.val * x.val - y.val * z.val)| ≤
      ((1 + unitRoundoff f) ^ 2 - 1) * (|w.val * x.val| + |y.val * z.val|) + 2 * (1 + unitRoundoff f) ^ 2 * halfTiny f := by
    intro w x y z
    have h := SumOf.add (SumOf.product (f := f) w.val x.val) (SumOf.product (-y.val) z.val)
    rw [neg_mul, rnd_neg, ← sub_eq_add_neg] at h
    have e := h.error
    simp only [sumBound, exactSum, magnitudeSum, List.map_cons, List.map_nil, List.sum_cons, List.sum_nil, List.length_cons,
      List.length_nil, zero_add, add_zero, Nat.reduceAdd, Nat.cast_ofNat, neg_mul, abs_neg, List.cons_append, List.nil_append,
      ← sub_eq_add_neg] at e
    exact e
  intro i
  rw [cross_apply]
  fin_cases i
  · exact key _ _ _ _
  · exact key _ _ _ _
  · exact key _ _ _ _

/-- Floating-point cross products need not be orthogonal to their arguments, and the sum of a vector can lose all of its small components. -/
theorem C111_orthogonal_false :
    (∃ a b r : V (Fl binary64), a.dims = 3 ∧ b.dims = 3 ∧ cross true (fun _ => 0) a b = .ok r ∧
      (comps a 0).val * (comps r 0).val + (comps a 1).val * (comps r 1).val + (comps a 2).val * (comps r 2).val ≠ 0) ∧
    ∃ v s : Fl binary64, sum true (fun _ => 0) (.vec (ofArgs 2 1 (fun _ => 0) [.round _ (2 ^ 53), v])) = .ok s ∧ v.val = 1 ∧ s.val = 2 ^ 53 := by
  constructor
  · refine ⟨ofArgs 3 1 (fun _ => 0) [.round _ (1 / 10), .round _ (1 / 5), .round _ (3 / 10)],
      ofArgs 3 1 (fun _ => 0) [.round _ (7 / 10), .round _ (1 / 3), .round _ (9 / 10)], _, rfl, rfl, rfl, ?_⟩
    decide +kernel
  · refine ⟨.round _ 1, _, rfl, ?_, ?_⟩ <;> decide +kernel

/-- The hypotheses of `C111_reductions_partial` are met: eight doubles in packets of four. -/
example (x y : Nat → Fl binary64) : ∃ v, dot true (fun _ => 0) (.vec ⟨8, 4, x⟩) (.vec ⟨8, 4, y⟩) = .ok v ∧
    |v.val - ∑ j ∈ Finset.range 8, (x j).val * (y j).val| ≤
      ((1 + unitRoundoff binary64) ^ 8 - 1) * (∑ j ∈ Finset.range 8, |(x j).val * (y j).val|) +
      (8 : Nat) * (1 + unitRoundoff binary64) ^ 8 * halfTiny binary64 := by
  obtain ⟨v, h1, -, h2⟩ := (C111_reductions_partial (f := binary64) true (n := 8) (w := 4) (by decide) (by decide) (fun _ => 0) (a := .vec ⟨8, 4, x⟩)
    (b := .vec ⟨8, 4, y⟩) ⟨rfl, rfl⟩ trivial ⟨rfl, rfl⟩).1
  exact ⟨v, h1, h2⟩

end Verif.Vec
