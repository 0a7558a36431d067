import Verif.Model.GpuRandom
import Verif.Lemmas.GpuAssign

/-! Lemmas about the generator and `fillRandom`. -/

namespace Verif.Gpu

open Verif.RandomM

/-! ### The sequence of MT19937 -/

/-- The words of MT19937 for a seed: the state after seeding, then the recurrence. -/
def mtSeq (s n : Nat) : Nat :=
  if n < 624 then seedWord s n else mtWord (mtSeq s (n - 624)) (mtSeq s (n - 623)) (mtSeq s (n - 227))
termination_by n

theorem mtSeq_lt {s n : Nat} (h : n < 624) : mtSeq s n = seedWord s n := by rw [mtSeq.eq_def, if_pos h]

theorem mtSeq_rec (s n : Nat) : mtSeq s (n + 624) = mtWord (mtSeq s n) (mtSeq s (n + 1)) (mtSeq s (n + 397)) := by
  rw [mtSeq.eq_def, if_neg (by omega)]
  rw [show n + 624 - 624 = n by omega, show n + 624 - 623 = n + 1 by omega, show n + 624 - 227 = n + 397 by omega]

theorem mtInit_eq (s : Nat) : ∀ n i, mtInit n (i + 1) (seedWord s i) = (List.range' (i + 1) n).map (seedWord s)
  | 0, _ => rfl
  | n + 1, i => by
    rw [List.range'_succ, List.map_cons, ← mtInit_eq s n (i + 1)]
    rfl

theorem mtSeed_eq (s : Nat) : (mtSeed s).x = (List.range' 0 624).map (mtSeq s) := by
  show s % 2 ^ 32 :: mtInit 623 (0 + 1) (seedWord s 0) = _
  have e : List.range' 0 624 = 0 :: List.range' (0 + 1) 623 := List.range'_succ (s := 0) (n := 623) (step := 1)
  rw [mtInit_eq, e, List.map_cons, mtSeq_lt (by omega)]
  congr 1
  refine List.map_congr_left fun i hi => ?_
  rw [List.mem_range'_1] at hi
  rw [mtSeq_lt (by omega)]

theorem mtStep_eq (s k : Nat) : mtStep ((List.range' k 624).map (mtSeq s)) = ((List.range' (k + 1) 624).map (mtSeq s), mtSeq s (k + 624)) := by
  have h : (List.range' k 624).map (mtSeq s) = mtSeq s k :: mtSeq s (k + 1) :: (List.range' (k + 2) 622).map (mtSeq s) := by
    have e1 : List.range' k 624 = k :: List.range' (k + 1) 623 := List.range'_succ (s := k) (n := 623) (step := 1)
    have e2 : List.range' (k + 1) 623 = (k + 1) :: List.range' (k + 1 + 1) 622 := List.range'_succ (s := k + 1) (n := 622) (step := 1)
    rw [e1, List.map_cons, e2, List.map_cons]
  have h395 : ((List.range' (k + 2) 622).map (mtSeq s))[395]? = some (mtSeq s (k + 397)) := by
    rw [List.getElem?_map, List.getElem?_range' (by decide)]
    show some (mtSeq s (k + 2 + 1 * 395)) = _
    congr 2
  have e1 : List.range' (k + 1) 624 = List.range' (k + 1) 623 ++ [k + 1 + 623] := List.range'_1_concat (s := k + 1) (n := 623)
  have e2 : List.range' (k + 1) 623 = (k + 1) :: List.range' (k + 1 + 1) 622 := List.range'_succ (s := k + 1) (n := 622) (step := 1)
  have e3 : (List.range' (k + 1) 624).map (mtSeq s) = mtSeq s (k + 1) :: ((List.range' (k + 2) 622).map (mtSeq s) ++ [mtSeq s (k + 624)]) := by
    rw [e1, e2, List.cons_append, List.map_cons, List.map_append, List.map_cons, List.map_nil, show k + 1 + 623 = k + 624 by omega]
  rw [e3, mtSeq_rec, h]
  unfold mtStep
  dsimp only
  rw [h395]

/-- The standard's generator puts out the tempered words of the sequence. -/
theorem mtNext_out (s n : Nat) : nthOut mtNext n (mtSeed s) = temper (mtSeq s (n + 624)) := by
  have : ∀ n k, nthOut mtNext n ⟨(List.range' k 624).map (mtSeq s)⟩ = temper (mtSeq s (k + n + 624)) := by
    intro n
    induction n with
    | zero =>
      intro k
      simp only [nthOut, mtNext]
      rw [mtStep_eq]
    | succ n ih =>
      intro k
      simp only [nthOut, mtNext]
      rw [mtStep_eq]
      have := ih (k + 1)
      rw [this, show k + 1 + n = k + (n + 1) by omega]
  have h := this n 0
  rw [← mtSeed_eq, Nat.zero_add] at h
  exact h

/-! ### The variant with a loop -/

/-- Words of block `b` below `kk` are those of the next block. -/
def Block (s b kk : Nat) (m : Nat → Nat) : Prop := ∀ i, i < 624 → m i = mtSeq s (624 * (if i < kk then b + 1 else b) + i)

theorem Block.twist {s b kk j k : Nat} {m : Nat → Nat} (h : Block s b kk m) (hk : kk < 624) (hj : m j = mtSeq s (624 * b + kk + 1)) (hk' : m k = mtSeq s (624 * b + kk + 397)) :
    Block s b (kk + 1) (twist m kk j k) := by
  intro i hi
  unfold Gpu.twist
  by_cases e : i = kk
  · subst e
    rw [Function.update_self, hj, hk', h i hi, if_neg (by omega), if_pos (by omega), ← mtSeq_rec, show 624 * b + i + 624 = 624 * (b + 1) + i by omega]
  · rw [Function.update_of_ne e, h i hi]
    congr 2
    by_cases hlt : i < kk
    · rw [if_pos hlt, if_pos (by omega)]
    · rw [if_neg hlt, if_neg (by omega)]

theorem regenLoop_block {s b : Nat} : ∀ (r kk : Nat) {m : Nat → Nat}, r + kk = 623 → Block s b kk m → Block s b 623 (regenLoop r kk m)
  | 0, kk, m, e, h => by
    rw [Nat.zero_add] at e
    subst e; exact h
  | r + 1, kk, m, e, h => by
    refine regenLoop_block r (kk + 1) (by omega) (h.twist (by omega) ?_ ?_)
    · rw [h _ (by omega), if_neg (by omega), Nat.add_assoc]
    · split
      · rw [h _ (by omega), if_neg (by omega), Nat.add_assoc]
      · rw [h _ (by omega), if_pos (by omega)]
        rw [show 624 * (b + 1) + (kk + 397 - 624) = 624 * b + kk + 397 by omega]

/-- A block of words, of which the first `r` have been put out. -/
def LoopInv (s n : Nat) (g : GMt) : Prop := ∃ b, Block s b 0 g.mt ∧ g.mti ≤ 624 ∧ n + 624 = 624 * b + g.mti

theorem loopUint_step {s n : Nat} {g : GMt} (h : LoopInv s n g) : (loopUint g).1 = temper (mtSeq s (n + 624)) ∧ LoopInv s (n + 1) (loopUint g).2 := by
  obtain ⟨b, hb, hm, hn⟩ := h
  by_cases he : 624 ≤ g.mti
  · have hbl : Block s (b + 1) 0 (twist (regenLoop 623 0 g.mt) 623 0 396) := by
      have h623 := regenLoop_block 623 0 rfl hb
      have := h623.twist (j := 0) (k := 396) (by omega) (by rw [h623 0 (by omega), if_pos (by omega)]; congr 1) (by
        rw [h623 396 (by omega), if_pos (by omega)]; congr 1)
      intro i hi
      rw [this i hi, if_pos (by omega), if_neg (by omega)]
    simp only [loopUint, if_pos he]
    refine ⟨?_, b + 1, hbl, by simp, by show n + 1 + 624 = 624 * (b + 1) + (0 + 1); omega⟩
    show temper (twist (regenLoop 623 0 g.mt) 623 0 396 0) = _
    rw [hbl 0 (by omega), if_neg (by omega)]
    congr 2; omega
  · simp only [loopUint, if_neg he]
    refine ⟨?_, b, hb, by show g.mti + 1 ≤ 624; omega, by show n + 1 + 624 = 624 * b + (g.mti + 1); omega⟩
    rw [hb g.mti (by omega), if_neg (by omega)]
    congr 2; omega

theorem loopUint_out (s n : Nat) : nthOut loopUint n (gmtSeed s) = temper (mtSeq s (n + 624)) := by
  have : ∀ n k g, LoopInv s k g → nthOut loopUint n g = temper (mtSeq s (k + n + 624)) := by
    intro n
    induction n with
    | zero => intro k g h; exact (loopUint_step h).1
    | succ n ih =>
      intro k g h
      rw [nthOut, ih (k + 1) _ (loopUint_step h).2, show k + 1 + n = k + (n + 1) by omega]
  have h := this n 0 (gmtSeed s) ⟨0, fun i hi => by rw [if_neg (by omega), Nat.mul_zero, Nat.zero_add, mtSeq_lt hi]; rfl, by simp [gmtSeed], rfl⟩
  rw [Nat.zero_add] at h
  exact h

/-! ### The variant in use -/

theorem gmtUint_step {s r : Nat} {g : GMt} (h0 : g.mt 0 = s) (hr : 1 ≤ r) (hr' : r ≤ 623) (hm : g.mti = r ∨ (r = 623 ∧ g.mti = 624)) :
    (gmtUint g).2.mt 0 = s ∧ (if r = 623 then (gmtUint g).1 = temper s ∧ (gmtUint g).2.mti = 1 else (gmtUint g).2.mti = r + 1) := by
  by_cases h : r = 623
  · have hm' : ¬ g.mti < 624 - 397 ∧ ¬ g.mti < 624 - 1 := by omega
    have : twist g.mt 623 0 396 0 = s := by unfold twist; rw [Function.update_of_ne (by decide), h0]
    simp only [gmtUint, gmtUpdate, if_neg hm'.1, if_neg hm'.2, if_pos h, this, and_self]
  · have hm' : g.mti = r := by omega
    rw [if_neg h]
    by_cases h1 : r < 624 - 397
    · simp only [gmtUint, gmtUpdate, hm', if_pos h1]
      exact ⟨by unfold twist; rw [Function.update_of_ne (by omega), h0], trivial⟩
    · simp only [gmtUint, gmtUpdate, hm', if_neg h1, if_pos (show r < 624 - 1 by omega)]
      exact ⟨by unfold twist; rw [Function.update_of_ne (by omega), h0], trivial⟩

/-- From position `r` the word 0 is put out after `623 - r` calls and then every 623 calls. -/
theorem gmtUint_out {s : Nat} : ∀ (n r : Nat) (g : GMt), g.mt 0 = s → 1 ≤ r → r ≤ 623 → (g.mti = r ∨ (r = 623 ∧ g.mti = 624)) → (n + r) % 623 = 0 → nthOut gmtUint n g = temper s
  | 0, r, g, h0, hr, hr', hm, hn => by
    have h := gmtUint_step h0 hr hr' hm
    rw [if_pos (by omega)] at h
    exact h.2.1
  | n + 1, r, g, h0, hr, hr', hm, hn => by
    have h := gmtUint_step h0 hr hr' hm
    by_cases e : r = 623
    · rw [if_pos e] at h
      exact gmtUint_out n 1 _ h.1 (by omega) (by omega) (.inl h.2.2) (by omega)
    · rw [if_neg e] at h
      exact gmtUint_out n (r + 1) _ h.1 (by omega) (by omega) (.inl h.2) (by omega)

end Verif.Gpu
