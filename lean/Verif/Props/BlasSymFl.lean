import Verif.Props.Blas1Fl
import Verif.Props.BlasMulFl

/-!
# C169: symmetric products and updates of BLAS in floating point

`symv` adds two inner products to each element, and `syr` and `syr2` one and two products to each element of the triangle.
-/

namespace Verif.Blas

open Finset Verif.Ieee

variable {f : Fmt} {o : Order} {u : UpLo} {n : Nat} {alpha beta : Fl f} {A ld x incX y incY : Int} {m : Mem (Fl f)} {Q : Nat → Nat → Fl f}
  {xv yv : Nat → Fl f}

/-- Two inner products, one after the other. -/
theorem twoDots_err (he : f.emin ≤ 0) {v s1 s2 : Fl f} {K1 K2 : Nat} {S1 S2 T1 T2 : ℚ} (hS1 : |S1| ≤ T1) (hS2 : |S2| ≤ T2)
    (h1 : |s1.val - S1| ≤ sumBound f K1 T1) (h2 : |s2.val - S2| ≤ sumBound f K2 T2) :
    |(v * beta + alpha * s1 + alpha * s2).val - (beta.val * v.val + alpha.val * (S1 + S2))| ≤
      ((1 + unitRoundoff f) ^ (K1 + K2 + 4) - 1) * (|beta.val * v.val| + |alpha.val| * (T1 + T2)) +
        (4 + (K1 + K2) * |alpha.val|) * (1 + unitRoundoff f) ^ (K1 + K2 + 4) * halfTiny f := by
  have hu := unit_pos f
  have ht := tiny_pos f
  have e0 : MulM.scal beta v = v * beta := by
    unfold MulM.scal
    split
    · rename_i h0; rw [h0, fl_mul_zero]
    · rfl
  have e1 : ∀ w : Fl f, MulM.scal 1 w = w := by
    intro w
    unfold MulM.scal
    split
    · rename_i h0
      have h0 := congrArg Fl.val h0
      rw [val_one he, val_zero] at h0
      norm_num at h0
    · exact MulM.fl_mul_one he w
  have a1 := MulM.combine_err (b := beta) (v := v) (al := alpha) hS1 h1
  have a2 := MulM.combine_err (b := 1) (v := v * beta + alpha * s1) (al := alpha) hS2 h2
  rw [e0] at a1
  rw [e1, val_one he, one_mul] at a2
  have hp : (1 + unitRoundoff f) ^ (K1 + K2 + 4) = (1 + unitRoundoff f) ^ (K1 + 2) * (1 + unitRoundoff f) ^ (K2 + 2) := by
    rw [← pow_add]; congr 1; ring
  rw [hp]
  have p1 : 1 ≤ (1 + unitRoundoff f) ^ (K1 + 2) := one_le_pow_unit f _
  have q1 : 1 ≤ (1 + unitRoundoff f) ^ (K2 + 2) := one_le_pow_unit f _
  have hT1 : 0 ≤ T1 := (abs_nonneg _).trans hS1
  have hT2 : 0 ≤ T2 := (abs_nonneg _).trans hS2
  have hal := abs_nonneg alpha.val
  have hX : |beta.val * v.val + alpha.val * S1| ≤ |beta.val * v.val| + |alpha.val| * T1 := by
    refine (abs_add_le _ _).trans ?_
    rw [abs_mul alpha.val]
    have := mul_le_mul_of_nonneg_left hS1 hal
    linarith
  generalize (v * beta + alpha * s1 + alpha * s2).val = W at *
  generalize (v * beta + alpha * s1).val = V at *
  generalize (1 + unitRoundoff f) ^ (K1 + 2) = p at *
  generalize (1 + unitRoundoff f) ^ (K2 + 2) = q at *
  generalize halfTiny f = t at *
  have hB := abs_nonneg (beta.val * v.val)
  generalize hBd : |beta.val * v.val| = B at *
  generalize hbv : beta.val * v.val = bv at *
  generalize hc1 : (2 + (K1 : ℚ) * |alpha.val|) = c1 at *
  generalize hc2 : (2 + (K2 : ℚ) * |alpha.val|) = c2 at *
  have hc1' : 0 ≤ c1 := by rw [← hc1]; positivity
  have hc2' : 0 ≤ c2 := by rw [← hc2]; positivity
  have hcc : 4 + ((K1 : ℚ) + K2) * |alpha.val| = c1 + c2 := by rw [← hc1, ← hc2]; ring
  rw [hcc]
  generalize |alpha.val| = al at *
  have hX1 : 0 ≤ B + al * T1 := by positivity
  have hV : |V| ≤ p * (B + al * T1) + c1 * p * t := by
    have h3 : |V| ≤ |bv + alpha.val * S1| + |V - (bv + alpha.val * S1)| := by
      have := abs_add_le (bv + alpha.val * S1) (V - (bv + alpha.val * S1))
      rwa [add_sub_cancel] at this
    linarith
  have h4 : |W - (bv + alpha.val * (S1 + S2))| ≤ |W - (V + alpha.val * S2)| + |V - (bv + alpha.val * S1)| := by
    rw [show W - (bv + alpha.val * (S1 + S2)) = (W - (V + alpha.val * S2)) + (V - (bv + alpha.val * S1)) by ring]
    exact abs_add_le _ _
  have h5 : (q - 1) * (|V| + al * T2) ≤ (q - 1) * (p * (B + al * T1) + c1 * p * t + al * T2) :=
    mul_le_mul_of_nonneg_left (by linarith) (by linarith)
  have h6 : 0 ≤ (p - 1) * (q * (al * T2)) := mul_nonneg (by linarith) (by positivity)
  have h7 : 0 ≤ (p - 1) * (c2 * q * t) := mul_nonneg (by linarith) (by positivity)
  linarith [show (p * q - 1) * (B + al * (T1 + T2)) + (c1 + c2) * (p * q) * t -
    ((q - 1) * (p * (B + al * T1) + c1 * p * t + al * T2) + c2 * q * t + ((p - 1) * (B + al * T1) + c1 * p * t)) =
    (p - 1) * (q * (al * T2)) + (p - 1) * (c2 * q * t) by ring]

theorem twoMv_fl {D1 D2 : Nat → M (Fl f) (Fl f)} {d1 d2 : Nat → Fl f} (hy : InitAt beta m y incY n yv) (hi : incY ≠ 0)
    (h1 : ∀ i, i < n → ∀ m', AgreeOff (cells y incY n) m m' → D1 i m' = .ok (d1 i, m'))
    (h2 : ∀ i, i < n → ∀ m', AgreeOff (cells y incY n) m m' → D2 i m' = .ok (d2 i, m')) :
    (do
      scalInitGeneric n beta (start n y incY) incY
      loop n fun i => addDot alpha (D1 i) (start n y incY + i * incY)
      loop n fun i => addDot alpha (D2 i) (start n y incY + i * incY) : M (Fl f) Unit) m =
    .ok ((), over m (elem y incY n) (fun i => yv i * beta + alpha * d1 i + alpha * d2 i) (below n)) := by
  have hinj := (elem_inj (x := y) (n := n) hi).injOn (s := below n)
  rw [bind2_ok (mv_fl (alpha := alpha) hy hi h1)]
  simp only [start_elem]
  rw [accum_run (d := d2) (yv := fun i => yv i * beta + alpha * d1 i) hinj]
  · rw [over_same hinj]
  · intro i hin m' hm
    rw [image_elem] at hm
    exact h2 i hin m' (AgreeOff.trans (agreeOff_over (S := below n) fun j hj => ⟨j, hj, rfl⟩) hm)
  · intro i hin
    exact over_of_mem hinj hin

/-- The elements of `symv` as they are computed: the part of the sum that lies in the stored row comes first. -/
def symElem (u : UpLo) (n : Nat) (alpha beta v : Fl f) (a x : Nat → Fl f) (i : Nat) : Fl f :=
  match u with
  | .upper => v * beta + alpha * dotL (n - i) (fun k => a (i + k)) (fun k => x (i + k)) + alpha * dotL i a x
  | .lower => v * beta + alpha * dotL i a x + alpha * dotL (n - i) (fun k => a (i + k)) (fun k => x (i + k))

theorem symvRow_fl (hA : MatAt m A .rowMajor ld (tri u n) Q) (hx : VecAt m x incX n xv)
    (hy : InitAt beta m y incY n yv) (hi : incY ≠ 0) (hdA : MatVecDisj A .rowMajor ld (tri u n) y incY n)
    (hdx : VecDisj x incX n y incY n) :
    symv .rowMajor u n alpha A ld x incX beta y incY m =
      .ok ((), over m (elem y incY n) (fun i => symElem u n alpha beta (yv i) (symM u Q i) xv i) (below n)) := by
  cases u
  · refine twoMv_fl (d1 := (fun i => dotL (n - i) (fun k => symM .upper Q i (i + k)) (fun k => xv (i + k))))
      (d2 := (fun i => dotL i (symM .upper Q i) xv)) hy hi (fun i hin m' hm => ?_) (fun i hin m' hm => ?_)
    · refine dotC_fold (c := false) (fun k hk => ?_) fun k hk => ?_
      · show _ = Cell.val (symM .upper Q i (i + k))
        simp only [symM, Nat.le_add_right, if_true]
        rw [← hA.agree hm hdA i (i + k) ⟨hin, by omega, by simp⟩]
        simp only [idx]; congr 1; push_cast; ring
      · rw [← hx.agree hm hdx (i + k) (by omega), ← start_elem]
        congr 1; push_cast; ring
    · refine dotC_fold (c := false) (fun k hk => ?_) fun k hk => ?_
      · show _ = Cell.val (symM .upper Q i k)
        simp only [symM, if_neg (show ¬ i ≤ k by omega)]
        rw [← hA.agree hm hdA k i ⟨by omega, hin, by simp; omega⟩]
        simp only [idx]; congr 1; ring
      · rw [start_elem]; exact hx.agree hm hdx k (by omega)
  · refine twoMv_fl (d1 := (fun i => dotL i (symM .lower Q i) xv))
      (d2 := (fun i => dotL (n - i) (fun k => symM .lower Q i (i + k)) (fun k => xv (i + k)))) hy hi (fun i hin m' hm => ?_) (fun i hin m' hm => ?_)
    · refine dotC_fold (c := false) (fun k hk => ?_) fun k hk => ?_
      · show _ = Cell.val (symM .lower Q i k)
        simp only [symM, if_pos (show k ≤ i by omega)]
        rw [← hA.agree hm hdA i k ⟨hin, by omega, by simp; omega⟩]
        simp only [idx]; congr 1; push_cast; ring
      · rw [start_elem]; exact hx.agree hm hdx k (by omega)
    · refine dotC_fold (c := false) (fun k hk => ?_) fun k hk => ?_
      · have e : symM .lower Q i (i + k) = Q (i + k) i := by
          by_cases h0 : k = 0
          · subst h0; simp [symM]
          · simp [symM, h0]
        show _ = Cell.val (symM .lower Q i (i + k))
        rw [e, ← hA.agree hm hdA (i + k) i ⟨by omega, hin, by simp⟩]
        simp only [idx]; congr 1; push_cast; ring
      · rw [← hx.agree hm hdx (i + k) (by omega), ← start_elem]
        congr 1; push_cast; ring

theorem symElem_err (he : f.emin ≤ 0) {i : Nat} (hi : i < n) (v : Fl f) (a x : Nat → Fl f) :
    |(symElem u n alpha beta v a x i).val - (beta.val * v.val + alpha.val * ∑ j ∈ range n, (a j).val * (x j).val)| ≤
      ((1 + unitRoundoff f) ^ (n + 4) - 1) * (|beta.val * v.val| + |alpha.val| * ∑ j ∈ range n, |(a j).val * (x j).val|) +
        (4 + n * |alpha.val|) * (1 + unitRoundoff f) ^ (n + 4) * halfTiny f := by
  have hh := dotL_error i a x
  have ht := dotL_error (n - i) (fun k => a (i + k)) (fun k => x (i + k))
  rw [sum_split hi.le (f := fun j => (a j).val * (x j).val), sum_split hi.le (f := fun j => |(a j).val * (x j).val|)]
  cases u
  · have := twoDots_err (alpha := alpha) (beta := beta) (v := v) he (abs_sum_le_sum_abs _ _) (abs_sum_le_sum_abs _ _) ht hh
    rw [Nat.sub_add_cancel hi.le, ← Nat.cast_add, Nat.sub_add_cancel hi.le] at this
    rw [add_comm (∑ j ∈ range i, (a j).val * (x j).val), add_comm (∑ j ∈ range i, |(a j).val * (x j).val|)]
    exact this
  · have := twoDots_err (alpha := alpha) (beta := beta) (v := v) he (abs_sum_le_sum_abs _ _) (abs_sum_le_sum_abs _ _) hh ht
    rw [Nat.add_sub_cancel' hi.le, ← Nat.cast_add, Nat.add_sub_cancel' hi.le] at this
    exact this

/-- **C169** `symv` in floating point, for all orders, triangles, increments and leading dimensions: each element of `beta y + alpha S x` is right up
to `n + 4` roundings of the sum of the magnitudes of its terms. The other triangle is not read, nor the old `y` with `beta = 0`; nothing else
changes. -/
theorem C169_symv (he : f.emin ≤ 0) (hA : MatAt m A o ld (tri u n) Q) (hx : VecAt m x incX n xv) (hy : VecMem m y incY n)
    (hb : beta ≠ 0 → VecAt m y incY n yv) (hi : incY ≠ 0) (hdA : MatVecDisj A o ld (tri u n) y incY n)
    (hdx : VecDisj x incX n y incY n) :
    ∃ w, Yields (symv o u n alpha A ld x incX beta y incY) m y incY n w ∧ ∀ i, i < n →
      |(w i).val - (beta.val * (yv i).val + alpha.val * ∑ j ∈ range n, (symM u Q i j).val * (xv j).val)| ≤
        ((1 + unitRoundoff f) ^ (n + 4) - 1) *
          (|beta.val * (yv i).val| + |alpha.val| * ∑ j ∈ range n, |(symM u Q i j).val * (xv j).val|) +
        (4 + n * |alpha.val|) * (1 + unitRoundoff f) ^ (n + 4) * halfTiny f := by
  cases o
  swap
  · rw [matAt_col, sw_tri] at hA
    rw [matVecDisj_col, sw_tri] at hdA
    have := symvRow_fl (alpha := alpha) hA hx ⟨hy, hb⟩ hi hdA hdx
    rw [sw_symM] at this
    exact ⟨_, yields_of_over hi this, fun i hin => symElem_err he hin _ _ _⟩
  · exact ⟨_, yields_of_over hi (symvRow_fl hA hx ⟨hy, hb⟩ hi hdA hdx), fun i hin => symElem_err he hin _ _ _⟩

/-! ### Updates -/

theorem syrRow_fl (hA : MatAt m A .rowMajor ld (tri u n) Q) (hx : VecAt m x incX n xv) (hld : (n : Int) ≤ ld)
    (hdx : MatVecDisj A .rowMajor ld (tri u n) x incX n) :
    YieldsMat (syr .rowMajor u n alpha x incX A ld) m A .rowMajor ld (tri u n) fun i j => Q i j + alpha * xv i * xv j := by
  rw [tri_rows] at hA hdx
  have key : ∀ g : Nat → M (Fl f) Unit, (∀ i, i < n → g i = (do
      let v ← load (start n x incX + i * incX)
      axpyC false (triLen u n i) (alpha * v) (start n x incX + triS u i * incX) incX (A + i * ld + triS u i) 1)) →
      YieldsMat (loop n g) m A .rowMajor ld (tri u n) fun i j => Q i j + alpha * xv i * xv j := by
    intro g hg
    have := rank1_run (c := false) (g := fun v => alpha * v) (fun i hi => by have := (tri_bounds u hi).1; omega) hA hx hx
      (Nat.le_refl _) (fun i hi => (tri_bounds u hi).1) hdx hdx g hg
    rw [← tri_rows] at this
    exact yieldsMat_row (ldOk_tri hld) this fun i j _ => rfl
  cases u
  · exact key _ fun i _ => by simp only [axpyGeneric_eq, triLen, triS]; rw [show A + (i : Int) * (ld + 1) = A + i * ld + i by ring]
  · exact key _ fun i _ => by simp [axpyGeneric_eq, triLen, triS]

theorem syr2Row_fl (hA : MatAt m A .rowMajor ld (tri u n) Q) (hx : VecAt m x incX n xv) (hy : VecAt m y incY n yv)
    (hld : (n : Int) ≤ ld) (hdx : MatVecDisj A .rowMajor ld (tri u n) x incX n)
    (hdy : MatVecDisj A .rowMajor ld (tri u n) y incY n) :
    YieldsMat (syr2Row u n alpha (start n x incX) incX (start n y incY) incY A ld) m A .rowMajor ld (tri u n) fun i j =>
      Q i j + alpha * xv i * yv j + alpha * yv i * xv j := by
  rw [tri_rows] at hA hdx hdy
  have key : ∀ g : Nat → M (Fl f) Unit, (∀ i, i < n → g i = (do
      let v ← load (start n x incX + i * incX)
      axpyC false (triLen u n i) (alpha * v) (start n y incY + triS u i * incY) incY (A + i * ld + triS u i) 1
      let w ← load (start n y incY + i * incY)
      axpyC false (triLen u n i) (alpha * w) (start n x incX + triS u i * incX) incX (A + i * ld + triS u i) 1)) →
      YieldsMat (loop n g) m A .rowMajor ld (tri u n) fun i j => Q i j + alpha * xv i * yv j + alpha * yv i * xv j := by
    intro g hg
    have := rank2_run (c := false) (g := fun v => alpha * v) (h := fun v => alpha * v)
      (fun i hi => by have := (tri_bounds u hi).1; omega) hA hx hy
      (fun i hi => (tri_bounds u hi).1) hdx hdy (fun i hi => (tri_bounds u hi).2.1) g hg
    rw [← tri_rows] at this
    exact yieldsMat_row (ldOk_tri hld) this fun i j _ => rfl
  cases u
  · exact key _ fun i _ => by simp only [axpyGeneric_eq, triLen, triS]; rw [show A + (i : Int) * (ld + 1) = A + i * ld + i by ring]
  · exact key _ fun i _ => by simp [axpyGeneric_eq, triLen, triS]

theorem rank2_err (w a b c d e : Fl f) :
    |(w + a * b * c + a * d * e).val - (w.val + a.val * (b.val * c.val) + a.val * (d.val * e.val))| ≤
      ((1 + unitRoundoff f) ^ 6 - 1) * (|w.val| + |a.val * (b.val * c.val)| + |a.val * (d.val * e.val)|) +
        (1 + unitRoundoff f) ^ 5 * (|c.val| + |e.val| + 2) * halfTiny f := by
  have hu := unit_pos f
  have ht := tiny_pos f
  have h1 := rank_err w a b c
  have h2 := rank_err (w + a * b * c) a d e
  have p1 : 1 ≤ (1 + unitRoundoff f) ^ 3 := one_le_pow_unit f 3
  have hq : (0 : ℚ) ≤ (1 + unitRoundoff f) ^ 2 := by have := hu.le; positivity
  have e6 : (1 + unitRoundoff f) ^ 6 = (1 + unitRoundoff f) ^ 3 * (1 + unitRoundoff f) ^ 3 := by ring
  have e5 : (1 + unitRoundoff f) ^ 5 = (1 + unitRoundoff f) ^ 3 * (1 + unitRoundoff f) ^ 2 := by ring
  rw [e6, e5]
  have hX : |w.val + a.val * (b.val * c.val)| ≤ |w.val| + |a.val * (b.val * c.val)| := abs_add_le _ _
  generalize (w + a * b * c + a * d * e).val = W at *
  generalize (w + a * b * c).val = V at *
  generalize (1 + unitRoundoff f) ^ 3 = p at *
  generalize (1 + unitRoundoff f) ^ 2 = q at *
  generalize halfTiny f = t at *
  have hC := abs_nonneg c.val
  have hE := abs_nonneg e.val
  have hw := abs_nonneg w.val
  have hP1 := abs_nonneg (a.val * (b.val * c.val))
  have hP2 := abs_nonneg (a.val * (d.val * e.val))
  generalize |c.val| = C at *
  generalize |e.val| = E at *
  generalize hP1d : |a.val * (b.val * c.val)| = P1 at *
  generalize hP2d : |a.val * (d.val * e.val)| = P2 at *
  generalize a.val * (b.val * c.val) = S1 at *
  generalize a.val * (d.val * e.val) = S2 at *
  have hV : |V| ≤ p * (|w.val| + P1) + q * (C + 1) * t := by
    have h3 : |V| ≤ |w.val + S1| + |V - (w.val + S1)| := by
      have := abs_add_le (w.val + S1) (V - (w.val + S1))
      rwa [add_sub_cancel] at this
    linarith
  have h4 : |W - (w.val + S1 + S2)| ≤ |W - (V + S2)| + |V - (w.val + S1)| := by
    rw [show W - (w.val + S1 + S2) = (W - (V + S2)) + (V - (w.val + S1)) by ring]
    exact abs_add_le _ _
  have h5 : (p - 1) * (|V| + P2) ≤ (p - 1) * (p * (|w.val| + P1) + q * (C + 1) * t + P2) :=
    mul_le_mul_of_nonneg_left (by linarith) (by linarith)
  have h6 : 0 ≤ (p - 1) * (p * P2) := mul_nonneg (by linarith) (mul_nonneg (by linarith) hP2)
  have h7 : 0 ≤ (p - 1) * (q * (E + 1) * t) := mul_nonneg (by linarith) (by positivity)
  linarith [show (p * p - 1) * (|w.val| + P1 + P2) + p * q * (C + E + 2) * t -
    ((p - 1) * (p * (|w.val| + P1) + q * (C + 1) * t + P2) + q * (E + 1) * t + ((p - 1) * (|w.val| + P1) + q * (C + 1) * t)) =
    (p - 1) * (p * P2) + (p - 1) * (q * (E + 1) * t) by ring]

/-- **C169** `syr` in floating point: the triangle of `A + alpha x xᵀ`, each element up to three roundings; the other triangle is not touched. -/
theorem C169_syr (hA : MatAt m A o ld (tri u n) Q) (hx : VecAt m x incX n xv) (hld : (n : Int) ≤ ld)
    (hdx : MatVecDisj A o ld (tri u n) x incX n) :
    ∃ W, YieldsMat (syr o u n alpha x incX A ld) m A o ld (tri u n) W ∧ ∀ i j, tri u n i j →
      |(W i j).val - ((Q i j).val + alpha.val * ((xv i).val * (xv j).val))| ≤
        ((1 + unitRoundoff f) ^ 3 - 1) * (|(Q i j).val| + |alpha.val * ((xv i).val * (xv j).val)|) +
        (1 + unitRoundoff f) ^ 2 * (max |(xv i).val| |(xv j).val| + 1) * halfTiny f := by
  have mono : ∀ C D : ℚ, C ≤ D → (1 + unitRoundoff f) ^ 2 * (C + 1) * halfTiny f ≤ (1 + unitRoundoff f) ^ 2 * (D + 1) * halfTiny f := by
    intro C D h
    have := (unit_pos f).le
    exact mul_le_mul_of_nonneg_right (mul_le_mul_of_nonneg_left (by linarith) (by positivity)) (tiny_pos f).le
  cases o
  swap
  · rw [matAt_col, sw_tri] at hA
    rw [matVecDisj_col, sw_tri] at hdx
    refine ⟨fun i j => Q i j + alpha * xv j * xv i, yieldsMat_col ?_, fun i j _ => ?_⟩
    · rw [sw_tri]
      exact (show YieldsMat (syr .rowMajor u.flip n alpha x incX A ld) m A .rowMajor ld (tri u.flip n) _ from syrRow_fl hA hx hld hdx)
    · have h := rank_err (Q i j) alpha (xv j) (xv i)
      rw [mul_comm (xv j).val] at h
      exact h.trans (by linarith [mono _ _ (le_max_left |(xv i).val| |(xv j).val|)])
  · exact ⟨_, syrRow_fl hA hx hld hdx, fun i j _ => (rank_err _ _ _ _).trans
      (by linarith [mono _ _ (le_max_right |(xv i).val| |(xv j).val|)])⟩

/-- **C169** `syr2` in floating point: the triangle of `A + alpha (x yᵀ + y xᵀ)`, each element up to six roundings. -/
theorem C169_syr2 (hA : MatAt m A o ld (tri u n) Q) (hx : VecAt m x incX n xv) (hy : VecAt m y incY n yv)
    (hld : (n : Int) ≤ ld) (hdx : MatVecDisj A o ld (tri u n) x incX n) (hdy : MatVecDisj A o ld (tri u n) y incY n) :
    ∃ W, YieldsMat (syr2 o u n alpha x incX y incY A ld) m A o ld (tri u n) W ∧ ∀ i j, tri u n i j →
      |(W i j).val - ((Q i j).val + alpha.val * ((xv i).val * (yv j).val + (yv i).val * (xv j).val))| ≤
        ((1 + unitRoundoff f) ^ 6 - 1) *
          (|(Q i j).val| + |alpha.val * ((xv i).val * (yv j).val)| + |alpha.val * ((yv i).val * (xv j).val)|) +
        (1 + unitRoundoff f) ^ 5 * (max |(xv i).val| |(xv j).val| + max |(yv i).val| |(yv j).val| + 2) * halfTiny f := by
  have mono : ∀ C D : ℚ, C ≤ D → (1 + unitRoundoff f) ^ 5 * (C + 2) * halfTiny f ≤ (1 + unitRoundoff f) ^ 5 * (D + 2) * halfTiny f := by
    intro C D h
    have := (unit_pos f).le
    exact mul_le_mul_of_nonneg_right (mul_le_mul_of_nonneg_left (by linarith) (by positivity)) (tiny_pos f).le
  have fin : ∀ i j (w : ℚ) (C D : ℚ), C ≤ max |(xv i).val| |(xv j).val| → D ≤ max |(yv i).val| |(yv j).val| →
      |w - ((Q i j).val + alpha.val * ((xv i).val * (yv j).val) + alpha.val * ((yv i).val * (xv j).val))| ≤
        ((1 + unitRoundoff f) ^ 6 - 1) *
          (|(Q i j).val| + |alpha.val * ((xv i).val * (yv j).val)| + |alpha.val * ((yv i).val * (xv j).val)|) +
        (1 + unitRoundoff f) ^ 5 * (D + C + 2) * halfTiny f →
      |w - ((Q i j).val + alpha.val * ((xv i).val * (yv j).val + (yv i).val * (xv j).val))| ≤
        ((1 + unitRoundoff f) ^ 6 - 1) *
          (|(Q i j).val| + |alpha.val * ((xv i).val * (yv j).val)| + |alpha.val * ((yv i).val * (xv j).val)|) +
        (1 + unitRoundoff f) ^ 5 * (max |(xv i).val| |(xv j).val| + max |(yv i).val| |(yv j).val| + 2) * halfTiny f := by
    intro i j w C D hC hD h
    rw [mul_add, ← add_assoc]
    have := mono (D + C) (max |(xv i).val| |(xv j).val| + max |(yv i).val| |(yv j).val|) (by linarith)
    exact h.trans (add_le_add_right this _)
  cases o
  swap
  · rw [matAt_col, sw_tri] at hA
    rw [matVecDisj_col, sw_tri] at hdx hdy
    refine ⟨fun i j => Q i j + alpha * yv j * xv i + alpha * xv j * yv i, yieldsMat_col ?_, fun i j _ => ?_⟩
    · rw [sw_tri]
      exact syr2Row_fl (alpha := alpha) hA hy hx hld hdy hdx
    · have h := rank2_err (Q i j) alpha (yv j) (xv i) (xv j) (yv i)
      rw [mul_comm (yv j).val, mul_comm (xv j).val, add_comm |(xv i).val|] at h
      exact fin i j _ _ _ (le_max_left _ _) (le_max_left _ _) h
  · exact ⟨_, syr2Row_fl hA hx hy hld hdx hdy, fun i j _ => fin i j _ _ _ (le_max_right _ _) (le_max_right _ _) (rank2_err _ _ _ _ _ _)⟩

/-- **C169** `syr` leaves in its triangle bit for bit what `ger` with `x` on both sides leaves there, wherever the matrices are in memory. -/
theorem C169_ger {A' ld' x' incX' : Int} {m' : Mem (Fl f)} (hA : MatAt m A o ld (tri u n) Q) (hx : VecAt m x incX n xv) (hld : (n : Int) ≤ ld)
    (hdx : MatVecDisj A o ld (tri u n) x incX n) (hA' : MatAt m' A' o ld' (full n n) Q) (hx' : VecAt m' x' incX' n xv)
    (hld' : LdOk o ld' n n) (hdx' : MatVecDisj A' o ld' (full n n) x' incX' n) :
    ∃ W, YieldsMat (syr o u n alpha x incX A ld) m A o ld (tri u n) W ∧
      YieldsMat (geru o n n alpha x' incX' x' incX' A' ld') m' A' o ld' (full n n) W := by
  cases o
  swap
  · rw [matAt_col, sw_tri] at hA
    rw [matVecDisj_col, sw_tri] at hdx
    rw [matAt_col, sw_full] at hA'
    rw [matVecDisj_col, sw_full] at hdx'
    refine ⟨fun i j => Q i j + alpha * xv j * xv i, yieldsMat_col ?_, yieldsMat_col ?_⟩
    · rw [sw_tri]
      exact (show YieldsMat (syr .rowMajor u.flip n alpha x incX A ld) m A .rowMajor ld (tri u.flip n) _ from syrRow_fl hA hx hld hdx)
    · rw [sw_full]
      exact geruRow_ops hA' hx' hx' hld' hdx' hdx'
  · exact ⟨_, syrRow_fl hA hx hld hdx, geruRow_ops hA' hx' hx' hld' hdx' hdx'⟩

/-! ### The triangle matters -/

/-- A 2x2 matrix of ones at 0, `x` at 10 and `y` at 20. -/
def exSymFl (v w : Nat → ℚ) : Mem (Fl binary64) := fun p =>
  if 0 ≤ p ∧ p < 4 then .val (.round _ 1) else if 10 ≤ p ∧ p < 12 then .val (.round _ (v (p - 10).toNat))
  else if 20 ≤ p ∧ p < 22 then .val (.round _ (w (p - 20).toNat)) else .out

/-- The hypotheses of the theorems hold. -/
theorem exSymFl_ok (u : UpLo) (v w : Nat → ℚ) : MatAt (exSymFl v w) 0 .rowMajor 2 (tri u 2) (fun _ _ => .round _ 1) ∧
    VecAt (exSymFl v w) 10 1 2 (fun i => .round _ (v i)) ∧ VecAt (exSymFl v w) 20 1 2 (fun i => .round _ (w i)) ∧
    MatVecDisj 0 .rowMajor 2 (tri u 2) 20 1 2 ∧ MatVecDisj 0 .rowMajor 2 (tri u 2) 10 1 2 ∧ VecDisj 10 1 2 20 1 2 := by
  refine ⟨fun i j h => ?_, fun i h => ?_, fun i h => ?_, fun i j k h hk => ?_, fun i j k h hk => ?_, fun i j h hj => ?_⟩
  · obtain ⟨h1, h2, -⟩ := h
    interval_cases i <;> interval_cases j <;> rfl
  · interval_cases i <;> rfl
  · interval_cases i <;> rfl
  · obtain ⟨h1, h2, -⟩ := h
    interval_cases i <;> interval_cases j <;> interval_cases k <;> decide
  · obtain ⟨h1, h2, -⟩ := h
    interval_cases i <;> interval_cases j <;> interval_cases k <;> decide
  · interval_cases i <;> interval_cases j <;> decide

/-- **C169** Which triangle of the same symmetric matrix is read decides the bits of `symv`: the second element is `1 + 2^-52 + 2^-53` rounded
after each sum, the terms being added in the one or the other order. -/
theorem C169_symv_triangle : ∃ a b,
    peek (symv .rowMajor .upper 2 (.round binary64 1) 0 2 10 1 (.round _ 1) 20 1
      (exSymFl (fun i => if i = 0 then 1 / 2 ^ 53 else 1 / 2 ^ 52) fun _ => 1)) (fun _ m => m 21) = .ok (.val a) ∧
    peek (symv .rowMajor .lower 2 (.round binary64 1) 0 2 10 1 (.round _ 1) 20 1
      (exSymFl (fun i => if i = 0 then 1 / 2 ^ 53 else 1 / 2 ^ 52) fun _ => 1)) (fun _ m => m 21) = .ok (.val b) ∧ a ≠ b := by
  refine ⟨.round binary64 (1 + 1 / 2 ^ 51), .round binary64 (1 + 1 / 2 ^ 52), by decide +kernel, by decide +kernel, by decide +kernel⟩

/-- **C169** Which triangle of the same symmetric matrix is updated decides the bits that `syr` leaves beside the diagonal. -/
theorem C169_syr_triangle : ∃ a b,
    peek (syr .rowMajor .upper 2 (.round binary64 (1 / 10)) 10 1 0 2 (exVecFl (fun i => if i = 0 then 3 else 11) fun _ => 0))
      (fun _ m => m 1) = .ok (.val a) ∧
    peek (syr .rowMajor .lower 2 (.round binary64 (1 / 10)) 10 1 0 2 (exVecFl (fun i => if i = 0 then 3 else 11) fun _ => 0))
      (fun _ m => m 2) = .ok (.val b) ∧ a ≠ b := by
  refine ⟨.round binary64 (rnd binary64 (rnd binary64 (1 / 10) * 3) * 11), .round binary64 (rnd binary64 (rnd binary64 (1 / 10) * 11) * 3),
    by decide +kernel, by decide +kernel, by decide +kernel⟩

end Verif.Blas
