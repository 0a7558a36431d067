import Verif.Props.BlasRankFl
import Verif.Props.Blas2Band

/-! Property theorems for packed rank updates and banded products of cxxblas in floating point (C171, C172). `spr` and `spr2` are compared with `syr`
and `syr2` on the same matrix stored in full, and `gbmv` with `gemv`. -/

namespace Verif.Blas

open Finset Verif.Ieee

variable {f : Fmt}

/-! ### Packed updates -/

section
variable {o : Order} {u : UpLo} {n : Nat} {alpha : Fl f} {A x incX y incY : Int} {m : Mem (Fl f)} {Q : Nat → Nat → Fl f} {xv yv : Nat → Fl f}

theorem sprRow_fl (hA : StAt m (packAd A .rowMajor u n) (tri u n) Q) (hx : VecAt m x incX n xv)
    (hdx : StVecDisj (packAd A .rowMajor u n) (tri u n) x incX n) :
    YieldsSt (spr .rowMajor u n alpha x incX A) m (packAd A .rowMajor u n) (tri u n) fun i j => Q i j + alpha * xv i * xv j := by
  have e := tri_packRows u n A
  refine yieldsSt_pack (v := fun p => Q p.1 p.2 + alpha * xv p.1 * xv p.2) ?_ fun i j _ => rfl
  rw [e] at hA hdx
  rw [e]
  exact rank1G_run (c := false) (g := fun v => alpha * v) (by rw [← e]; exact packP_inj A u n) (fun i k hi hk => tpRows_ad hi hk) hA hx
    (fun i hi => (tpRows_tri u n A).le i hi) hdx _ fun i _ => rfl

theorem spr2Row_fl (hA : StAt m (packAd A .rowMajor u n) (tri u n) Q) (hx : VecAt m x incX n xv) (hy : VecAt m y incY n yv)
    (hdx : StVecDisj (packAd A .rowMajor u n) (tri u n) x incX n) (hdy : StVecDisj (packAd A .rowMajor u n) (tri u n) y incY n) :
    YieldsSt (spr2 .rowMajor u n alpha x incX y incY A) m (packAd A .rowMajor u n) (tri u n) fun i j =>
      Q i j + alpha * xv i * yv j + alpha * yv i * xv j := by
  have e := tri_packRows u n A
  refine yieldsSt_pack (v := fun p => Q p.1 p.2 + alpha * xv p.1 * yv p.2 + alpha * yv p.1 * xv p.2) ?_ fun i j _ => rfl
  rw [e] at hA hdx hdy
  rw [e]
  exact rank2G_run (c := false) (g := fun v => alpha * v) (h := fun v => alpha * v) (by rw [← e]; exact packP_inj A u n)
    (fun i k hi hk => tpRows_ad hi hk) hA hx hy (fun i hi => (tpRows_tri u n A).le i hi) hdx hdy _ fun i _ => rfl

/-- **C171** `spr` in floating point: the packed triangle of `A + alpha x xᵀ`, each element up to three roundings. -/
theorem C171_spr (hA : StAt m (packAd A o u n) (tri u n) Q) (hx : VecAt m x incX n xv)
    (hdx : StVecDisj (packAd A o u n) (tri u n) x incX n) :
    ∃ W, YieldsSt (spr o u n alpha x incX A) m (packAd A o u n) (tri u n) W ∧ ∀ i j, tri u n i j →
      |(W i j).val - ((Q i j).val + alpha.val * ((xv i).val * (xv j).val))| ≤
        ((1 + unitRoundoff f) ^ 3 - 1) * (|(Q i j).val| + |alpha.val * ((xv i).val * (xv j).val)|) +
        (1 + unitRoundoff f) ^ 2 * (max |(xv i).val| |(xv j).val| + 1) * halfTiny f := by
  have mono : ∀ C D : ℚ, C ≤ D → (1 + unitRoundoff f) ^ 2 * (C + 1) * halfTiny f ≤ (1 + unitRoundoff f) ^ 2 * (D + 1) * halfTiny f := by
    intro C D h
    have := (unit_pos f).le
    exact mul_le_mul_of_nonneg_right (mul_le_mul_of_nonneg_left (by linarith) (by positivity)) (tiny_pos f).le
  cases o
  swap
  · rw [← stAt_sw, packAd_sw, sw_tri] at hA
    rw [← stVecDisj_sw, packAd_sw, sw_tri] at hdx
    refine ⟨fun i j => Q i j + alpha * xv j * xv i, yieldsSt_sw ?_, fun i j _ => ?_⟩
    · rw [packAd_sw, sw_tri]
      exact (show YieldsSt (spr .rowMajor u.flip n alpha x incX A) m _ _ _ from sprRow_fl hA hx hdx)
    · have h := rank_err (Q i j) alpha (xv j) (xv i)
      rw [mul_comm (xv j).val] at h
      exact h.trans (by linarith [mono _ _ (le_max_left |(xv i).val| |(xv j).val|)])
  · exact ⟨_, sprRow_fl hA hx hdx, fun i j _ => (rank_err _ _ _ _).trans
      (by linarith [mono _ _ (le_max_right |(xv i).val| |(xv j).val|)])⟩

/-- **C171** `spr2` in floating point: the packed triangle of `A + alpha (x yᵀ + y xᵀ)`, each element up to six roundings. -/
theorem C171_spr2 (hA : StAt m (packAd A o u n) (tri u n) Q) (hx : VecAt m x incX n xv) (hy : VecAt m y incY n yv)
    (hdx : StVecDisj (packAd A o u n) (tri u n) x incX n) (hdy : StVecDisj (packAd A o u n) (tri u n) y incY n) :
    ∃ W, YieldsSt (spr2 o u n alpha x incX y incY A) m (packAd A o u n) (tri u n) W ∧ ∀ i j, tri u n i j →
      |(W i j).val - ((Q i j).val + alpha.val * ((xv i).val * (yv j).val + (yv i).val * (xv j).val))| ≤
        ((1 + unitRoundoff f) ^ 6 - 1) *
          (|(Q i j).val| + |alpha.val * ((xv i).val * (yv j).val)| + |alpha.val * ((yv i).val * (xv j).val)|) +
        (1 + unitRoundoff f) ^ 5 * (max |(xv i).val| |(xv j).val| + max |(yv i).val| |(yv j).val| + 2) * halfTiny f := by
  have mono : ∀ C D : ℚ, C ≤ D → (1 + unitRoundoff f) ^ 5 * (C + 2) * halfTiny f ≤ (1 + unitRoundoff f) ^ 5 * (D + 2) * halfTiny f := by
    intro C D h
    have := (unit_pos f).le
    exact mul_le_mul_of_nonneg_right (mul_le_mul_of_nonneg_left (by linarith) (by positivity)) (tiny_pos f).le
  cases o
  swap
  · rw [← stAt_sw, packAd_sw, sw_tri] at hA
    rw [← stVecDisj_sw, packAd_sw, sw_tri] at hdx hdy
    refine ⟨fun i j => Q i j + alpha * xv j * yv i + alpha * yv j * xv i, yieldsSt_sw ?_, fun i j _ => ?_⟩
    · rw [packAd_sw, sw_tri]
      exact (show YieldsSt (spr2 .rowMajor u.flip n alpha x incX y incY A) m _ _ _ from spr2Row_fl hA hx hy hdx hdy)
    · have h := rank2_err (Q i j) alpha (xv j) (yv i) (yv j) (xv i)
      rw [mul_comm (xv j).val, mul_comm (yv j).val, add_comm |(yv i).val|, add_right_comm (Q i j).val,
        add_right_comm |(Q i j).val|] at h
      rw [mul_add, ← add_assoc]
      exact h.trans (add_le_add_right (mono _ _ (add_le_add (le_max_left _ _) (le_max_left _ _))) _)
  · refine ⟨_, spr2Row_fl hA hx hy hdx hdy, fun i j _ => ?_⟩
    have h := rank2_err (Q i j) alpha (xv i) (yv j) (yv i) (xv j)
    rw [add_comm |(yv j).val|] at h
    rw [mul_add, ← add_assoc]
    exact h.trans (add_le_add_right (mono _ _ (add_le_add (le_max_right _ _) (le_max_right _ _))) _)

/-- **C172** `spr` leaves bit for bit what `syr` leaves for the same matrix stored in full in the same order. -/
theorem C172_spr_syr_partial {A' ld' x' incX' : Int} {m' : Mem (Fl f)} (hA : StAt m (packAd A o u n) (tri u n) Q) (hx : VecAt m x incX n xv)
    (hdx : StVecDisj (packAd A o u n) (tri u n) x incX n) (hA' : MatAt m' A' o ld' (tri u n) Q) (hx' : VecAt m' x' incX' n xv)
    (hld' : (n : Int) ≤ ld') (hdx' : MatVecDisj A' o ld' (tri u n) x' incX' n) :
    ∃ W, YieldsSt (spr o u n alpha x incX A) m (packAd A o u n) (tri u n) W ∧
      YieldsMat (syr o u n alpha x' incX' A' ld') m' A' o ld' (tri u n) W := by
  cases o
  swap
  · rw [← stAt_sw, packAd_sw, sw_tri] at hA
    rw [← stVecDisj_sw, packAd_sw, sw_tri] at hdx
    rw [matAt_col, sw_tri] at hA'
    rw [matVecDisj_col, sw_tri] at hdx'
    refine ⟨fun i j => Q i j + alpha * xv j * xv i, yieldsSt_sw ?_, yieldsMat_col ?_⟩
    · rw [packAd_sw, sw_tri]
      exact (show YieldsSt (spr .rowMajor u.flip n alpha x incX A) m _ _ _ from sprRow_fl hA hx hdx)
    · rw [sw_tri]
      exact (show YieldsMat (syr .rowMajor u.flip n alpha x' incX' A' ld') m' A' .rowMajor ld' (tri u.flip n) _ from
        syrRow_fl hA' hx' hld' hdx')
  · exact ⟨_, sprRow_fl hA hx hdx, syrRow_fl hA' hx' hld' hdx'⟩

/-- **C172** The same for `spr2` and `syr2` of row-major matrices. -/
theorem C172_spr2_syr2_partial {A' ld' x' incX' y' incY' : Int} {m' : Mem (Fl f)} (hA : StAt m (packAd A .rowMajor u n) (tri u n) Q)
    (hx : VecAt m x incX n xv) (hy : VecAt m y incY n yv)
    (hdx : StVecDisj (packAd A .rowMajor u n) (tri u n) x incX n) (hdy : StVecDisj (packAd A .rowMajor u n) (tri u n) y incY n)
    (hA' : MatAt m' A' .rowMajor ld' (tri u n) Q) (hx' : VecAt m' x' incX' n xv) (hy' : VecAt m' y' incY' n yv)
    (hld' : (n : Int) ≤ ld') (hdx' : MatVecDisj A' .rowMajor ld' (tri u n) x' incX' n)
    (hdy' : MatVecDisj A' .rowMajor ld' (tri u n) y' incY' n) :
    ∃ W, YieldsSt (spr2 .rowMajor u n alpha x incX y incY A) m (packAd A .rowMajor u n) (tri u n) W ∧
      YieldsMat (syr2 .rowMajor u n alpha x' incX' y' incY' A' ld') m' A' .rowMajor ld' (tri u n) W :=
  ⟨_, spr2Row_fl hA hx hy hdx hdy, syr2Row_fl hA' hx' hy' hld' hdx' hdy'⟩

end

/-- A column-major 2x2 matrix of ones, whose upper triangle packed is at 0 and which is in full at 0 as well; `x` at 10 and `y` at 20. -/
theorem exSymFl_pack (u : UpLo) (v w : Nat → ℚ) : StAt (exSymFl v w) (packAd 0 .colMajor u 2) (tri u 2) (fun _ _ => .round _ 1) ∧
    MatAt (exSymFl v w) 0 .colMajor 2 (tri u 2) (fun _ _ => .round _ 1) ∧
    StVecDisj (packAd 0 .colMajor u 2) (tri u 2) 10 1 2 ∧ StVecDisj (packAd 0 .colMajor u 2) (tri u 2) 20 1 2 := by
  refine ⟨fun i j h => ?_, fun i j h => ?_, fun i j k h hk => ?_, fun i j k h hk => ?_⟩ <;> obtain ⟨h1, h2, h3⟩ := h
  · cases u <;> interval_cases i <;> interval_cases j <;> first | rfl | (exfalso; revert h3; decide)
  · interval_cases i <;> interval_cases j <;> rfl
  · cases u <;> interval_cases i <;> interval_cases j <;> interval_cases k <;> first | decide | (exfalso; revert h3; decide)
  · cases u <;> interval_cases i <;> interval_cases j <;> interval_cases k <;> first | decide | (exfalso; revert h3; decide)

/-- **C172 (disproved for column-major matrices).** `spr2` and `syr2` leave different bits beside the diagonal of the same column-major matrix:
`syr2` exchanges `x` and `y` for this order and `spr2` does not, so the two products are added in the other order. -/
theorem C172_spr2_syr2_false : ∃ a b,
    peek (spr2 .colMajor .upper 2 (.round binary64 1) 10 1 20 1 0
      (exSymFl (fun i => if i = 0 then 1 / 2 ^ 53 else 1) fun i => if i = 0 then 1 / 2 ^ 52 else 1)) (fun _ m => m 1) = .ok (.val a) ∧
    peek (syr2 .colMajor .upper 2 (.round binary64 1) 10 1 20 1 0 2
      (exSymFl (fun i => if i = 0 then 1 / 2 ^ 53 else 1) fun i => if i = 0 then 1 / 2 ^ 52 else 1)) (fun _ m => m 2) = .ok (.val b) ∧
    a ≠ b := by
  refine ⟨.round binary64 (1 + 1 / 2 ^ 51), .round binary64 (1 + 1 / 2 ^ 52), by decide +kernel, by decide +kernel, by decide +kernel⟩

/-! ### Banded products -/

theorem dotL_seg {s len n : Nat} (h : s + len ≤ n) (r v : Nat → Fl f) :
    dotL n (seg s len r) v = dotL len (fun k => r (s + k)) fun k => v (s + k) := by
  have e0 : ∀ k, k ≤ s → dotL k (seg s len r) v = 0 := by
    intro k hk
    induction k with
    | zero => rfl
    | succ k ih =>
      rw [dotL_succ, ih (by omega), seg, if_neg (by omega), fl_zero_mul, fl_add_zero]
  have e1 : ∀ k, k ≤ len → dotL (s + k) (seg s len r) v = dotL k (fun k => r (s + k)) fun k => v (s + k) := by
    intro k hk
    induction k with
    | zero => exact e0 s (Nat.le_refl _)
    | succ k ih => rw [← add_assoc, dotL_succ, dotL_succ, ih (by omega), seg, if_pos (by omega)]
  have e2 : ∀ k, dotL (s + len + k) (seg s len r) v = dotL len (fun k => r (s + k)) fun k => v (s + k) := by
    intro k
    induction k with
    | zero => exact e1 len (Nat.le_refl _)
    | succ k ih => rw [← add_assoc, dotL_succ, ih, seg, if_neg (by omega), fl_zero_mul, fl_add_zero]
  have := e2 (n - (s + len))
  rwa [Nat.add_sub_cancel' h] at this

section
variable {o : Order} {t : Trans} {conjX : Bool} {r c kl ku : Nat} {alpha beta : Fl f} {A ld x incX y incY : Int} {m : Mem (Fl f)}
  {Q : Nat → Nat → Fl f} {xv yv : Nat → Fl f}

theorem dotL_band (r c kl ku : Nat) (Q : Nat → Nat → Fl f) (i : Nat) (v : Nat → Fl f) :
    dotL c (bandM kl ku Q i) v = dotL ((gbRows c kl ku A ld).len i) (fun k => Q i ((gbRows c kl ku A ld).first i + k))
      fun k => v ((gbRows c kl ku A ld).first i + k) := by
  have e : dotL c (bandM kl ku Q i) v = dotL c (seg ((gbRows c kl ku A ld).first i) ((gbRows c kl ku A ld).len i) (Q i)) v := by
    rw [dotL_comm, dotL_comm (a := seg _ _ _)]
    exact dotL_congr fun j hj => (gbRows_M hj Q).symm
  rw [e]
  by_cases h0 : (gbRows c kl ku A ld).len i = 0
  · have := dotL_seg (f := f) (s := 0) (len := 0) (n := c) (by omega) (Q i) v
    rw [h0]
    refine Eq.trans ?_ this
    rw [dotL_comm, dotL_comm (a := seg _ _ _)]
    refine dotL_congr fun j _ => ?_
    unfold seg
    rw [if_neg (by omega), if_neg (by omega)]
  · exact dotL_seg (gbRows_le (by omega)) _ _

theorem gbRow_fl (ht : t.trans = false) (hA : StAt m (bandAd A .rowMajor ld kl ku) (inBand kl ku r c) Q)
    (hx : VecAt m x incX c xv) (hy : InitAt beta m y incY r yv) (hi : incY ≠ 0)
    (hdA : StVecDisj (bandAd A .rowMajor ld kl ku) (inBand kl ku r c) y incY r) (hdx : VecDisj x incX c y incY r) :
    Yields (gbmvRow (gbRows c kl ku A ld) t conjX r c alpha x incX beta y incY) m y incY r fun i =>
      mulElem c alpha beta (yv i) (bandM kl ku Q i) xv := by
  have hin := gbRows_in r c kl ku A ld
  refine yields_of_over hi ?_
  simp only [gbmvRow, ht, if_true, mulElem]
  refine mv_fl hy hi fun i hir m' hm => ?_
  rw [dotL_band (A := A) (ld := ld) r]
  refine rowDot_fl (fun k hk => ?_) fun k hk => ?_
  · rw [mul_one, hin.ad i k hir hk, hm _ fun ⟨l, hl, e⟩ => hdA _ _ _ (hin.mem i k hir hk) hl e.symm]
    exact hA _ _ (hin.mem i k hir hk)
  · rw [elem_shift]
    have := gbRows_le (c := c) (kl := kl) (ku := ku) (i := i) (A := A) (ld := ld) (by omega)
    exact hx.agree hm hdx _ (by omega)

theorem gbmv_fl (hr : r ≠ 0) (hc : c ≠ 0) (ht : t.trans = decide (o = .colMajor)) (hA : StAt m (bandAd A o ld kl ku) (inBand kl ku r c) Q)
    (hx : VecAt m x incX (opCols t r c) xv) (hy : VecMem m y incY (opRows t r c))
    (hb : beta ≠ 0 → VecAt m y incY (opRows t r c) yv) (hi : incY ≠ 0)
    (hdA : StVecDisj (bandAd A o ld kl ku) (inBand kl ku r c) y incY (opRows t r c))
    (hdx : VecDisj x incX (opCols t r c) y incY (opRows t r c)) :
    Yields (gbmv o t conjX r c kl ku alpha A ld x incX beta y incY) m y incY (opRows t r c) fun i =>
      mulElem (opCols t r c) alpha beta (yv i) (opM t (bandM kl ku Q) i) xv := by
  have hne : ¬(r = 0 ∨ c = 0) := by omega
  have e : ∀ i, opM t (bandM kl ku Q) i = fun j => if t.trans then bandM kl ku Q j i else bandM kl ku Q i j :=
    fun i => funext fun j => opM_fl t _ i j
  simp only [e]
  unfold gbmv
  rw [if_neg hne]
  cases o
  swap
  · rw [← stAt_sw, bandAd_sw, inBand_sw] at hA
    rw [← stVecDisj_sw, bandAd_sw, inBand_sw] at hdA
    have ht' : t.trans = true := by simpa using ht
    have hf : t.flip.trans = false := by simp [Trans.flip, ht']
    simp only [opRows, opCols, ht', if_true] at hx hy hb hdA hdx ⊢
    have := gbRow_fl (alpha := alpha) (conjX := conjX) hf hA hx ⟨hy, hb⟩ hi hdA hdx
    rw [bandM_sw] at this
    exact this
  · have ht' : t.trans = false := by simpa using ht
    simp only [opRows, opCols, ht', Bool.false_eq_true, if_false] at hx hy hb hdA hdx ⊢
    exact gbRow_fl ht' hA hx ⟨hy, hb⟩ hi hdA hdx

/-- **C172** Where `gbmv` takes inner products (`A x` for row-major, `Aᵀ x` for column-major matrices) it leaves bit for bit what `gemv` leaves
for the same matrix stored in full. -/
theorem C172_gbmv_gemv_partial {A' ld' x' incX' y' incY' : Int} {m' : Mem (Fl f)} (hr : r ≠ 0) (hc : c ≠ 0) (ht : t.trans = decide (o = .colMajor))
    (hA : StAt m (bandAd A o ld kl ku) (inBand kl ku r c) Q)
    (hx : VecAt m x incX (opCols t r c) xv) (hy : VecMem m y incY (opRows t r c))
    (hb : beta ≠ 0 → VecAt m y incY (opRows t r c) yv) (hi : incY ≠ 0)
    (hdA : StVecDisj (bandAd A o ld kl ku) (inBand kl ku r c) y incY (opRows t r c))
    (hdx : VecDisj x incX (opCols t r c) y incY (opRows t r c))
    (hA' : MatAt m' A' o ld' (full r c) (bandM kl ku Q)) (hx' : VecAt m' x' incX' (opCols t r c) xv)
    (hy' : VecMem m' y' incY' (opRows t r c)) (hb' : beta ≠ 0 → VecAt m' y' incY' (opRows t r c) yv) (hi' : incY' ≠ 0)
    (hdA' : MatVecDisj A' o ld' (full r c) y' incY' (opRows t r c))
    (hdx' : VecDisj x' incX' (opCols t r c) y' incY' (opRows t r c)) :
    ∃ w, Yields (gbmv o t conjX r c kl ku alpha A ld x incX beta y incY) m y incY (opRows t r c) w ∧
      Yields (gemv o t conjX r c alpha A' ld' x' incX' beta y' incY') m' y' incY' (opRows t r c) w :=
  ⟨_, gbmv_fl hr hc ht hA hx hy hb hi hdA hdx, gemv_fl hr hc hA' hx' hy' hb' hi' hdA' hdx'⟩

theorem segAxpy_fl {cA : Bool} {n s len : Nat} {al : Fl f} {a : Int} {q w : Nat → Fl f} (hi : incY ≠ 0) (hs : s + len ≤ n)
    (ha : ∀ k, k < len → m (a + (k : Nat)) = .val (q (s + k))) (hd : ∀ k j, k < len → j < n → a + (k : Nat) ≠ elem y incY n j) :
    axpyC cA len al a 1 (start n y incY + (s : Int) * incY) incY (snap m y incY n w) =
      .ok ((), snap m y incY n fun j => w j + al * seg s len q j) := by
  have hinj := (elem_inj (x := y) (n := n) hi).injOn (s := below n)
  have hc : ∀ v : Fl f, cj cA v = v := fun v => by cases cA <;> rfl
  rw [axpyC_run (xv := fun k => q (s + k)) (yv := fun k => w (s + k)) _ _ hi]
  · refine congrArg (fun z => Out.ok ((), z)) (over_patch hinj (fun k => s + k) (fun k _ => elem_shift _ _ _ _ _)
      (fun k hk => ?_) ?_ ?_ ?_)
    · have : k < len := hk
      show s + k < n
      omega
    · intro k _ l _ e
      simp only [elem_shift] at e
      have := elem_inj hi e
      omega
    · intro k hk
      have : k < len := hk
      simp only [seg, hc]
      rw [if_pos (by omega)]
    · intro j hj hne
      simp only [seg]
      rw [if_neg, fl_mul_zero, fl_add_zero]
      intro h
      exact hne (j - s) (show j - s < len by omega) (by omega)
  · intro k l hk hl e
    rw [elem_shift, mul_one] at e
    exact hd k (s + l) hk (by omega) e
  · intro k hk
    rw [mul_one, snap_out fun j hj => hd k j hk hj]
    exact ha k hk
  · intro k hk
    rw [elem_shift]
    exact snap_in hi (by omega)

theorem gbCol_fl (ht : t.trans = true) (hA : StAt m (bandAd A .rowMajor ld kl ku) (inBand kl ku r c) Q)
    (hx : VecAt m x incX r xv) (hy : InitAt beta m y incY c yv) (hi : incY ≠ 0)
    (hdA : StVecDisj (bandAd A .rowMajor ld kl ku) (inBand kl ku r c) y incY c) (hdx : VecDisj x incX r y incY c) :
    Yields (gbmvRow (gbRows c kl ku A ld) t conjX r c alpha x incX beta y incY) m y incY c fun i =>
      rankSum alpha (yv i * beta) xv (fun p => bandM kl ku Q p i) r := by
  have hin := gbRows_in r c kl ku A ld
  refine yields_of_snap hi ?_
  simp only [gbmvRow, ht, Bool.true_eq_false, if_false]
  rw [bind_ok (show scalInitGeneric c beta (start c y incY) incY m = .ok ((), snap m y incY c fun i => yv i * beta) from
    scalInit_initF hy hi)]
  refine snap_loop (m := m) (y := y) (incY := incY) (n := c) (r := r)
    (fun k i => rankSum alpha (yv i * beta) xv (fun p => bandM kl ku Q p i) k) _ fun k hk => ?_
  have h1 : snap m y incY c (fun i => rankSum alpha (yv i * beta) xv (fun p => bandM kl ku Q p i) k)
      (start r x incX + k * incX) = .val (xv k) := by
    rw [start_elem, snap_out fun j hj => hdx k j hk hj]
    exact hx k hk
  rw [bind_ok (load_ok h1)]
  have hs : (if conjX then star (xv k) else xv k) = xv k := by cases conjX <;> rfl
  rw [hs, fl_mul_comm]
  by_cases h0 : (gbRows c kl ku A ld).len k = 0
  · rw [h0]
    have h2 : ∀ (b : Bool) (al : Fl f) (a y0 : Int) (m' : Mem (Fl f)), axpyC b 0 al a 1 y0 incY m' = .ok ((), m') := by
      intro b al a y0 m'; cases b <;> rfl
    rw [h2]
    refine congrArg (fun z => Out.ok ((), z)) (snap_congr hi fun i hic => ?_)
    rw [rankSum, ← gbRows_M (A := A) (ld := ld) hic Q, h0, seg, if_neg (by omega), fl_mul_zero, fl_add_zero]
  rw [segAxpy_fl (q := Q k) hi (gbRows_le (by omega)) (fun l hl => hin.at hA k l hk hl) fun l j hl hj => hin.disj hdA k l j hk hl hj]
  refine congrArg (fun z => Out.ok ((), z)) (snap_congr hi fun i hic => ?_)
  rw [rankSum, gbRows_M hic]

theorem gbmvT_fl (hr : r ≠ 0) (hc : c ≠ 0) (ht : t.trans = decide (o = .rowMajor)) (hA : StAt m (bandAd A o ld kl ku) (inBand kl ku r c) Q)
    (hx : VecAt m x incX (opCols t r c) xv) (hy : VecMem m y incY (opRows t r c))
    (hb : beta ≠ 0 → VecAt m y incY (opRows t r c) yv) (hi : incY ≠ 0)
    (hdA : StVecDisj (bandAd A o ld kl ku) (inBand kl ku r c) y incY (opRows t r c))
    (hdx : VecDisj x incX (opCols t r c) y incY (opRows t r c)) :
    Yields (gbmv o t conjX r c kl ku alpha A ld x incX beta y incY) m y incY (opRows t r c) fun i =>
      rankSum alpha (yv i * beta) xv (opM t (bandM kl ku Q) i) (opCols t r c) := by
  have hne : ¬(r = 0 ∨ c = 0) := by omega
  have e : ∀ i, opM t (bandM kl ku Q) i = fun j => if t.trans then bandM kl ku Q j i else bandM kl ku Q i j :=
    fun i => funext fun j => opM_fl t _ i j
  simp only [e]
  unfold gbmv
  rw [if_neg hne]
  cases o
  · have ht' : t.trans = true := by simpa using ht
    simp only [opRows, opCols, ht', if_true] at hx hy hb hdA hdx ⊢
    exact gbCol_fl ht' hA hx ⟨hy, hb⟩ hi hdA hdx
  · rw [← stAt_sw, bandAd_sw, inBand_sw] at hA
    rw [← stVecDisj_sw, bandAd_sw, inBand_sw] at hdA
    have ht' : t.trans = false := by simpa using ht
    have hf : t.flip.trans = true := by simp [Trans.flip, ht']
    simp only [opRows, opCols, ht', Bool.false_eq_true, if_false] at hx hy hb hdA hdx ⊢
    have := gbCol_fl (alpha := alpha) (conjX := conjX) hf hA hx ⟨hy, hb⟩ hi hdA hdx
    rw [bandM_sw] at this
    exact this

/-- A row of `op(A)` has at most `kl + ku + 1` elements, side by side. -/
theorem band_seg (t : Trans) (N kl ku i : Nat) : ∃ s len, s + len ≤ N ∧ len ≤ kl + ku + 1 ∧
    ∀ (Q : Nat → Nat → Fl f) j, j < N → opM t (bandM kl ku Q) i j = seg s len (opM t (bandM kl ku Q) i) j := by
  cases ht : t.trans
  · refine ⟨min (i - kl) N, min N (i + ku + 1) - min (i - kl) N, by omega, by omega, fun Q j hj => ?_⟩
    unfold seg
    split
    · rfl
    · rw [opM_fl, ht, if_neg (by simp), bandM, if_neg (by omega)]
  · refine ⟨min (i - ku) N, min N (i + kl + 1) - min (i - ku) N, by omega, by omega, fun Q j hj => ?_⟩
    unfold seg
    split
    · rfl
    · rw [opM_fl, ht, if_pos rfl, bandM, if_neg (by omega)]

theorem rankSum_seg {s len n : Nat} (h : s + len ≤ n) (w : Fl f) (a b b' : Nat → Fl f) (hb : ∀ j, j < n → b' j = seg s len b j) :
    rankSum alpha w a b' n = rankSum alpha w (fun k => a (s + k)) (fun k => b (s + k)) len := by
  have e0 : ∀ k, k ≤ s → rankSum alpha w a b' k = w := by
    intro k hk
    induction k with
    | zero => rfl
    | succ k ih =>
      rw [rankSum, ih (by omega), hb _ (by omega), seg, if_neg (by omega), fl_mul_zero, fl_add_zero]
  have e1 : ∀ k, k ≤ len → rankSum alpha w a b' (s + k) = rankSum alpha w (fun k => a (s + k)) (fun k => b (s + k)) k := by
    intro k hk
    induction k with
    | zero => exact e0 s (Nat.le_refl _)
    | succ k ih => rw [← add_assoc, rankSum, rankSum, ih (by omega), hb _ (by omega), seg, if_pos (by omega)]
  have e2 : ∀ k, s + len + k ≤ n →
      rankSum alpha w a b' (s + len + k) = rankSum alpha w (fun k => a (s + k)) (fun k => b (s + k)) len := by
    intro k hk
    induction k with
    | zero => exact e1 len (Nat.le_refl _)
    | succ k ih => rw [← add_assoc, rankSum, ih (by omega), hb _ (by omega), seg, if_neg (by omega), fl_mul_zero, fl_add_zero]
  have := e2 (n - (s + len)) (by omega)
  rwa [Nat.add_sub_cancel' h] at this

theorem band_mono {E M C D : ℚ} {a b : Nat} (hab : a ≤ b) (hM : 0 ≤ M) (hC : 0 ≤ C) (hCD : C ≤ D)
    (h : E ≤ ((1 + unitRoundoff f) ^ a - 1) * M + (1 + unitRoundoff f) ^ a * C * halfTiny f) :
    E ≤ ((1 + unitRoundoff f) ^ b - 1) * M + (1 + unitRoundoff f) ^ b * D * halfTiny f := by
  have hp := pow_unit_mono f hab
  have h1 := one_le_pow_unit f b
  have ht := (tiny_pos f).le
  generalize (1 + unitRoundoff f) ^ a = p at *
  generalize (1 + unitRoundoff f) ^ b = q at *
  have e1 : (p - 1) * M ≤ (q - 1) * M := mul_le_mul_of_nonneg_right (by linarith) hM
  have e2 : p * C * halfTiny f ≤ q * D * halfTiny f :=
    mul_le_mul_of_nonneg_right (mul_le_mul hp hCD hC (by linarith)) ht
  linarith

/-- **C171** `gbmv` in floating point, for all orders, transpositions, increments and leading dimensions: each element of `beta y + alpha op(A) x`
is right up to `kl + ku + 3` roundings of the sum of the magnitudes of its terms, whatever the size of the matrix: only the width of the band
counts. With `beta = 0` the old `y` may be uninitialised. Nothing else changes. -/
theorem C171_gbmv (hr : r ≠ 0) (hc : c ≠ 0) (hA : StAt m (bandAd A o ld kl ku) (inBand kl ku r c) Q)
    (hx : VecAt m x incX (opCols t r c) xv) (hy : VecMem m y incY (opRows t r c))
    (hb : beta ≠ 0 → VecAt m y incY (opRows t r c) yv) (hi : incY ≠ 0)
    (hdA : StVecDisj (bandAd A o ld kl ku) (inBand kl ku r c) y incY (opRows t r c))
    (hdx : VecDisj x incX (opCols t r c) y incY (opRows t r c)) :
    ∃ w, Yields (gbmv o t conjX r c kl ku alpha A ld x incX beta y incY) m y incY (opRows t r c) w ∧ ∀ i, i < opRows t r c →
      |(w i).val - (beta.val * (yv i).val + alpha.val * ∑ j ∈ range (opCols t r c), (opM t (bandM kl ku Q) i j).val * (xv j).val)| ≤
        ((1 + unitRoundoff f) ^ (kl + ku + 3) - 1) * (|beta.val * (yv i).val| +
          |alpha.val| * ∑ j ∈ range (opCols t r c), |(opM t (bandM kl ku Q) i j).val * (xv j).val|) +
        (1 + unitRoundoff f) ^ (kl + ku + 3) * (2 + (kl + ku + 1) * (1 + |alpha.val|) +
          ∑ j ∈ range (opCols t r c), |(opM t (bandM kl ku Q) i j).val|) * halfTiny f := by
  have hz : (0 : Fl f).val = 0 := val_zero
  have hM0 : ∀ i, 0 ≤ |beta.val * (yv i).val| + |alpha.val| * ∑ j ∈ range (opCols t r c), |(opM t (bandM kl ku Q) i j).val * (xv j).val| :=
    fun i => add_nonneg (abs_nonneg _) (mul_nonneg (abs_nonneg _) (sum_nonneg fun _ _ => abs_nonneg _))
  have hS0 : ∀ i, 0 ≤ ∑ j ∈ range (opCols t r c), |(opM t (bandM kl ku Q) i j).val| := fun i => sum_nonneg fun _ _ => abs_nonneg _
  have hal := abs_nonneg alpha.val
  -- sums over the piece of the row are sums over the row
  have conv : ∀ i (F : Fl f → Nat → ℚ), (∀ j, F 0 j = 0) → ∀ s len, s + len ≤ opCols t r c →
      (∀ (Q : Nat → Nat → Fl f) j, j < opCols t r c → opM t (bandM kl ku Q) i j = seg s len (opM t (bandM kl ku Q) i) j) →
      ∑ k ∈ range len, F (opM t (bandM kl ku Q) i (s + k)) (s + k) = ∑ j ∈ range (opCols t r c), F (opM t (bandM kl ku Q) i j) j := by
    intro i F h0 s len hs he
    rw [seg_sum hs fun j => F (opM t (bandM kl ku Q) i j) j]
    refine sum_congr rfl fun j hj => ?_
    split
    · rfl
    · rename_i hn
      rw [he Q j (mem_range.1 hj), seg, if_neg hn, h0]
  by_cases ht : t.trans = decide (o = .colMajor)
  · refine ⟨_, gbmv_fl hr hc ht hA hx hy hb hi hdA hdx, fun i _ => ?_⟩
    obtain ⟨s, len, hs, hl, he⟩ := band_seg (f := f) t (opCols t r c) kl ku i
    have e : mulElem (opCols t r c) alpha beta (yv i) (opM t (bandM kl ku Q) i) xv =
        mulElem len alpha beta (yv i) (fun k => opM t (bandM kl ku Q) i (s + k)) fun k => xv (s + k) := by
      unfold mulElem
      rw [← dotL_seg hs, dotL_comm, dotL_comm (a := seg _ _ _)]
      rw [dotL_congr fun j hj => he Q j hj]
    have h := mulElem_err len alpha beta (yv i) (fun k => opM t (bandM kl ku Q) i (s + k)) fun k => xv (s + k)
    rw [← e] at h
    unfold MulErr at h
    rw [conv i (fun a j => a.val * (xv j).val) (fun j => by simp [hz]) s len hs he,
      conv i (fun a j => |a.val * (xv j).val|) (fun j => by simp [hz]) s len hs he, mul_comm (2 + _) (_ ^ _)] at h
    refine band_mono (by omega) (hM0 i) (by positivity) ?_ h
    have hl' : (len : ℚ) ≤ kl + ku + 1 := by exact_mod_cast hl
    have := mul_le_mul_of_nonneg_right hl' hal
    have h0 : (0 : ℚ) ≤ kl + ku + 1 := by positivity
    linarith [hS0 i, show ((kl : ℚ) + ku + 1) * (1 + |alpha.val|) = (kl + ku + 1) + (kl + ku + 1) * |alpha.val| by ring]
  · have ht' : t.trans = decide (o = .rowMajor) := by
      cases o <;> cases h : t.trans <;> simp [h] at ht ⊢
    refine ⟨_, gbmvT_fl hr hc ht' hA hx hy hb hi hdA hdx, fun i _ => ?_⟩
    obtain ⟨s, len, hs, hl, he⟩ := band_seg (f := f) t (opCols t r c) kl ku i
    rw [rankSum_seg hs _ _ (opM t (bandM kl ku Q) i) _ (he Q)]
    have h := rankSum_err (alpha := alpha) (beta := beta) (yv i) (fun k => xv (s + k)) (fun k => opM t (bandM kl ku Q) i (s + k)) len
    simp only [mul_comm (xv _).val, sum_add_distrib, sum_const, card_range, nsmul_eq_mul, mul_one] at h
    rw [conv i (fun a j => a.val * (xv j).val) (fun j => by simp [hz]) s len hs he,
      conv i (fun a j => |a.val * (xv j).val|) (fun j => by simp [hz]) s len hs he,
      conv i (fun a j => |a.val|) (fun j => by simp [hz]) s len hs he] at h
    have hl' : (len : ℚ) ≤ kl + ku + 1 := by exact_mod_cast hl
    have h0 : (0 : ℚ) ≤ len := by positivity
    refine band_mono (by omega) (hM0 i) (by linarith [hS0 i]) ?_ h
    have : 0 ≤ ((kl : ℚ) + ku + 1) * |alpha.val| := by positivity
    linarith [show ((kl : ℚ) + ku + 1) * (1 + |alpha.val|) = (kl + ku + 1) + (kl + ku + 1) * |alpha.val| by ring]

end

/-- The matrix `1 1; 0 1`: with one diagonal above the main diagonal at 0, leading dimension 2, and in full at 30; two vectors, at 10 and 20. -/
def exBandFl (v w : Nat → ℚ) : Mem (Fl binary64) := fun p =>
  if p = 32 then .val 0 else if 30 ≤ p ∧ p < 34 then .val (.round _ 1) else if p = 3 then .out else exSymFl v w p

/-- The hypotheses of the theorems hold. -/
theorem exBandFl_ok (v w : Nat → ℚ) : StAt (exBandFl v w) (bandAd 0 .rowMajor 2 0 1) (inBand 0 1 2 2) (fun _ _ => .round _ 1) ∧
    MatAt (exBandFl v w) 30 .rowMajor 2 (full 2 2) (bandM 0 1 fun _ _ => .round _ 1) ∧
    VecAt (exBandFl v w) 10 1 2 (fun i => .round _ (v i)) ∧ VecAt (exBandFl v w) 20 1 2 (fun i => .round _ (w i)) ∧
    StVecDisj (bandAd 0 .rowMajor 2 0 1) (inBand 0 1 2 2) 20 1 2 ∧ MatVecDisj 30 .rowMajor 2 (full 2 2) 20 1 2 ∧
    VecDisj 10 1 2 20 1 2 := by
  refine ⟨fun i j h => ?_, fun i j h => ?_, fun i h => ?_, fun i h => ?_, fun i j k h hk => ?_, fun i j k h hk => ?_, fun i j h hj => ?_⟩
  · obtain ⟨h1, h2, h3, h4⟩ := h
    interval_cases i <;> interval_cases j <;> first | rfl | omega
  · obtain ⟨h1, h2⟩ := h
    interval_cases i <;> interval_cases j <;> rfl
  · interval_cases i <;> rfl
  · interval_cases i <;> rfl
  · obtain ⟨h1, h2, h3, h4⟩ := h
    interval_cases i <;> interval_cases j <;> interval_cases k <;> first | decide | omega
  · obtain ⟨h1, h2⟩ := h
    interval_cases i <;> interval_cases j <;> interval_cases k <;> decide
  · interval_cases i <;> interval_cases j <;> decide

/-- **C172 (disproved for the other cases).** For `Aᵀ x` with a row-major matrix `gbmv` adds the products to `y` one by one, where `gemv` adds their
sum: `1 + 2^-53 + 2^-53` is 1 in the one and `1 + 2^-52` in the other. -/
theorem C172_gbmv_gemv_false : ∃ a b,
    peek (gbmv .rowMajor ⟨false, true⟩ false 2 2 0 1 (.round binary64 1) 0 2 10 1 (.round _ 1) 20 1
      (exBandFl (fun _ => 1 / 2 ^ 53) fun _ => 1)) (fun _ m => m 21) = .ok (.val a) ∧
    peek (gemv .rowMajor ⟨false, true⟩ false 2 2 (.round binary64 1) 30 2 10 1 (.round _ 1) 20 1
      (exBandFl (fun _ => 1 / 2 ^ 53) fun _ => 1)) (fun _ m => m 21) = .ok (.val b) ∧ a ≠ b := by
  refine ⟨.round binary64 1, .round binary64 (1 + 1 / 2 ^ 52), by decide +kernel, by decide +kernel, by decide +kernel⟩

end Verif.Blas
