import Verif.Props.BlasBandFl

/-! Property theorems for products with packed and banded symmetric matrices of cxxblas in floating point (C173). `spmv` and `sbmv` go through the
rows once; each pass adds an inner product to one element and multiples of the row to others. -/

namespace Verif.Blas

open Finset Verif.Ieee

variable {f : Fmt}

/-! ### Errors -/

section
variable {alpha beta : Fl f}

theorem band_sum {s w k : Nat} {a : Nat → Fl f} (hz : ∀ j, j < k → ¬(s ≤ j ∧ j < s + w) → a j = 0) :
    ∃ s' len, s' + len ≤ k ∧ len ≤ w ∧ (∀ j, j < k → a j = seg s' len a j) ∧ ∀ F : Fl f → Nat → ℚ, (∀ j, F 0 j = 0) →
      ∑ l ∈ range len, F (a (s' + l)) (s' + l) = ∑ j ∈ range k, F (a j) j := by
  have key : ∀ j, j < k → a j = seg (min s k) (min w (k - min s k)) a j := by
    intro j hj
    unfold seg
    split
    · rfl
    · exact hz j hj (by omega)
  refine ⟨min s k, min w (k - min s k), by omega, by omega, key, fun F h0 => ?_⟩
  rw [seg_sum (n := k) (by omega) fun j => F (a j) j]
  refine sum_congr rfl fun j hj => ?_
  split
  · rfl
  · rename_i hn
    rw [key j (mem_range.1 hj), seg, if_neg hn, h0]

theorem rank_w {s w k : Nat} (v : Fl f) (a x : Nat → Fl f) (hz : ∀ j, j < k → ¬(s ≤ j ∧ j < s + w) → a j = 0) :
    |(rankSum alpha (v * beta) x a k).val - (beta.val * v.val + alpha.val * ∑ j ∈ range k, (a j).val * (x j).val)| ≤
      ((1 + unitRoundoff f) ^ (w + 2) - 1) * (|beta.val * v.val| + |alpha.val| * ∑ j ∈ range k, |(a j).val * (x j).val|) +
        (1 + unitRoundoff f) ^ (w + 2) * (1 + w + ∑ j ∈ range k, |(a j).val|) * halfTiny f := by
  have h0 : (0 : Fl f).val = 0 := val_zero
  obtain ⟨s', len, hs, hl, he, conv⟩ := band_sum hz
  rw [rankSum_seg hs _ _ a _ he]
  have h := rankSum_err (alpha := alpha) (beta := beta) v (fun k => x (s' + k)) (fun k => a (s' + k)) len
  simp only [mul_comm (x _).val, sum_add_distrib, sum_const, card_range, nsmul_eq_mul, mul_one] at h
  rw [conv (fun a j => a.val * (x j).val) fun j => by simp [h0], conv (fun a j => |a.val * (x j).val|) fun j => by simp [h0],
    conv (fun a j => |a.val|) fun j => by simp [h0]] at h
  have hS : 0 ≤ ∑ j ∈ range k, |(a j).val| := sum_nonneg fun _ _ => abs_nonneg _
  have hl' : (len : ℚ) ≤ w := by exact_mod_cast hl
  have hl0 : (0 : ℚ) ≤ len := by positivity
  exact band_mono (by omega) (add_nonneg (abs_nonneg _) (mul_nonneg (abs_nonneg _) (sum_nonneg fun _ _ => abs_nonneg _)))
    (by linarith) (by linarith) h

theorem mul_w {s w k : Nat} (v : Fl f) (a x : Nat → Fl f) (hz : ∀ j, j < k → ¬(s ≤ j ∧ j < s + w) → a j = 0) :
    |(v * beta + alpha * dotL k a x).val - (beta.val * v.val + alpha.val * ∑ j ∈ range k, (a j).val * (x j).val)| ≤
      ((1 + unitRoundoff f) ^ (w + 2) - 1) * (|beta.val * v.val| + |alpha.val| * ∑ j ∈ range k, |(a j).val * (x j).val|) +
        (1 + unitRoundoff f) ^ (w + 2) * (2 + w * |alpha.val|) * halfTiny f := by
  have h0 : (0 : Fl f).val = 0 := val_zero
  obtain ⟨s', len, hs, hl, he, conv⟩ := band_sum hz
  have e : dotL k a x = dotL len (fun k => a (s' + k)) fun k => x (s' + k) := by
    rw [← dotL_seg hs, dotL_comm, dotL_comm (a := seg _ _ _)]
    exact dotL_congr he
  rw [e]
  have h := mulElem_err len alpha beta v (fun k => a (s' + k)) fun k => x (s' + k)
  unfold MulErr mulElem at h
  rw [conv (fun a j => a.val * (x j).val) fun j => by simp [h0], conv (fun a j => |a.val * (x j).val|) fun j => by simp [h0],
    mul_comm (2 + _) (_ ^ _)] at h
  have hl' : (len : ℚ) ≤ w := by exact_mod_cast hl
  have := mul_le_mul_of_nonneg_right hl' (abs_nonneg alpha.val)
  exact band_mono (by omega) (add_nonneg (abs_nonneg _) (mul_nonneg (abs_nonneg _) (sum_nonneg fun _ _ => abs_nonneg _)))
    (by positivity) (by linarith) h

/-- Two stages one after the other. -/
theorem comp_err {R V W1 S2 M1 M2 p q C1 C2 t : ℚ} (hp : 1 ≤ p) (hq : 1 ≤ q) (ht : 0 ≤ t) (hM2 : 0 ≤ M2) (hC2 : 0 ≤ C2)
    (hW : |W1| ≤ M1) (h1 : |V - W1| ≤ (p - 1) * M1 + p * C1 * t) (h2 : |R - (V + S2)| ≤ (q - 1) * (|V| + M2) + q * C2 * t) :
    |R - (W1 + S2)| ≤ (p * q - 1) * (M1 + M2) + p * q * (C1 + C2) * t := by
  have hV : |V| ≤ p * M1 + p * C1 * t := by
    have := abs_add_le W1 (V - W1)
    rw [add_sub_cancel] at this
    linarith
  have h3 : |R - (W1 + S2)| ≤ |R - (V + S2)| + |V - W1| := by
    rw [show R - (W1 + S2) = (R - (V + S2)) + (V - W1) by ring]
    exact abs_add_le _ _
  have h5 : (q - 1) * (|V| + M2) ≤ (q - 1) * (p * M1 + p * C1 * t + M2) := mul_le_mul_of_nonneg_left (by linarith) (by linarith)
  have h6 : 0 ≤ (p - 1) * (q * M2) := mul_nonneg (by linarith) (mul_nonneg (by linarith) hM2)
  have h7 : 0 ≤ (p - 1) * (q * C2 * t) := mul_nonneg (by linarith) (mul_nonneg (mul_nonneg (by linarith) hC2) ht)
  linarith [show (p * q - 1) * (M1 + M2) + p * q * (C1 + C2) * t -
    ((q - 1) * (p * M1 + p * C1 * t + M2) + q * C2 * t + ((p - 1) * M1 + p * C1 * t)) =
    (p - 1) * (q * M2) + (p - 1) * (q * C2 * t) by ring]

/-- An element as it is computed: for an upper triangle the terms before `c` one by one and then the inner product of the others, for a lower
triangle the inner product of those before `c` and then the others one by one. -/
def spElem (u : UpLo) (n c : Nat) (alpha beta v : Fl f) (a x : Nat → Fl f) : Fl f :=
  match u with
  | .upper => rankSum alpha (v * beta) x a c + alpha * dotL (n - c) (fun k => a (c + k)) fun k => x (c + k)
  | .lower => rankSum alpha (v * beta + alpha * dotL c a x) (fun k => x (c + k)) (fun k => a (c + k)) (n - c)

theorem spElem_err (he : f.emin ≤ 0) (u : UpLo) {n c w1 w2 : Nat} (hc : c ≤ n) (v : Fl f) (a x : Nat → Fl f)
    (hz : ∀ j, j < n → ¬(c ≤ j + w1 ∧ j < c + w2) → a j = 0) :
    |(spElem u n c alpha beta v a x).val - (beta.val * v.val + alpha.val * ∑ j ∈ range n, (a j).val * (x j).val)| ≤
      ((1 + unitRoundoff f) ^ (w1 + w2 + 4) - 1) * (|beta.val * v.val| + |alpha.val| * ∑ j ∈ range n, |(a j).val * (x j).val|) +
        (1 + unitRoundoff f) ^ (w1 + w2 + 4) * (3 + (w1 + w2) * (1 + |alpha.val|) + ∑ j ∈ range n, |(a j).val|) * halfTiny f := by
  have hal := abs_nonneg alpha.val
  have one : ∀ V : Fl f, V * 1 = V := MulM.fl_mul_one he
  have v1 : (1 : Fl f).val = 1 := val_one he
  have z1 : ∀ j, j < c → ¬(c - w1 ≤ j ∧ j < c - w1 + w1) → a j = 0 := fun j hj h => hz j (by omega) (by omega)
  have z2 : ∀ k, k < n - c → ¬(0 ≤ k ∧ k < 0 + w2) → a (c + k) = 0 := fun k hk h => hz _ (by omega) (by omega)
  have hp : (1 + unitRoundoff f) ^ (w1 + w2 + 4) = (1 + unitRoundoff f) ^ (w1 + 2) * (1 + unitRoundoff f) ^ (w2 + 2) := by
    rw [← pow_add]; congr 1; ring
  have p1 : 1 ≤ (1 + unitRoundoff f) ^ (w1 + 2) := one_le_pow_unit f _
  have q1 : 1 ≤ (1 + unitRoundoff f) ^ (w2 + 2) := one_le_pow_unit f _
  have ht := (tiny_pos f).le
  have hW : |beta.val * v.val + alpha.val * ∑ j ∈ range c, (a j).val * (x j).val| ≤
      |beta.val * v.val| + |alpha.val| * ∑ j ∈ range c, |(a j).val * (x j).val| := by
    refine (abs_add_le _ _).trans ?_
    rw [abs_mul alpha.val]
    have := mul_le_mul_of_nonneg_left (abs_sum_le_sum_abs (fun l => (a l).val * (x l).val) (range c)) hal
    linarith
  have hM2 : 0 ≤ |alpha.val| * ∑ k ∈ range (n - c), |(a (c + k)).val * (x (c + k)).val| :=
    mul_nonneg hal (sum_nonneg fun _ _ => abs_nonneg _)
  have hS1 : 0 ≤ ∑ j ∈ range c, |(a j).val| := sum_nonneg fun _ _ => abs_nonneg _
  have hS2 : 0 ≤ ∑ k ∈ range (n - c), |(a (c + k)).val| := sum_nonneg fun _ _ => abs_nonneg _
  have hw1 : (0 : ℚ) ≤ w1 := by positivity
  have hw2 : (0 : ℚ) ≤ w2 := by positivity
  have fin : ∀ R C : ℚ, C ≤ 3 + (w1 + w2) * (1 + |alpha.val|) + (∑ j ∈ range c, |(a j).val| + ∑ k ∈ range (n - c), |(a (c + k)).val|) →
      |R - (beta.val * v.val + alpha.val * ∑ j ∈ range c, (a j).val * (x j).val +
        alpha.val * ∑ k ∈ range (n - c), (a (c + k)).val * (x (c + k)).val)| ≤
        ((1 + unitRoundoff f) ^ (w1 + 2) * (1 + unitRoundoff f) ^ (w2 + 2) - 1) *
          (|beta.val * v.val| + |alpha.val| * ∑ j ∈ range c, |(a j).val * (x j).val| +
            |alpha.val| * ∑ k ∈ range (n - c), |(a (c + k)).val * (x (c + k)).val|) +
          (1 + unitRoundoff f) ^ (w1 + 2) * (1 + unitRoundoff f) ^ (w2 + 2) * C * halfTiny f →
      |R - (beta.val * v.val + alpha.val * ∑ j ∈ range n, (a j).val * (x j).val)| ≤
        ((1 + unitRoundoff f) ^ (w1 + w2 + 4) - 1) * (|beta.val * v.val| + |alpha.val| * ∑ j ∈ range n, |(a j).val * (x j).val|) +
        (1 + unitRoundoff f) ^ (w1 + w2 + 4) * (3 + (w1 + w2) * (1 + |alpha.val|) + ∑ j ∈ range n, |(a j).val|) * halfTiny f := by
    intro R C hC h
    rw [sum_split hc (f := fun j => (a j).val * (x j).val), sum_split hc (f := fun j => |(a j).val * (x j).val|),
      sum_split hc (f := fun j => |(a j).val|), hp, mul_add alpha.val, ← add_assoc, mul_add |alpha.val|, ← add_assoc]
    refine h.trans (add_le_add_right ?_ _)
    exact halfTiny_mono (mul_nonneg (by linarith) (by linarith)) hC
  cases u
  · have h1 := rank_w (alpha := alpha) (beta := beta) v a x z1
    have h2 := mul_w (alpha := alpha) (beta := 1) (rankSum alpha (v * beta) x a c) (fun k => a (c + k)) (fun k => x (c + k)) z2
    rw [one, v1, one_mul] at h2
    refine fin _ _ ?_ (comp_err p1 q1 ht hM2 (by positivity) hW h1 h2)
    have : 0 ≤ (w1 : ℚ) * |alpha.val| := by positivity
    linarith [show ((w1 : ℚ) + w2) * (1 + |alpha.val|) = w1 + w2 + w1 * |alpha.val| + w2 * |alpha.val| by ring]
  · have h1 := mul_w (alpha := alpha) (beta := beta) v a x z1
    have h2 := rank_w (alpha := alpha) (beta := 1) (v * beta + alpha * dotL c a x) (fun k => a (c + k)) (fun k => x (c + k)) z2
    rw [one, v1, one_mul] at h2
    refine fin _ _ ?_ (comp_err p1 q1 ht hM2 (by positivity) hW h1 h2)
    have : 0 ≤ (w2 : ℚ) * |alpha.val| := by positivity
    linarith [show ((w1 : ℚ) + w2) * (1 + |alpha.val|) = w1 + w2 + w1 * |alpha.val| + w2 * |alpha.val| by ring]

end

/-! ### Runs -/

theorem dotL_congr' {n : Nat} {a a' b : Nat → Fl f} (h : ∀ i, i < n → a i = a' i) : dotL n a b = dotL n a' b := by
  rw [dotL_comm, dotL_comm (a := a')]
  exact dotL_congr h

theorem rankSum_congr {alpha w : Fl f} {a b b' : Nat → Fl f} {n : Nat} (h : ∀ i, i < n → b i = b' i) :
    rankSum alpha w a b n = rankSum alpha w a b' n := by
  induction n with
  | zero => rfl
  | succ n ih => rw [rankSum, rankSum, ih fun i hi => h i (by omega), h n (by omega)]

theorem rankSum_zero {alpha w : Fl f} {a b : Nat → Fl f} {n : Nat} (h : ∀ i, i < n → b i = 0) : rankSum alpha w a b n = w := by
  induction n with
  | zero => rfl
  | succ n ih => rw [rankSum, ih fun i hi => h i (by omega), h n (by omega), fl_mul_zero, fl_add_zero]

/-- An element after `k` passes. -/
def passVal (alpha w : Fl f) (xv d : Nat → Fl f) (X : Nat → Nat → Fl f) (i : Nat) : Nat → Fl f
  | 0 => w
  | k + 1 => (if i = k then passVal alpha w xv d X i k + alpha * d k else passVal alpha w xv d X i k) + alpha * xv k * X k i

section
variable {alpha beta w : Fl f} {xv yv d : Nat → Fl f} {X : Nat → Nat → Fl f}

theorem passVal_before {i k : Nat} (h : k ≤ i) : passVal alpha w xv d X i k = rankSum alpha w xv (fun p => X p i) k := by
  induction k with
  | zero => rfl
  | succ k ih => rw [passVal, if_neg (by omega), ih (by omega), rankSum]

theorem passVal_after (i q : Nat) : passVal alpha w xv d X i (i + (q + 1)) =
    rankSum alpha (rankSum alpha w xv (fun p => X p i) i + alpha * d i) (fun k => xv (i + k)) (fun k => X (i + k) i) (q + 1) := by
  induction q with
  | zero =>
    rw [zero_add, passVal, if_pos rfl, passVal_before (Nat.le_refl _)]
    rfl
  | succ q ih =>
    rw [show i + (q + 1 + 1) = i + (q + 1) + 1 by omega, passVal, if_neg (by omega), ih]
    rfl

theorem passVal_end {i n : Nat} (h : i < n) : passVal alpha w xv d X i n =
    rankSum alpha (rankSum alpha w xv (fun p => X p i) i + alpha * d i) (fun k => xv (i + k)) (fun k => X (i + k) i) (n - i) := by
  have := passVal_after (alpha := alpha) (w := w) (xv := xv) (d := d) (X := X) i (n - i - 1)
  rwa [show i + (n - i - 1 + 1) = n by omega, show n - i - 1 + 1 = n - i by omega] at this

variable {m : Mem (Fl f)} {x incX y incY : Int} {n : Nat}

theorem addDot_snapF (hi : incY ≠ 0) {p : Nat} (hp : p < n) {D : M (Fl f) (Fl f)} {e : Fl f} {v : Nat → Fl f}
    (hD : D (snap m y incY n v) = .ok (e, snap m y incY n v)) :
    addDot alpha D (start n y incY + (p : Int) * incY) (snap m y incY n v) =
      .ok ((), snap m y incY n fun i => if i = p then v i + alpha * e else v i) := by
  unfold addDot
  rw [start_elem, bind_ok hD, bind_ok (load_ok (snap_in hi hp)), store_ok (by rw [snap_in hi hp]; simp), snap_set hi hp]
  refine congrArg (fun z => Out.ok ((), z)) (snap_congr hi fun i _ => ?_)
  by_cases h : i = p
  · subst h; simp
  · simp [h]

theorem axpyAtR_fl {c : Bool} (k : Nat) (xi a incA y incY : Int) : axpyAtR c k alpha xi a incA y incY = axpyAt c k alpha xi a incA y incY := by
  unfold axpyAtR axpyAt
  simp only [fl_mul_comm alpha]

/-- One pass: an inner product with one piece of the row, an update with another. -/
theorem symPassF (hi : incY ≠ 0) {p s len s' len' : Nat} (hp : p < n) {a a' : Int} {r v : Nat → Fl f} (hs : s + len ≤ n)
    (hs' : s' + len' ≤ n) (hx : ∀ w j, j < n → snap m y incY n w (elem x incX n j) = .val (xv j))
    (ha : ∀ k, k < len → m (a + (k : Nat)) = .val (r (s + k)))
    (hd : ∀ k j, k < len → j < n → a + (k : Nat) ≠ elem y incY n j)
    (ha' : ∀ k, k < len' → m (a' + (k : Nat)) = .val (r (s' + k)))
    (hd' : ∀ k j, k < len' → j < n → a' + (k : Nat) ≠ elem y incY n j) :
    (do
      addDot alpha (dotuGeneric len a 1 (start n x incX + (s : Int) * incX) incX) (start n y incY + (p : Int) * incY)
      axpyAt false len' alpha (start n x incX + (p : Int) * incX) a' 1 (start n y incY + (s' : Int) * incY) incY : M (Fl f) Unit)
        (snap m y incY n v) = .ok ((), snap m y incY n fun i =>
      (if i = p then v i + alpha * dotL n (seg s len r) xv else v i) + alpha * xv p * seg s' len' r i) := by
  rw [bind_ok (addDot_snapF hi hp (e := dotL n (seg s len r) xv) _)]
  · unfold axpyAt
    rw [start_elem, bind_ok (load_ok (hx _ p hp)), segAxpy_fl hi hs' ha' hd']
  · rw [dotL_seg hs]
    refine dotC_fold (c := false) (fun k hk => ?_) fun k hk => ?_
    · rw [mul_one, snap_out fun j hj => hd k j hk hj]; exact ha k hk
    · rw [elem_shift]; exact hx _ _ (by omega)

variable {R : Rows} {u : UpLo} {Q B : Nat → Nat → Fl f}

/-- The rows of `sbmv`, and of `spmv` for an upper triangle. -/
theorem sbmvRows_fl (hR : TriRows R u n) (hA : RowsAt m R n Q) (hx : VecAt m x incX n xv) (hy : InitAt beta m y incY n yv)
    (hi : incY ≠ 0) (hdA : RowsDisj R n y incY n) (hdx : VecDisj x incX n y incY n)
    (hB : ∀ i j, i < n → j < n → symM u (rowM R Q) i j = B i j) (g : Nat → M (Fl f) Unit)
    (hg : ∀ i, i < n → g i = (match u with
      | .upper => do
        addDot alpha (dotuGeneric (R.len i) (R.row i) 1 (start n x incX + (i : Int) * incX) incX) (start n y incY + (i : Int) * incY)
        axpyAt false (R.len i - 1) alpha (start n x incX + (i : Int) * incX) (R.row i + 1) 1
          (start n y incY + (i : Int) * incY + incY) incY
      | .lower => do
        addDot alpha (dotuGeneric (R.len i) (R.row i) 1 (start n x incX + (R.first i : Int) * incX) incX)
          (start n y incY + (i : Int) * incY)
        axpyAt false (R.len i - 1) alpha (start n x incX + (i : Int) * incX) (R.row i) 1
          (start n y incY + (R.first i : Int) * incY) incY)) :
    (do
      scalInitGeneric n beta (start n y incY) incY
      loop n g : M (Fl f) Unit) m = .ok ((), snap m y incY n fun i =>
        spElem u n (if u = .upper then i else i + 1) alpha beta (yv i) (B i) xv) := by
  have hxs : ∀ w j, j < n → snap m y incY n w (elem x incX n j) = .val (xv j) := fun w j hj => by
    rw [snap_out fun k hk => hdx j k hj hk]; exact hx j hj
  rw [bind_ok (show scalInitGeneric n beta (start n y incY) incY m = .ok ((), snap m y incY n fun i => yv i * beta) from
    scalInit_initF hy hi)]
  have run := snap_loop (m := m) (y := y) (incY := incY) (n := n) (r := n) (fun k i => passVal alpha (yv i * beta) xv
    (fun p => dotL n (rowM R Q p) xv) (fun p => seg (if u = .upper then p + 1 else R.first p) (R.len p - 1) (Q p)) i k) g fun p hp => ?_
  · rw [show (fun i => yv i * beta) = fun i => passVal alpha (yv i * beta) xv (fun p => dotL n (rowM R Q p) xv)
      (fun p => seg (if u = .upper then p + 1 else R.first p) (R.len p - 1) (Q p)) i 0 from rfl, run]
    refine congrArg (fun z => Out.ok ((), z)) (snap_congr hi fun i hin => ?_)
    rw [passVal_end hin]
    have h1 := hR.pos i hin
    cases u
    · simp only [if_true, spElem]
      have h3 := hR.up rfl i hin
      rw [rankSum_zero fun k hk => by unfold seg; rw [if_neg (by omega)]]
      congr 1
      · refine rankSum_congr fun p hp => ?_
        rw [← hB i p hin (by omega)]
        have h4 := hR.up rfl p (by omega)
        have h5 := hR.pos p (by omega)
        simp only [symM, if_neg (show ¬ i ≤ p by omega), rowM, seg, h4]
        exact if_congr (by omega) rfl rfl
      · congr 1
        rw [← dotL_seg (s := i) (len := n - i) (n := n) (by omega) (B i) xv]
        refine dotL_congr' fun j hj => ?_
        rw [seg]
        split
        · rw [← hB i j hin hj, symM, if_pos (by omega)]
        · rw [rowM, seg, if_neg (by omega)]
    · simp only [reduceCtorEq, if_false, spElem]
      have h3 := hR.lo rfl i hin
      have h0 : rankSum alpha (yv i * beta) xv (fun p => seg (R.first p) (R.len p - 1) (Q p) i) i = yv i * beta :=
        rankSum_zero fun p hp => by
          have h4 := hR.lo rfl p (by omega)
          have h5 := hR.pos p (by omega)
          unfold seg
          rw [if_neg (by omega)]
      have h6 : dotL n (rowM R Q i) xv = dotL (i + 1) (B i) xv := by
        have := dotL_seg (s := 0) (len := i + 1) (n := n) (by omega) (B i) xv
        simp only [zero_add] at this
        rw [← this]
        refine dotL_congr' fun j hj => ?_
        rw [seg]
        split
        · rw [← hB i j hin hj, symM, if_pos (by omega)]
        · rw [rowM, seg, if_neg (by omega)]
      rw [h0, h6, rankSum_seg (s := 1) (len := n - (i + 1)) (by omega) _ _ (fun k => B i (i + k))]
      · simp only [← add_assoc]
      · intro k hk
        have h4 := hR.lo rfl (i + k) (by omega)
        have h5 := hR.pos (i + k) (by omega)
        by_cases hk0 : k = 0
        · subst hk0
          rw [seg, seg, if_neg (by omega), if_neg (by omega)]
        · rw [seg, seg, if_pos (show 1 ≤ k ∧ k < 1 + (n - (i + 1)) by omega), ← hB i (i + k) hin (by omega)]
          simp only [symM, if_neg (show ¬ i + k ≤ i by omega), rowM, seg]
          exact if_congr (by omega) rfl rfl
  · rw [hg p hp]
    have h1 := hR.pos p hp
    have h2 := hR.le p hp
    cases u
    · have h3 := hR.up rfl p hp
      have e1 : start n y incY + (p : Int) * incY + incY = start n y incY + ((p + 1 : Nat) : Int) * incY := by push_cast; ring
      simp only [e1, if_true]
      rw [symPassF (r := Q p) (a := R.row p) (a' := R.row p + 1) (s := p) (len := R.len p)
        (s' := p + 1) (len' := R.len p - 1) hi hp (by omega) (by omega) hxs
        (fun k hk => by rw [hA p k hp hk, h3]) (fun k j hk hj => hdA p k j hp hk hj)
        (fun k hk => by
          have := hA p (k + 1) hp (by omega)
          rw [h3] at this
          rw [show p + 1 + k = p + (k + 1) by omega, ← this]; congr 1; push_cast; ring)
        (fun k j hk hj e => hdA p (k + 1) j hp (by omega) hj (by rw [← e]; push_cast; ring))]
      have e2 : rowM R Q p = seg p (R.len p) (Q p) := by funext j; rw [rowM, h3]
      simp only [passVal, e2]
    · simp only [reduceCtorEq, if_false]
      rw [symPassF (r := Q p) (a := R.row p) (a' := R.row p) (s := R.first p) (len := R.len p)
        (s' := R.first p) (len' := R.len p - 1) hi hp (by omega) (by omega) hxs
        (fun k hk => hA p k hp hk) (fun k j hk hj => hdA p k j hp hk hj)
        (fun k hk => hA p k hp (by omega)) (fun k j hk hj => hdA p k j hp (by omega) hj)]
      rfl

/-- The rows of `spmv` for a lower triangle: the diagonal belongs to the update instead of the inner product. -/
theorem spmvLower_fl (hR : TriRows R .lower n) (hA : RowsAt m R n Q) (hx : VecAt m x incX n xv) (hy : InitAt beta m y incY n yv)
    (hi : incY ≠ 0) (hdA : RowsDisj R n y incY n) (hdx : VecDisj x incX n y incY n)
    (hB : ∀ i j, i < n → j < n → symM .lower (rowM R Q) i j = B i j) (g : Nat → M (Fl f) Unit)
    (hg : ∀ i, i < n → g i = (do
        addDot alpha (dotuGeneric (R.len i - 1) (R.row i) 1 (start n x incX + (R.first i : Int) * incX) incX)
          (start n y incY + (i : Int) * incY)
        axpyAt false (R.len i) alpha (start n x incX + (i : Int) * incX) (R.row i) 1
          (start n y incY + (R.first i : Int) * incY) incY)) :
    (do
      scalInitGeneric n beta (start n y incY) incY
      loop n g : M (Fl f) Unit) m = .ok ((), snap m y incY n fun i => spElem .lower n i alpha beta (yv i) (B i) xv) := by
  have hxs : ∀ w j, j < n → snap m y incY n w (elem x incX n j) = .val (xv j) := fun w j hj => by
    rw [snap_out fun k hk => hdx j k hj hk]; exact hx j hj
  rw [bind_ok (show scalInitGeneric n beta (start n y incY) incY m = .ok ((), snap m y incY n fun i => yv i * beta) from
    scalInit_initF hy hi)]
  have run := snap_loop (m := m) (y := y) (incY := incY) (n := n) (r := n) (fun k i => passVal alpha (yv i * beta) xv
    (fun p => dotL n (seg (R.first p) (R.len p - 1) (Q p)) xv) (rowM R Q) i k) g fun p hp => ?_
  · rw [show (fun i => yv i * beta) = fun i => passVal alpha (yv i * beta) xv
      (fun p => dotL n (seg (R.first p) (R.len p - 1) (Q p)) xv) (rowM R Q) i 0 from rfl, run]
    refine congrArg (fun z => Out.ok ((), z)) (snap_congr hi fun i hin => ?_)
    rw [passVal_end hin]
    have h1 := hR.pos i hin
    have h3 := hR.lo rfl i hin
    simp only [spElem]
    have h0 : rankSum alpha (yv i * beta) xv (fun p => rowM R Q p i) i = yv i * beta :=
      rankSum_zero fun p hp => by
        have h4 := hR.lo rfl p (by omega)
        rw [rowM, seg, if_neg (by omega)]
    have h6 : dotL n (seg (R.first i) (R.len i - 1) (Q i)) xv = dotL i (B i) xv := by
      have := dotL_seg (s := 0) (len := i) (n := n) (by omega) (B i) xv
      simp only [zero_add] at this
      rw [← this]
      refine dotL_congr' fun j hj => ?_
      rw [seg, seg]
      split
      · rw [if_pos (by omega), ← hB i j hin hj, symM, if_pos (by omega), rowM, seg, if_pos (by omega)]
      · split
        · rw [← hB i j hin hj, symM, if_pos (by omega), rowM, seg, if_neg (by omega)]
        · rfl
    rw [h0, h6]
    refine rankSum_congr fun k hk => ?_
    rw [← hB i (i + k) hin (by omega)]
    by_cases hk0 : k = 0
    · subst hk0; simp [symM]
    · simp [symM, hk0]
  · rw [hg p hp]
    have h1 := hR.pos p hp
    have h2 := hR.le p hp
    rw [symPassF (r := Q p) (a := R.row p) (a' := R.row p) (s := R.first p)
      (len := R.len p - 1) (s' := R.first p) (len' := R.len p) hi hp (by omega) (by omega) hxs
      (fun k hk => hA p k hp (by omega)) (fun k j hk hj => hdA p k j hp (by omega) hj)
      (fun k hk => hA p k hp hk) (fun k j hk hj => hdA p k j hp hk hj)]
    rfl

end

section
variable {o : Order} {u : UpLo} {n k : Nat} {alpha beta : Fl f} {A ld x incX y incY : Int} {m : Mem (Fl f)} {Q : Nat → Nat → Fl f}
  {xv yv : Nat → Fl f}

theorem sbmvRow_fl (hA : StAt m (bandAd A .rowMajor ld (lowerK u k) (upperK u k)) (inBand (lowerK u k) (upperK u k) n n) Q)
    (hx : VecAt m x incX n xv) (hy : InitAt beta m y incY n yv) (hi : incY ≠ 0)
    (hdA : StVecDisj (bandAd A .rowMajor ld (lowerK u k) (upperK u k)) (inBand (lowerK u k) (upperK u k) n n) y incY n)
    (hdx : VecDisj x incX n y incY n) :
    Yields (sbmv .rowMajor u n k alpha A ld x incX beta y incY) m y incY n fun i =>
      spElem u n (if u = .upper then i else i + 1) alpha beta (yv i) (symM u (bandM (lowerK u k) (upperK u k) Q) i) xv := by
  have hin := tbRows_in u n k A ld
  have key := sbmvRows_fl (alpha := alpha) (tbRows_tri u n k A ld) (hin.at hA) hx hy hi (hin.disj hdA) hdx
    (B := symM u (bandM (lowerK u k) (upperK u k) Q)) fun i j hi' hj => symM_congr hi' hj fun i j h => tbRows_M h.2.1 Q
  refine yields_of_snap hi ?_
  unfold sbmv
  by_cases h0 : n = 0
  · subst h0
    simp only [if_true]
    exact congrArg (fun z => Out.ok ((), z)) (snap_eq hi fun i h => absurd h (Nat.not_lt_zero i))
  · simp only [if_neg h0, effUpLo, axpyAtR_fl]
    cases u
    · exact key _ fun i _ => rfl
    · exact key _ fun i _ => rfl

theorem sband_zero {i j : Nat} (h : ¬(i ≤ j + k ∧ j ≤ i + k)) : symM u (bandM (lowerK u k) (upperK u k) Q) i j = 0 := by
  cases u <;> simp only [symM, bandM, lowerK, upperK] <;> split <;> exact if_neg (by omega)

/-- **C173** `sbmv` in floating point, for all orders, triangles, increments and leading dimensions: each element of `beta y + alpha S x` for the
symmetric matrix `S` with `k` diagonals on either side is right up to `2k + 5` roundings of the sum of the magnitudes of its terms, whatever the
size of the matrix. With `beta = 0` the old `y` may be uninitialised. Nothing else changes. -/
theorem C173_sbmv (he : f.emin ≤ 0)
    (hA : StAt m (bandAd A o ld (lowerK u k) (upperK u k)) (inBand (lowerK u k) (upperK u k) n n) Q)
    (hx : VecAt m x incX n xv) (hy : VecMem m y incY n) (hb : beta ≠ 0 → VecAt m y incY n yv) (hi : incY ≠ 0)
    (hdA : StVecDisj (bandAd A o ld (lowerK u k) (upperK u k)) (inBand (lowerK u k) (upperK u k) n n) y incY n)
    (hdx : VecDisj x incX n y incY n) :
    ∃ w, Yields (sbmv o u n k alpha A ld x incX beta y incY) m y incY n w ∧ ∀ i, i < n →
      |(w i).val - (beta.val * (yv i).val +
          alpha.val * ∑ j ∈ range n, (symM u (bandM (lowerK u k) (upperK u k) Q) i j).val * (xv j).val)| ≤
        ((1 + unitRoundoff f) ^ (2 * k + 5) - 1) * (|beta.val * (yv i).val| +
          |alpha.val| * ∑ j ∈ range n, |(symM u (bandM (lowerK u k) (upperK u k) Q) i j).val * (xv j).val|) +
        (1 + unitRoundoff f) ^ (2 * k + 5) * (3 + (2 * k + 1) * (1 + |alpha.val|) +
          ∑ j ∈ range n, |(symM u (bandM (lowerK u k) (upperK u k) Q) i j).val|) * halfTiny f := by
  have fin : ∀ u' i, i < n → ∀ v : Fl f, _ := fun u' i hin v =>
    show |(spElem u' n (if u' = .upper then i else i + 1) alpha beta v (symM u (bandM (lowerK u k) (upperK u k) Q) i) xv).val -
        (beta.val * v.val + alpha.val * ∑ j ∈ range n, (symM u (bandM (lowerK u k) (upperK u k) Q) i j).val * (xv j).val)| ≤
        ((1 + unitRoundoff f) ^ (2 * k + 5) - 1) * (|beta.val * v.val| +
          |alpha.val| * ∑ j ∈ range n, |(symM u (bandM (lowerK u k) (upperK u k) Q) i j).val * (xv j).val|) +
        (1 + unitRoundoff f) ^ (2 * k + 5) * (3 + (2 * k + 1) * (1 + |alpha.val|) +
          ∑ j ∈ range n, |(symM u (bandM (lowerK u k) (upperK u k) Q) i j).val|) * halfTiny f by
      cases u'
      · have := spElem_err (alpha := alpha) (beta := beta) he .upper (n := n) (c := i) (w1 := k) (w2 := k + 1) (by omega) v
          (symM u (bandM (lowerK u k) (upperK u k) Q) i) xv fun j _ h => sband_zero (by omega)
        rw [show k + (k + 1) + 4 = 2 * k + 5 by omega, show (k : ℚ) + ((k + 1 : Nat) : ℚ) = 2 * k + 1 by push_cast; ring] at this
        simpa using this
      · have := spElem_err (alpha := alpha) (beta := beta) he .lower (n := n) (c := i + 1) (w1 := k + 1) (w2 := k) (by omega) v
          (symM u (bandM (lowerK u k) (upperK u k) Q) i) xv fun j _ h => sband_zero (by omega)
        rw [show k + 1 + k + 4 = 2 * k + 5 by omega, show ((k + 1 : Nat) : ℚ) + (k : ℚ) = 2 * k + 1 by push_cast; ring] at this
        simpa using this
  cases o
  swap
  · rw [← stAt_sw, bandAd_sw, inBand_sw, show upperK u k = lowerK u.flip k by rw [lowerK_flip],
      show lowerK u k = upperK u.flip k by rw [upperK_flip]] at hA
    rw [← stVecDisj_sw, bandAd_sw, inBand_sw, show upperK u k = lowerK u.flip k by rw [lowerK_flip],
      show lowerK u k = upperK u.flip k by rw [upperK_flip]] at hdA
    have := sbmvRow_fl (alpha := alpha) hA hx ⟨hy, hb⟩ hi hdA hdx
    rw [lowerK_flip, upperK_flip, bandM_sw, sw_symM] at this
    exact ⟨_, this, fun i hin => fin _ i hin _⟩
  · exact ⟨_, sbmvRow_fl hA hx ⟨hy, hb⟩ hi hdA hdx, fun i hin => fin _ i hin _⟩

theorem spmvRow_fl (hA : StAt m (packAd A .rowMajor u n) (tri u n) Q)
    (hx : VecAt m x incX n xv) (hy : InitAt beta m y incY n yv) (hi : incY ≠ 0)
    (hdA : StVecDisj (packAd A .rowMajor u n) (tri u n) y incY n) (hdx : VecDisj x incX n y incY n) :
    Yields (spmv .rowMajor u n alpha A x incX beta y incY) m y incY n fun i =>
      spElem u n i alpha beta (yv i) (symM u Q i) xv := by
  have hin := tpRows_in u n A
  have hR := tpRows_tri u n A
  have hB : ∀ i j, i < n → j < n → symM u (rowM (tpRows u n A) Q) i j = symM u Q i j :=
    fun i j hi' hj => symM_congr hi' hj fun i j h => tpRows_M h Q
  refine yields_of_snap hi ?_
  unfold spmv
  cases u
  · exact sbmvRows_fl (alpha := alpha) hR (hin.at hA) hx hy hi (hin.disj hdA) hdx hB _ fun i _ => rfl
  · refine spmvLower_fl (alpha := alpha) hR (hin.at hA) hx hy hi (hin.disj hdA) hdx hB _ fun i _ => ?_
    simp [tpRows, effUpLo]

/-- **C173** `spmv` in floating point, for all orders, triangles and increments: each element of `beta y + alpha S x` for the packed symmetric
matrix `S` is right up to `n + 4` roundings of the sum of the magnitudes of its terms. With `beta = 0` the old `y` may be uninitialised. Nothing
else changes. -/
theorem C173_spmv (he : f.emin ≤ 0) (hA : StAt m (packAd A o u n) (tri u n) Q) (hx : VecAt m x incX n xv) (hy : VecMem m y incY n)
    (hb : beta ≠ 0 → VecAt m y incY n yv) (hi : incY ≠ 0) (hdA : StVecDisj (packAd A o u n) (tri u n) y incY n)
    (hdx : VecDisj x incX n y incY n) :
    ∃ w, Yields (spmv o u n alpha A x incX beta y incY) m y incY n w ∧ ∀ i, i < n →
      |(w i).val - (beta.val * (yv i).val + alpha.val * ∑ j ∈ range n, (symM u Q i j).val * (xv j).val)| ≤
        ((1 + unitRoundoff f) ^ (n + 4) - 1) *
          (|beta.val * (yv i).val| + |alpha.val| * ∑ j ∈ range n, |(symM u Q i j).val * (xv j).val|) +
        (1 + unitRoundoff f) ^ (n + 4) * (3 + n * (1 + |alpha.val|) + ∑ j ∈ range n, |(symM u Q i j).val|) * halfTiny f := by
  have fin : ∀ u' i, i < n → ∀ v : Fl f, _ := fun u' i hin v =>
    show |(spElem u' n i alpha beta v (symM u Q i) xv).val -
        (beta.val * v.val + alpha.val * ∑ j ∈ range n, (symM u Q i j).val * (xv j).val)| ≤
        ((1 + unitRoundoff f) ^ (n + 4) - 1) *
          (|beta.val * v.val| + |alpha.val| * ∑ j ∈ range n, |(symM u Q i j).val * (xv j).val|) +
        (1 + unitRoundoff f) ^ (n + 4) * (3 + n * (1 + |alpha.val|) + ∑ j ∈ range n, |(symM u Q i j).val|) * halfTiny f by
      have := spElem_err (alpha := alpha) (beta := beta) he u' (n := n) (c := i) (w1 := i) (w2 := n - i) (by omega) v
        (symM u Q i) xv fun j hj h => absurd (show i ≤ j + i ∧ j < i + (n - i) by omega) h
      rwa [Nat.add_sub_cancel' hin.le, ← Nat.cast_add, Nat.add_sub_cancel' hin.le] at this
  cases o
  swap
  · rw [← stAt_sw, packAd_sw, sw_tri] at hA
    rw [← stVecDisj_sw, packAd_sw, sw_tri] at hdA
    have := spmvRow_fl (alpha := alpha) hA hx ⟨hy, hb⟩ hi hdA hdx
    rw [sw_symM] at this
    exact ⟨_, this, fun i hin => fin _ i hin _⟩
  · exact ⟨_, spmvRow_fl hA hx ⟨hy, hb⟩ hi hdA hdx, fun i hin => fin _ i hin _⟩

end

/-- The hypotheses of the theorems hold for the memory of C169: its first three cells are a packed 2x2 matrix, and a banded one with one diagonal
beside the main diagonal. -/
theorem exSymFl_sp (v w : Nat → ℚ) : StAt (exSymFl v w) (packAd 0 .colMajor .upper 2) (tri .upper 2) (fun _ _ => .round _ 1) ∧
    StVecDisj (packAd 0 .colMajor .upper 2) (tri .upper 2) 20 1 2 ∧
    StAt (exSymFl v w) (bandAd 0 .rowMajor 2 (lowerK .upper 1) (upperK .upper 1)) (inBand (lowerK .upper 1) (upperK .upper 1) 2 2)
      (fun _ _ => .round _ 1) ∧
    StVecDisj (bandAd 0 .rowMajor 2 (lowerK .upper 1) (upperK .upper 1)) (inBand (lowerK .upper 1) (upperK .upper 1) 2 2) 20 1 2 := by
  refine ⟨(exSymFl_pack .upper v w).1, (exSymFl_pack .upper v w).2.2.2, fun i j h => ?_, fun i j k h hk => ?_⟩
  · obtain ⟨h1, h2, h3, h4⟩ := h
    simp only [lowerK, upperK] at h3 h4
    interval_cases i <;> interval_cases j <;> first | rfl | omega
  · obtain ⟨h1, h2, h3, h4⟩ := h
    simp only [lowerK, upperK] at h3 h4
    interval_cases i <;> interval_cases j <;> interval_cases k <;> first | decide | omega

/-- **C173** Storing the matrix packed changes the bits: for an upper triangle `spmv` adds the terms before the diagonal first, one by one, and
`symv` last, as one sum. -/
theorem C173_symv : ∃ a b,
    peek (spmv .rowMajor .upper 2 (.round binary64 1) 0 10 1 (.round _ 1) 20 1
      (exSymFl (fun i => if i = 0 then 1 / 2 ^ 53 else 1 / 2 ^ 52) fun _ => 1)) (fun _ m => m 21) = .ok (.val a) ∧
    peek (symv .rowMajor .upper 2 (.round binary64 1) 0 2 10 1 (.round _ 1) 20 1
      (exSymFl (fun i => if i = 0 then 1 / 2 ^ 53 else 1 / 2 ^ 52) fun _ => 1)) (fun _ m => m 21) = .ok (.val b) ∧ a ≠ b := by
  refine ⟨.round binary64 (1 + 1 / 2 ^ 52), .round binary64 (1 + 1 / 2 ^ 51), by decide +kernel, by decide +kernel, by decide +kernel⟩

end Verif.Blas
