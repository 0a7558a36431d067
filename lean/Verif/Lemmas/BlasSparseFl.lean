import Verif.Lemmas.BlasSparse
import Verif.Lemmas.FloatSum
import Verif.Props.BlasTrmFl

/-!
# Sums with an account of their errors

`Acc` is what is known about a number of floating-point additions: how many they were, the exact sum, the sum of the magnitudes, and how many
least numbers may have been lost. Accounts add up; the sums of `Lemmas/BlasSparse.lean` are redone with them.
-/

namespace Verif.Blas

open Finset Verif.Ieee

/-- Additions, exact sum, sum of magnitudes, units lost below the normal range. -/
abbrev Acc := ℕ × ℚ × ℚ × ℚ

variable {f : Fmt}

/-- `w` is as the account says. -/
def Good (f : Fmt) (w : Fl f) (s : Acc) : Prop :=
  2 ≤ s.1 ∧ |s.2.1| ≤ s.2.2.1 ∧ 0 ≤ s.2.2.2 ∧
    |w.val - s.2.1| ≤ ((1 + unitRoundoff f) ^ s.1 - 1) * s.2.2.1 + (1 + unitRoundoff f) ^ s.1 * (s.2.2.2 * halfTiny f)

/-- One term `alpha v u`. -/
def term (alpha v u : Fl f) : Acc := (1, alpha.val * v.val * u.val, |alpha.val * v.val * u.val|, |u.val| + 1)

/-- The start `beta y`. -/
def accInit (beta y : Fl f) : Acc := (2, beta.val * y.val, |beta.val * y.val|, 1)

theorem good_accInit (beta y : Fl f) : Good f (y * beta) (accInit beta y) := by
  refine ⟨le_rfl, le_rfl, zero_le_one, ?_⟩
  have h := rnd_err f (y.val * beta.val)
  change |rnd f (y.val * beta.val) - beta.val * y.val| ≤ ((1 + unitRoundoff f) ^ 2 - 1) * |beta.val * y.val| +
    (1 + unitRoundoff f) ^ 2 * (1 * halfTiny f)
  rw [mul_comm beta.val]
  have u0 := (unit_pos f).le
  have h0 := (tiny_pos f).le
  have a0 := abs_nonneg (y.val * beta.val)
  generalize unitRoundoff f = u at *
  generalize halfTiny f = t at *
  generalize |y.val * beta.val| = a at *
  have := mul_nonneg u0 a0
  have := mul_nonneg u0 h0
  have := mul_nonneg u0 (mul_nonneg u0 a0)
  have := mul_nonneg u0 (mul_nonneg u0 h0)
  nlinarith

theorem Good.add {w : Fl f} {s : Acc} (h : Good f w s) (alpha v u : Fl f) : Good f (w + alpha * v * u) (s + term alpha v u) := by
  obtain ⟨k, E, T, H⟩ := s
  obtain ⟨h1, h2, h3, h4⟩ := h
  simp only at h1 h2 h3 h4
  have q0 := abs_nonneg (alpha.val * v.val * u.val)
  have x0 := abs_nonneg u.val
  refine ⟨by change 2 ≤ k + 1; omega, ?_, by change 0 ≤ H + (|u.val| + 1); linarith, ?_⟩
  · exact (abs_add_le _ _).trans (add_le_add_left h2 _)
  change |rnd f (w.val + rnd f (rnd f (alpha.val * v.val) * u.val)) - (E + alpha.val * v.val * u.val)| ≤
    ((1 + unitRoundoff f) ^ (k + 1) - 1) * (T + |alpha.val * v.val * u.val|) +
      (1 + unitRoundoff f) ^ (k + 1) * ((H + (|u.val| + 1)) * halfTiny f)
  have e1 := rnd_add_err (f := f) w.repr (repr_rnd f (rnd f (alpha.val * v.val) * u.val))
  have e2 := rnd_err f (rnd f (alpha.val * v.val) * u.val)
  have e3 := rnd_err f (alpha.val * v.val)
  have u0 := (unit_pos f).le
  have t0 := (tiny_pos f).le
  have hP : (1 + unitRoundoff f) ^ 2 ≤ (1 + unitRoundoff f) ^ k := pow_le_pow_right₀ (by linarith) h1
  rw [pow_succ]
  generalize rnd f (w.val + rnd f (rnd f (alpha.val * v.val) * u.val)) = W at *
  generalize rnd f (rnd f (alpha.val * v.val) * u.val) = R at *
  generalize rnd f (alpha.val * v.val) = r at *
  generalize w.val = z at *
  rw [abs_mul] at q0 ⊢
  rw [abs_mul r] at e2
  generalize (1 + unitRoundoff f) ^ k = P at *
  generalize halfTiny f = h at *
  generalize unitRoundoff f = ε at *
  have b1 : |r| ≤ |alpha.val * v.val| + (ε * |alpha.val * v.val| + h) := by
    have : |r| ≤ |alpha.val * v.val| + |r - alpha.val * v.val| := le_trans (le_of_eq (by ring_nf)) (abs_add_le _ _)
    linarith
  have b2 : |R - alpha.val * v.val * u.val| ≤ |R - r * u.val| + |r - alpha.val * v.val| * |u.val| := by
    rw [← abs_mul]
    exact le_trans (le_of_eq (by ring_nf)) (abs_add_le _ _)
  generalize ha : |alpha.val * v.val| = a at *
  generalize hx : |u.val| = x at *
  have b3 := mul_le_mul_of_nonneg_right e3 x0
  have b4 := mul_le_mul_of_nonneg_left (mul_le_mul_of_nonneg_right b1 x0) u0
  -- the term
  have bt : |R - alpha.val * v.val * u.val| ≤ ((1 + ε) ^ 2 - 1) * (a * x) + (1 + ε) * ((x + 1) * h) := by
    have := mul_nonneg u0 t0
    nlinarith
  -- the sum
  have c1 : |W - (E + alpha.val * v.val * u.val)| ≤ |W - (z + R)| + (|z - E| + |R - alpha.val * v.val * u.val|) := by
    refine le_trans (le_of_eq ?_) ((abs_add_le _ _).trans (add_le_add_right (abs_add_le _ _) _))
    ring_nf
  have c2 : |z + R| ≤ (T + a * x) + (|z - E| + |R - alpha.val * v.val * u.val|) := by
    have hE : |E + alpha.val * v.val * u.val| ≤ T + a * x := by
      refine (abs_add_le _ _).trans (add_le_add h2 (le_of_eq ?_))
      rw [abs_mul, hx, ha]
    refine le_trans (le_of_eq (?_ : _ = |(E + alpha.val * v.val * u.val) + ((z - E) + (R - alpha.val * v.val * u.val))|))
      ((abs_add_le _ _).trans (add_le_add hE (abs_add_le _ _)))
    ring_nf
  generalize |W - (E + alpha.val * v.val * u.val)| = L at *
  generalize |R - alpha.val * v.val * u.val| = D at *
  generalize |z - E| = Z at *
  have c3 := mul_le_mul_of_nonneg_left c2 u0
  have c4 : L ≤ ε * (T + a * x) + (1 + ε) * (Z + D) := by nlinarith
  have c5 := mul_le_mul_of_nonneg_left (add_le_add h4 bt) (by linarith : (0 : ℚ) ≤ 1 + ε)
  have c6 := mul_le_mul_of_nonneg_right hP q0
  have c7 : (1 + ε) * ((x + 1) * h) ≤ P * ((x + 1) * h) := by
    refine mul_le_mul_of_nonneg_right (le_trans ?_ hP) (mul_nonneg (by linarith) t0)
    nlinarith
  have c8 := mul_le_mul_of_nonneg_left c6 (by linarith : (0 : ℚ) ≤ 1 + ε)
  have c9 := mul_le_mul_of_nonneg_left c7 (by linarith : (0 : ℚ) ≤ 1 + ε)
  refine c4.trans ((add_le_add_right c5 _).trans ?_)
  nlinarith

/-- The vector at `y` is as the accounts say. -/
def VecG (m : Mem (Fl f)) (y : Int) (n : Nat) (s : Nat → Acc) : Prop := ∃ v, VecAt m y 1 n v ∧ ∀ i, i < n → Good f (v i) (s i)

/-- In every memory that agrees with `m` outside of the vector `y`, `c` adds numbers with the accounts `d` to the vector and changes nothing
else. -/
def AddsF (m : Mem (Fl f)) (y : Int) (n : Nat) (c : M (Fl f) Unit) (d : Nat → Acc) : Prop :=
  ∀ m' s, AgreeOff (cells y 1 n) m m' → VecG m' y n s →
    ∃ m'', c m' = .ok ((), m'') ∧ AgreeOff (cells y 1 n) m' m'' ∧ VecG m'' y n fun i => s i + d i

section
variable {m : Mem (Fl f)} {y : Int} {n : Nat}

theorem VecG.congr {s s' : Nat → Acc} (h : VecG m y n s) (e : ∀ i, i < n → s i = s' i) : VecG m y n s' := by
  obtain ⟨v, h1, h2⟩ := h
  exact ⟨v, h1, fun i hi => e i hi ▸ h2 i hi⟩

theorem AddsF.congr {c : M (Fl f) Unit} {d d' : Nat → Acc} (h : AddsF m y n c d) (e : ∀ i, i < n → d i = d' i) : AddsF m y n c d' := by
  intro m' s h1 h2
  obtain ⟨m'', g1, g2, g3⟩ := h m' s h1 h2
  exact ⟨m'', g1, g2, g3.congr fun i hi => by rw [e i hi]⟩

theorem addsF_pure : AddsF m y n (pure ()) fun _ => (0 : Acc) := fun m' s _ h2 =>
  ⟨m', rfl, agreeOff_refl _ _, h2.congr fun i _ => (add_zero _).symm⟩

theorem AddsF.bind {c c' : M (Fl f) Unit} {d d' : Nat → Acc} (h : AddsF m y n c d) (h' : AddsF m y n c' d') :
    AddsF m y n (do c; c') fun i => d i + d' i := by
  intro m1 s h1 h2
  obtain ⟨m2, g1, g2, g3⟩ := h m1 s h1 h2
  obtain ⟨m3, k1, k2, k3⟩ := h' m2 _ (h1.trans g2) g3
  exact ⟨m3, (bind_ok g1).trans k1, g2.trans k2, k3.congr fun i _ => add_assoc _ _ _⟩

theorem addsF_loop {l : Nat} {g : Nat → M (Fl f) Unit} {d : Nat → Nat → Acc} (h : ∀ k, k < l → AddsF m y n (g k) (d k)) :
    AddsF m y n (loop l g) fun i => ∑ k ∈ range l, d k i := by
  induction l with
  | zero => exact addsF_pure.congr fun i _ => by simp
  | succ l ih =>
    exact ((ih fun k hk => h k (by omega)).bind (h l (by omega))).congr fun i _ => by rw [sum_range_succ]

theorem addsF_idx {I : Mem Int} {a v : Int} {g : Int → M (Fl f) Unit} {d : Nat → Acc} (h : I a = .val v) (hf : AddsF m y n (g v) d) :
    AddsF m y n (do let j ← loadIdx I a; g j) d := by
  intro m' w h1 h2
  obtain ⟨m'', g1, g2, g3⟩ := hf m' w h1 h2
  exact ⟨m'', (bind_ok (loadIdx_ok h)).trans g1, g2, g3⟩

theorem addsF_term {alpha : Fl f} {g : Fl f → Fl f} (hg : ∀ v, g v = v) {p : Nat} {a x : Int} {v u : Fl f}
    (hp : p < n) (ha : m a = .val v) (hna : a ∉ cells y 1 n) (hx : m x = .val u) (hnx : x ∉ cells y 1 n) :
    AddsF m y n (addTerm alpha g (y + p) a x) fun i => if i = p then term alpha v u else 0 := by
  rintro m' s h1 ⟨w, h2, h3⟩
  have hy : m' (y + p) = .val (w p) := by have := h2 p hp; rwa [elem_one] at this
  refine ⟨set m' (y + p) (w p + alpha * g v * u), ?_, ?_, fun i => if i = p then w p + alpha * g v * u else w i, ?_, ?_⟩
  · exact (bind_ok (load_ok hy)).trans ((bind_ok (load_ok ((h1 a hna).trans ha))).trans
      ((bind_ok (load_ok ((h1 x hnx).trans hx))).trans (store_ok (by rw [hy]; simp))))
  · intro b hb
    exact set_ne _ _ fun e => hb ⟨p, hp, by rw [elem_one, e]⟩
  · intro i hi
    by_cases e : i = p
    · subst e
      rw [elem_one]
      simp [set]
    · rw [set_ne _ _ fun q => e (by rw [elem_one] at q; omega)]
      exact (h2 i hi).trans (by simp only [if_neg e])
  · intro i hi
    by_cases e : i = p
    · subst e
      simp only [if_true, hg]
      exact (h3 i hi).add _ _ _
    · simp only [if_neg e, add_zero]
      exact h3 i hi

end

/-! ### Scaling -/

theorem fl_mul_one (he : f.emin ≤ 0) (a : Fl f) : a * 1 = a := by
  have h1 : (1 : Fl f).val = 1 := val_one he
  obtain ⟨v, hv⟩ := a
  change Fl.round f (v * (1 : Fl f).val) = _
  rw [h1]
  unfold Fl.round
  congr 1
  rw [mul_one, rnd_of_repr hv]

theorem initCell_runF (he : f.emin ≤ 0) {beta : Fl f} {a : Int} {m : Mem (Fl f)} {w : Fl f} (h : m a ≠ .out)
    (hb : beta ≠ 0 → m a = .val w) : ∃ m', initCell beta a m = .ok ((), m') ∧ m' a = .val (w * beta) ∧ ∀ b, b ≠ a → m' b = m b := by
  unfold initCell
  by_cases h0 : beta = 0
  · subst h0
    exact ⟨set m a 0, by rw [if_pos rfl, store_ok h], by rw [fl_mul_zero]; simp [set], fun b hb => set_ne _ _ hb⟩
  · rw [if_neg h0]
    by_cases h1 : beta = 1
    · subst h1
      exact ⟨m, by rw [if_pos rfl]; rfl, by rw [hb h0, fl_mul_one he], fun _ _ => rfl⟩
    · rw [if_neg h1]
      exact ⟨set m a (w * beta), (bind_ok (load_ok (hb h0))).trans (store_ok h), by simp [set], fun b hb => set_ne _ _ hb⟩

theorem initLoop_runF (he : f.emin ≤ 0) {beta : Fl f} {y : Int} {n : Nat} {m : Mem (Fl f)} {yv : Nat → Fl f}
    (hy : InitAt beta m y 1 n yv) : Yields (loop n fun i => initCell beta (y + i)) m y 1 n fun i => yv i * beta := by
  obtain ⟨m', h1, h2, h3⟩ := passes_run (c := n) (f := fun i : Nat => initCell beta (y + i)) (m := m) (fun i : Nat => y + i)
    (fun i => yv i * beta) (fun l i => i = l) (by rintro l l' _ _ _ _ rfl rfl e; omega) (by
      intro l hl m' hm'
      have e : m' (y + l) = m (y + l) := hm' _ (by rintro l' _ hl' rfl e; omega)
      obtain ⟨m'', g1, g2, g3⟩ := initCell_runF he (beta := beta) (a := y + l) (m := m') (w := yv l)
        (by rw [e, ← elem_one y n l]; exact hy.1 l hl) (fun hb => by rw [e, ← elem_one y n l]; exact hy.2 hb l hl)
      exact ⟨m'', g1, by rintro _ rfl; exact g2, fun a ha => g3 a (ha l rfl)⟩)
  refine ⟨m', h1, fun i hi => ?_, fun a ha => h3 a ?_⟩
  · rw [elem_one]; exact h2 i i hi rfl
  · rintro l i hl rfl
    have := ha i hl
    rwa [elem_one] at this

/-- Scaling, then additions. -/
theorem scaled_runF (he : f.emin ≤ 0) {beta : Fl f} {y : Int} {n : Nat} {m : Mem (Fl f)} {yv : Nat → Fl f} {d : Nat → Acc} {c : M (Fl f) Unit}
    (hy : InitAt beta m y 1 n yv) (hc : AddsF m y n c d) :
    ∃ w, Yields (do loop n fun i => initCell beta (y + i); c) m y 1 n w ∧ ∀ i, i < n → Good f (w i) (accInit beta (yv i) + d i) := by
  obtain ⟨m1, h1, h2, h3⟩ := initLoop_runF he hy
  obtain ⟨m2, g1, g2, w, g3, g4⟩ := hc m1 (fun i => accInit beta (yv i)) (only_agree.1 h3) ⟨_, h2, fun i _ => good_accInit _ _⟩
  exact ⟨w, ⟨m2, (bind_ok h1).trans g1, g3, only_agree.2 ((only_agree.1 h3).trans g2)⟩, g4⟩

/-- The loop over the entries of row `i`. -/
theorem rowEntries_addsF {m m0 : Mem (Fl f)} {I : Mem Int} {A ia ja b y : Int} {r c n : Nat} {S : Crs (Fl f)}
    (h : CrsAt I m0 A ia ja b r c S) {i : Nat} (hi : i < r) {g : Int → Int → M (Fl f) Unit}
    {d : Nat → Nat → Acc} (hf : ∀ k, S.ptr i ≤ k → k < S.ptr (i + 1) → AddsF m y n (g k (S.col k)) (d k)) :
    AddsF m y n (rowEntries I ia ja b i g) fun p => ∑ k ∈ Ico (S.ptr i) (S.ptr (i + 1)), d k p := by
  unfold rowEntries
  refine addsF_idx (h.row hi) (addsF_idx (h.row' hi) ?_)
  have hm := h.mono i hi
  have e : (b + (S.ptr (i + 1) : Int) - (b + S.ptr i)).toNat = S.ptr (i + 1) - S.ptr i := by omega
  rw [e]
  refine (addsF_loop (d := fun k => d (S.ptr i + k)) fun k hk => ?_).congr fun p _ => (sum_Ico_eq_sum_range (fun k => d k p) _ _).symm
  have e1 : b + (S.ptr i : Int) + k - b = ((S.ptr i + k : Nat) : Int) := by push_cast; ring
  rw [e1]
  have e2 : b + (S.col (S.ptr i + k) : Int) - b = (S.col (S.ptr i + k) : Int) := by ring
  refine addsF_idx (h.cols _ (h.lt hi (by omega))) ?_
  rw [e2]
  exact hf _ (by omega) (by omega)

end Verif.Blas
