import Verif.Lemmas.Rfft

/-! Property theorems for the real Fourier transform (C116). -/

namespace Verif.Rfft

open Complex

/-- `res` is the first half of the discrete Fourier transform (Mathlib's, on the integers modulo `n`) of `data`. -/
def IsHalf (n : Nat) [NeZero n] (data : List ℝ) (res : List ℂ) : Prop :=
  res.length = n / 2 + 1 ∧ ∀ k, k ≤ n / 2 → res[k]? = some (ZMod.dft (signal n data) (k : ZMod n))

/-- **C116**, full statement: for every array with one dimension the result is the first half of its transform, without undefined
behaviour, and every other array is refused. -/
def C116Claim : Prop :=
  ∀ (lib : Lib) (asserts : Bool) (shape : List Nat) (data : List ℝ), data.length = shape.prod →
    match shape with
    | [n] => ∃ res, rfft lib asserts [n] data = .ok res ∧ ((h : n ≠ 0) → haveI : NeZero n := ⟨h⟩; IsHalf n data res)
    | shape => ∃ e, rfft lib asserts shape data = .throw e

/-- **C116** for arrays with one dimension, of any size with pocketfft and of 1 to 2^31 - 1 numbers with FFTW. -/
theorem C116_rfft_partial (lib : Lib) (asserts : Bool) (n : Nat) [NeZero n] (data : List ℝ) (hd : data.length = n)
    (hn : lib = .fftw → n < 2 ^ 31) : ∃ res, rfft lib asserts [n] data = .ok res ∧ IsHalf n data res := by
  refine ⟨(List.range (n / 2 + 1)).map fun k => ((List.range n).map fun j => term true n (data.getD j 0) j k).sum, ?_, by simp, ?_⟩
  · simp only [rfft, Out.assert, List.length_cons, List.length_nil, beq_self_eq_true, Bool.not_true, Bool.and_false, Bool.false_eq_true,
      if_false, Out.ok_bind]
    cases lib with
    | pocket => exact r2c_ok n data hd.ge
    | fftw =>
      have h := toInt_eq (hn rfl)
      have h0 : 0 < n := Nat.pos_of_ne_zero (NeZero.ne n)
      simp only [cpu, cpuFftw]
      rw [h, if_neg (by omega), Int.toNat_natCast]
      exact r2c_ok n data hd.ge
  · intro k hk
    rw [List.getElem?_map, List.getElem?_range (by omega), dft_eq]
    rfl

example : ∃ res, rfft .pocket true [3] [1, 2, 4] = .ok res ∧ IsHalf 3 [1, 2, 4] res :=
  C116_rfft_partial .pocket true 3 [1, 2, 4] rfl (by simp)

/-- **C116**, empty arrays with pocketfft: one coefficient, the empty sum. -/
theorem C116_empty (asserts : Bool) : rfft .pocket asserts [0] [] = .ok [0] := by
  cases asserts <;> rfl

/-- **C116**, the half that is not returned: the coefficients from `n / 2 + 1` on are the conjugates of those returned. -/
theorem C116_conjugate (n : Nat) [NeZero n] (data : List ℝ) (res : List ℂ) (h : IsHalf n data res) (k : Nat) (hk : n / 2 < k) (hn : k < n) :
    ∃ c, res[n - k]? = some c ∧ ZMod.dft (signal n data) (k : ZMod n) = starRingEnd ℂ c := by
  refine ⟨_, h.2 (n - k) (by omega), ?_⟩
  rw [← dft_conj]
  congr 1
  rw [Nat.cast_sub hn.le, ZMod.natCast_self, zero_sub, neg_neg]

/-- **C116**, nothing is lost: arrays of equal size with equal results are equal. -/
theorem C116_injective (n : Nat) [NeZero n] (x y : List ℝ) (hx : x.length = n) (hy : y.length = n) (res : List ℂ)
    (h1 : IsHalf n x res) (h2 : IsHalf n y res) : x = y := by
  have hall : ∀ k : Nat, k < n → ZMod.dft (signal n x) (k : ZMod n) = ZMod.dft (signal n y) (k : ZMod n) := by
    intro k hk
    by_cases hc : k ≤ n / 2
    · have := (h1.2 k hc).symm.trans (h2.2 k hc)
      simpa using this
    · obtain ⟨c, e1, e2⟩ := C116_conjugate n x res h1 k (by omega) hk
      obtain ⟨d, f1, f2⟩ := C116_conjugate n y res h2 k (by omega) hk
      rw [e1] at f1
      cases f1
      rw [e2, f2]
  have heq : ZMod.dft (signal n x) = ZMod.dft (signal n y) := by
    funext k
    have := hall k.val k.val_lt
    rwa [ZMod.natCast_zmod_val] at this
  have hs := ZMod.dft.injective heq
  apply List.ext_getElem (hx.trans hy.symm)
  intro i hi hi'
  have := congrFun hs (i : ZMod n)
  simp only [signal, ZMod.val_natCast, Nat.mod_eq_of_lt (hx ▸ hi : i < n)] at this
  have h3 : x.getD i 0 = y.getD i 0 := by exact_mod_cast this
  rwa [List.getD_eq_getElem?_getD, List.getD_eq_getElem?_getD, List.getElem?_eq_getElem hi, List.getElem?_eq_getElem hi'] at h3

/-- **C116**: the size of the array cannot be told from the result. The arrays {1, 0} and {1, 0, 0} have the same transform. -/
theorem C116_size_false (lib : Lib) (asserts : Bool) :
    rfft lib asserts [2] [1, 0] = .ok [1, 1] ∧ rfft lib asserts [3] [1, 0, 0] = .ok [1, 1] := by
  have key : ∀ (n : Nat) (data : List ℝ), n ≤ data.length → 0 < n → n < 2 ^ 31 → rfft lib asserts [n] data =
      .ok ((List.range (n / 2 + 1)).map fun k => ((List.range n).map fun j => term true n (data.getD j 0) j k).sum) := by
    intro n data h h0 h1
    simp only [rfft, Out.assert, List.length_cons, List.length_nil, beq_self_eq_true, Bool.not_true, Bool.and_false, Bool.false_eq_true,
      if_false, Out.ok_bind]
    cases lib with
    | pocket => exact r2c_ok n data h
    | fftw =>
      simp only [cpu, cpuFftw]
      rw [toInt_eq h1, if_neg (by omega), Int.toNat_natCast]
      exact r2c_ok n data h
  rw [key 2 _ (by simp) (by decide) (by decide), key 3 _ (by simp) (by decide) (by decide)]
  constructor <;> simp [List.range_succ, term]

/-- **C116** with assertions: every array that has not exactly one dimension is refused. -/
theorem C116_refused (lib : Lib) (shape : List Nat) (data : List ℝ) (h : shape.length ≠ 1) :
    rfft lib true shape data = .throw .assertion := by
  simp [rfft, Out.assert, h]

/-- **C116** fails without assertions: of a matrix the first column's number of elements is transformed, taken from the first row. -/
theorem C116_matrix_false (m n : Nat) (data : List ℝ) (hd : data.length = m * n) (hn : 0 < n) :
    rfft .pocket false [m, n] data = rfft .pocket false [m] (data.take m) := by
  have h1 : m ≤ data.length := by rw [hd]; exact Nat.le_mul_of_pos_right m hn
  have h2 : rfft .pocket false [m, n] data = r2c m 1 1 true 1 data (List.replicate (m / 2 + 1) 0) := rfl
  have h3 : rfft .pocket false [m] (data.take m) = r2c m 1 1 true 1 (data.take m) (List.replicate (m / 2 + 1) 0) := rfl
  rw [h2, h3, r2c_ok m data h1, r2c_ok m (data.take m) (by simp [h1])]
  congr 1
  refine List.map_congr_left (fun k _ => ?_)
  congr 1
  refine List.map_congr_left (fun j hj => ?_)
  rw [List.mem_range] at hj
  congr 1
  simp only [List.getD_eq_getElem?_getD, List.getElem?_take_of_lt hj]

/-- **C116** fails without assertions for an array without dimensions, and with FFTW for an empty array and for sizes from 2^31 to
2^32: the behaviour is undefined. -/
theorem C116_undefined_false (data : List ℝ) (lib : Lib) :
    rfft lib false [] data = .ub ∧ (∀ asserts, rfft .fftw asserts [0] data = .ub) ∧
    ∀ asserts n, 2 ^ 31 ≤ n → n ≤ 2 ^ 32 → rfft .fftw asserts [n] data = .ub := by
  refine ⟨by simp [rfft, Out.assert], ?_, ?_⟩
  · intro asserts
    simp [rfft, Out.assert, cpu, cpuFftw, toInt]
  · intro asserts n h1 h2
    have : toInt n ≤ 0 := by
      unfold toInt
      rcases Nat.lt_or_ge n (2 ^ 32) with h | h
      · rw [Nat.mod_eq_of_lt h, if_neg (by omega)]; omega
      · have : n = 2 ^ 32 := by omega
        subst this; decide
    simp [rfft, Out.assert, cpu, cpuFftw, this]

theorem C116_false : ¬ C116Claim := by
  intro h
  obtain ⟨res, h1, -⟩ := h .fftw true [0] [] rfl
  rw [(C116_undefined_false [] .fftw).2.1 true] at h1
  cases h1

end Verif.Rfft
