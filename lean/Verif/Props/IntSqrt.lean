import Verif.Lemmas.IntSqrtNear

/-!
C132: `sqrt` of an array of integers holds the integer square roots.
-/

namespace Verif.IntSqrt

open Verif.Ieee Verif.Num

/-- `r` is the integer square root of `z`: the greatest integer whose square is at most `z`. -/
def IsRoot (z r : Int) : Prop := 0 ≤ r ∧ r ^ 2 ≤ z ∧ z < (r + 1) ^ 2

/-- C132 for one integer type: every array of nonnegative values of the type. -/
def C132Claim (sg : Bool) (w : Nat) : Prop :=
  ∀ zs : List Int, (∀ z ∈ zs, 0 ≤ z ∧ InR sg w z) → ∃ rs, sqrtAll sg w zs = .ok rs ∧ List.Forall₂ IsRoot zs rs

theorem isRoot_nat (m : Nat) : IsRoot m (Nat.sqrt m) := by
  refine ⟨by omega, ?_, ?_⟩
  · exact_mod_cast Nat.sqrt_le' m
  · exact_mod_cast Nat.lt_succ_sqrt' m

theorem isRoot_unique {z r s : Int} (h : IsRoot z r) (h' : IsRoot z s) : r = s := by
  obtain ⟨a1, a2, a3⟩ := h
  obtain ⟨b1, b2, b3⟩ := h'
  have h1 : r < s + 1 := by nlinarith
  have h2 : s < r + 1 := by nlinarith
  omega

theorem sqrtAll_of {sg : Bool} {w : Nat} {P : Int → Int → Prop} :
    ∀ zs : List Int, (∀ z ∈ zs, ∃ r, sqrtElem sg w z = .ok r ∧ P z r) →
      ∃ rs, sqrtAll sg w zs = .ok rs ∧ List.Forall₂ P zs rs
  | [], _ => ⟨[], rfl, .nil⟩
  | z :: zs, h => by
    obtain ⟨r, e, p⟩ := h z List.mem_cons_self
    obtain ⟨rs, e', p'⟩ := sqrtAll_of zs fun z hz => h z (List.mem_cons_of_mem _ hz)
    exact ⟨r :: rs, by simp only [sqrtAll, e, e', Out.bind], .cons p p'⟩

/-- The result is in the type: it is nonnegative and no larger than an element of the type. -/
theorem inR_le {sg : Bool} {w : Nat} {z r : Int} (h : InR sg w z) (h0 : 0 ≤ r) (hr : r ≤ z) : InR sg w r := by
  refine ⟨le_trans ?_ h0, le_trans hr h.2⟩
  unfold lo
  split_ifs
  · have : (0 : Int) < 2 ^ (w - 1) := by positivity
    omega
  · exact le_refl _

theorem sqrtElem_zero {sg : Bool} {w : Nat} (h : InR sg w 0) : sqrtElem sg w 0 = .ok 0 := by
  have e : ofInt .dbl 0 = .fin false 0 := by
    have := ofInt_exact (z := 0) (by decide)
    simpa using this
  unfold sqrtElem
  rw [e]
  simp [stdSqrt, truncTo, h]

/-- The element computed for `m`, in terms of `m` as a `double`. -/
theorem sqrtElem_eq {sg : Bool} {w m : Nat} (h0 : 0 < m) (hm : m < 2 ^ 64) (hR : InR sg w m) :
    ∃ m' : Nat, rnd binary64 (m : ℚ) = m' ∧ 0 < m' ∧ m' < 2 ^ 105 ∧ ∀ r : Nat, r ≤ m →
      (r = if Nat.sqrt m' + 1 ≤ ((Nat.sqrt m' + 1) ^ 2 - m') * units m' then Nat.sqrt m' else Nat.sqrt m' + 1) →
      sqrtElem sg w m = .ok (r : Int) := by
  obtain ⟨m', e, hp, hl, hs⟩ := stdSqrt_ofInt h0 hm
  refine ⟨m', e, hp, hl, ?_⟩
  intro r hr e'
  unfold sqrtElem
  rw [hs]
  simp only [truncTo, if_neg (by decide : ¬ (false = true)), floor_sqrtRnd hp hl, ← e']
  rw [if_pos (inR_le hR (by omega) (by omega))]

theorem rnd_small {m : Nat} (h : m ≤ 2 ^ 53) : rnd binary64 (m : ℚ) = m := by
  have := rnd_of_repr (f := binary64) (repr_int (f := binary64) (n := (m : Int)) (by decide) (by
    rw [abs_of_nonneg (by omega)]
    show (m : Int) ≤ 2 ^ 53
    omega))
  rwa [Int.cast_natCast] at this

theorem sqrt_succ_le {m : Nat} (h : 2 ≤ m) : Nat.sqrt m + 1 ≤ m := by
  have := Nat.sqrt_le' m
  by_contra hc
  have h1 : m ≤ Nat.sqrt m := by omega
  nlinarith

/-- The elements up to 2^53, exactly: the root is right if and only if the distance of `m` to the next square is large enough
compared with the spacing of the numbers of type `double` at the root. -/
theorem C132_iff_partial {sg : Bool} {w m : Nat} (h0 : 2 ≤ m) (hm : m ≤ 2 ^ 53) (hR : InR sg w m) :
    (∃ r, sqrtElem sg w m = .ok r ∧ IsRoot m r) ↔
      Nat.sqrt m + 1 ≤ ((Nat.sqrt m + 1) ^ 2 - m) * 2 ^ (52 - Nat.log 2 m / 2) := by
  obtain ⟨m', e, _, _, h⟩ := sqrtElem_eq (by omega) (by omega) hR
  rw [rnd_small hm] at e
  have e' : m = m' := by exact_mod_cast e
  subst e'
  unfold units at h
  have hs := sqrt_succ_le h0
  constructor
  · rintro ⟨r, hr, hR⟩
    by_contra hc
    rw [h (Nat.sqrt m + 1) hs (by rw [if_neg hc])] at hr
    cases hr
    have := isRoot_unique hR (isRoot_nat m)
    omega
  · intro hc
    exact ⟨_, h (Nat.sqrt m) (by omega) (by rw [if_pos hc]), isRoot_nat m⟩

theorem elem_small {sg : Bool} {w m : Nat} (hm : m < 2 ^ 52 + 2 ^ 27) (hR : InR sg w m) :
    ∃ r, sqrtElem sg w m = .ok r ∧ IsRoot m r := by
  rcases Nat.lt_or_ge m 2 with h2 | h2
  · rcases Nat.eq_zero_or_pos m with h | h
    · subst h
      exact ⟨0, sqrtElem_zero hR, isRoot_nat 0⟩
    · have h1 : m = 1 := by omega
      subst h1
      obtain ⟨m', e, _, _, h⟩ := sqrtElem_eq (by decide) (by decide) hR
      rw [rnd_small (by decide)] at e
      have e' : 1 = m' := by exact_mod_cast e
      subst e'
      refine ⟨_, h 1 (by decide) ?_, ?_⟩
      · have : Nat.sqrt 1 = 1 := by decide
        rw [this, if_pos]
        unfold units
        have : 0 < 2 ^ (52 - Nat.log 2 1 / 2) := Nat.pow_pos (by decide)
        omega
      · have := isRoot_nat 1
        rwa [show Nat.sqrt 1 = 1 by decide] at this
  · rw [C132_iff_partial h2 (by omega) hR]
    have k1 : Nat.sqrt m ^ 2 ≤ m := Nat.sqrt_le' m
    have k2 : m < (Nat.sqrt m + 1) ^ 2 := Nat.lt_succ_sqrt' m
    have hk : Nat.sqrt m < 2 ^ 26 + 1 := by
      rw [Nat.sqrt_lt']
      omega
    generalize Nat.sqrt m = k at *
    have hd : 1 ≤ (k + 1) ^ 2 - m := by omega
    rcases Nat.lt_or_ge m (2 ^ 52) with h3 | h3
    · have hl : Nat.log 2 m < 52 := Nat.log_lt_of_lt_pow (by omega) h3
      have hT : 2 ^ 27 ≤ 2 ^ (52 - Nat.log 2 m / 2) := Nat.pow_le_pow_right (by decide) (by omega)
      have hk' : k < 2 ^ 26 := by
        by_contra hc
        have h4 : 2 ^ 26 ≤ k := by omega
        have : (2 ^ 26) ^ 2 ≤ k ^ 2 := Nat.pow_le_pow_left h4 2
        omega
      calc k + 1 ≤ 1 * 2 ^ 27 := by omega
        _ ≤ ((k + 1) ^ 2 - m) * 2 ^ (52 - Nat.log 2 m / 2) := Nat.mul_le_mul hd hT
    · have hl : Nat.log 2 m < 53 := Nat.log_lt_of_lt_pow (by omega) (by omega)
      have hT : 2 ^ 26 ≤ 2 ^ (52 - Nat.log 2 m / 2) := Nat.pow_le_pow_right (by decide) (by omega)
      rcases Nat.lt_or_ge k (2 ^ 26) with h4 | h4
      · calc k + 1 ≤ 1 * 2 ^ 26 := by omega
          _ ≤ ((k + 1) ^ 2 - m) * 2 ^ (52 - Nat.log 2 m / 2) := Nat.mul_le_mul hd hT
      · have h5 : k = 2 ^ 26 := by omega
        have hd2 : 2 ≤ (k + 1) ^ 2 - m := by
          rw [h5]
          omega
        calc k + 1 ≤ 2 * 2 ^ 26 := by omega
          _ ≤ ((k + 1) ^ 2 - m) * 2 ^ (52 - Nat.log 2 m / 2) := Nat.mul_le_mul hd2 hT

/-- C132 for all arrays whose elements are nonnegative and below 2^52 + 2^27, of any integer type. -/
theorem C132_partial (sg : Bool) (w : Nat) (zs : List Int) (h : ∀ z ∈ zs, 0 ≤ z ∧ z < 2 ^ 52 + 2 ^ 27 ∧ InR sg w z) :
    ∃ rs, sqrtAll sg w zs = .ok rs ∧ List.Forall₂ IsRoot zs rs := by
  refine sqrtAll_of zs ?_
  intro z hz
  obtain ⟨h0, h1, h2⟩ := h z hz
  obtain ⟨m, rfl⟩ := Int.eq_ofNat_of_zero_le h0
  exact elem_small (by omega) h2

example : ∃ rs, sqrtAll true 64 [0, 15, 16, 4503599627370495] = .ok rs ∧ List.Forall₂ IsRoot [0, 15, 16, 4503599627370495] rs :=
  C132_partial true 64 _ (by decide)

/-- C132 holds for all integer types of at most 32 bits (element by element; packets are not modelled). -/
theorem C132_int32 (sg : Bool) (w : Nat) (hw : w ≤ 32) : C132Claim sg w := by
  intro zs h
  refine C132_partial sg w zs ?_
  intro z hz
  obtain ⟨h0, h1⟩ := h z hz
  refine ⟨h0, ?_, h1⟩
  have h2 : z ≤ hi sg w := h1.2
  unfold hi at h2
  have p1 : (2 : Int) ^ (w - 1) ≤ 2 ^ 32 := pow_le_pow_right₀ (by norm_num) (by omega)
  have p2 : (2 : Int) ^ w ≤ 2 ^ 32 := pow_le_pow_right₀ (by norm_num) hw
  split_ifs at h2 <;> omega

example : sqrtAll true 32 [2147483647, 2147395600, 99, 0] = .ok [46340, 46340, 9, 0] := by decide +kernel

/-- The least integer whose root is wrong: 2^52 + 2^27 = (2^26 + 1)^2 - 1 gives 2^26 + 1. -/
theorem C132_first (sg : Bool) : sqrtElem sg 64 (2 ^ 52 + 2 ^ 27) = .ok (2 ^ 26 + 1) ∧ IsRoot (2 ^ 52 + 2 ^ 27) (2 ^ 26) := by
  refine ⟨?_, ?_⟩
  · cases sg <;> decide +kernel
  · unfold IsRoot
    decide

/-- C132 is false for 64-bit integers, signed and unsigned. -/
theorem C132_false (sg : Bool) : ¬ C132Claim sg 64 := by
  intro h
  obtain ⟨rs, e, f⟩ := h [2 ^ 52 + 2 ^ 27] (by cases sg <;> decide)
  obtain ⟨e1, hr⟩ := C132_first sg
  simp only [sqrtAll, e1, Out.bind] at e
  cases e
  cases f with
  | cons p _ =>
    have := isRoot_unique p hr
    omega

theorem gap_up {m m' k : Nat} (h : m < (k + 1) ^ 2) (h' : m' ≤ m + 2 ^ 10) (hk : 2 ^ 26 ≤ k) : m' < (k + 2) ^ 2 := by nlinarith

theorem gap_next {m m' k : Nat} (h : m < (k + 1) ^ 2) (h' : m' ≤ m + 2 ^ 10) (hk : 2 ^ 26 ≤ k) :
    m' + (k + 1 + 1) ≤ (k + 1 + 1) ^ 2 := by nlinarith

theorem gap_down {m m' j : Nat} (h : (j + 1) ^ 2 ≤ m) (h' : m ≤ m' + 2 ^ 10) (hk : 2 ^ 26 ≤ j + 1) : j ^ 2 ≤ m' := by nlinarith

theorem sq_succ_le (a : Nat) (ha : 3 ≤ a) : (2 ^ a + 1) ^ 2 ≤ 2 * (2 ^ a) ^ 2 := by
  have h : 2 ^ 3 ≤ 2 ^ a := Nat.pow_le_pow_right (by decide) ha
  generalize 2 ^ a = x at *
  nlinarith

/-- Every nonnegative 64-bit integer gives its root or one more, also where it is not exact as a `double`. -/
theorem C132_close (sg : Bool) (w : Nat) (zs : List Int) (h : ∀ z ∈ zs, 0 ≤ z ∧ z < 2 ^ 64 ∧ InR sg w z) :
    ∃ rs, sqrtAll sg w zs = .ok rs ∧ List.Forall₂ (fun z r => IsRoot z r ∨ IsRoot z (r - 1)) zs rs := by
  refine sqrtAll_of zs ?_
  intro z hz
  obtain ⟨h0, h1, hR⟩ := h z hz
  obtain ⟨m, rfl⟩ := Int.eq_ofNat_of_zero_le h0
  rcases Nat.lt_or_ge m (2 ^ 52 + 2 ^ 27) with hs | hs
  · obtain ⟨r, e, p⟩ := elem_small (sg := sg) (w := w) hs hR
    exact ⟨r, e, Or.inl p⟩
  have hm64 : m < 2 ^ 64 := by omega
  obtain ⟨m', e, hp, hl, hE⟩ := sqrtElem_eq (m := m) (by omega) hm64 hR
  have hsucc := sqrt_succ_le (m := m) (by omega)
  have fin : ∀ r : Nat, (r = Nat.sqrt m ∨ r = Nat.sqrt m + 1) →
      (r = if Nat.sqrt m' + 1 ≤ ((Nat.sqrt m' + 1) ^ 2 - m') * units m' then Nat.sqrt m' else Nat.sqrt m' + 1) →
      ∃ r, sqrtElem sg w m = .ok r ∧ (IsRoot m r ∨ IsRoot m (r - 1)) := by
    rintro r (rfl | rfl) e'
    · exact ⟨_, hE _ (by omega) e', Or.inl (isRoot_nat m)⟩
    · refine ⟨_, hE _ (by omega) e', Or.inr ?_⟩
      have : ((Nat.sqrt m + 1 : Nat) : Int) - 1 = (Nat.sqrt m : Int) := by omega
      rw [this]
      exact isRoot_nat m
  have done : ∀ c : Prop, [Decidable c] → ∀ a b : Nat, (a = Nat.sqrt m ∨ a = Nat.sqrt m + 1) → (b = Nat.sqrt m ∨ b = Nat.sqrt m + 1) →
      ((if c then a else b) = Nat.sqrt m ∨ (if c then a else b) = Nat.sqrt m + 1) := by
    intro c _ a b ha hb
    split_ifs
    · exact ha
    · exact hb
  rcases Nat.lt_or_ge m (2 ^ 53) with h53 | h53
  · rw [rnd_small (by omega)] at e
    have e' : m = m' := by exact_mod_cast e
    subst e'
    exact fin _ (done _ _ _ (Or.inl rfl) (Or.inr rfl)) rfl
  · obtain ⟨m'', e'', l1, l2, l3⟩ := rnd_nat h53
    have : m'' = m' := by
      rw [e] at e''
      exact_mod_cast e''.symm
    subst this
    have hL : Nat.log 2 m < 64 := Nat.log_lt_of_lt_pow (by omega) hm64
    have hL' : 53 ≤ Nat.log 2 m := Nat.le_log_of_pow_le (by decide) h53
    have hp10 : 2 ^ (Nat.log 2 m - 53) ≤ 2 ^ 10 := Nat.pow_le_pow_right (by decide) (by omega)
    have k1 : Nat.sqrt m ^ 2 ≤ m := Nat.sqrt_le' m
    have k2 : m < (Nat.sqrt m + 1) ^ 2 := Nat.lt_succ_sqrt' m
    have n2 : m'' < (Nat.sqrt m'' + 1) ^ 2 := Nat.lt_succ_sqrt' m''
    have hk : 2 ^ 26 ≤ Nat.sqrt m := by
      rw [Nat.le_sqrt']
      omega
    have hpow : 2 ^ Nat.log 2 m ≤ m := Nat.pow_log_le_self 2 (by omega)
    -- the roots of `m` and `m''` differ by at most one
    have near1 : Nat.sqrt m'' ≤ Nat.sqrt m + 1 := by
      have : Nat.sqrt m'' < Nat.sqrt m + 2 := by
        rw [Nat.sqrt_lt']
        exact gap_up k2 (by omega) hk
      omega
    have near2 : Nat.sqrt m ≤ Nat.sqrt m'' + 1 := by
      have : Nat.sqrt m - 1 ≤ Nat.sqrt m'' := by
        rw [Nat.le_sqrt']
        obtain ⟨j, hj⟩ : ∃ j, Nat.sqrt m = j + 1 := ⟨Nat.sqrt m - 1, by omega⟩
        rw [hj] at k1 hk ⊢
        simp only [Nat.add_sub_cancel]
        exact gap_down k1 (by omega) hk
      omega
    rcases (by omega : Nat.sqrt m'' = Nat.sqrt m ∨ Nat.sqrt m'' = Nat.sqrt m + 1 ∨ Nat.sqrt m = Nat.sqrt m'' + 1) with q | q | q
    · exact fin _ (done _ _ _ (Or.inl q) (Or.inr (by omega))) rfl
    · refine fin _ ?_ rfl
      rw [if_pos]
      · exact Or.inr q
      · rw [q]
        have hT : 1 ≤ units m'' := Nat.pow_pos (by decide)
        have : Nat.sqrt m + 1 + 1 ≤ (Nat.sqrt m + 1 + 1) ^ 2 - m'' := by
          have : m'' + (Nat.sqrt m + 1 + 1) ≤ (Nat.sqrt m + 1 + 1) ^ 2 := gap_next k2 (by omega) hk
          omega
        calc Nat.sqrt m + 1 + 1 ≤ ((Nat.sqrt m + 1 + 1) ^ 2 - m'') * 1 := by omega
          _ ≤ _ := Nat.mul_le_mul_left _ hT
    · refine fin _ ?_ rfl
      rw [if_neg]
      · exact Or.inl q.symm
      · rw [not_le, ← q]
        have hlt : m'' < m := by
          rw [← q] at n2
          omega
        have hlog : Nat.log 2 m'' = Nat.log 2 m := by
          refine le_antisymm (Nat.log_mono_right hlt.le) ?_
          exact Nat.le_log_of_pow_le (by decide) l1
        have hd : Nat.sqrt m ^ 2 - m'' ≤ 2 ^ (Nat.log 2 m - 53) := by omega
        unfold units
        rw [hlog]
        generalize hLL : Nat.log 2 m = L at *
        have hprod : (Nat.sqrt m ^ 2 - m'') * 2 ^ (52 - L / 2) ≤ 2 ^ (L - L / 2 - 1) := by
          calc (Nat.sqrt m ^ 2 - m'') * 2 ^ (52 - L / 2) ≤ 2 ^ (L - 53) * 2 ^ (52 - L / 2) := Nat.mul_le_mul_right _ hd
            _ = 2 ^ (L - L / 2 - 1) := by rw [← pow_add]; congr 1; omega
        refine lt_of_le_of_lt hprod ?_
        -- the root is larger than 2^(L/2), or at least that
        show 2 ^ (L - L / 2 - 1) + 1 ≤ Nat.sqrt m
        rw [Nat.le_sqrt']
        refine le_trans ?_ hpow
        refine le_trans (sq_succ_le _ (by omega)) ?_
        rw [← pow_mul, ← pow_succ']
        exact Nat.pow_le_pow_right (by decide) (by omega)

example : sqrtAll false 64 [18446744073709551615, 9223372036854775808] = .ok [4294967296, 3037000499] := by decide +kernel

/-- The square root of a negative element is NaN, whose conversion to an integer is undefined. -/
theorem C132_negative (sg : Bool) (w : Nat) (z : Int) (hz : z < 0) (hm : -2 ^ 64 < z) : sqrtElem sg w z = .ub := by
  have hr : (1 : ℚ) ≤ rnd binary64 |(z : ℚ)| := by
    have h1 : (1 : ℚ) ≤ |(z : ℚ)| := by
      have : (1 : Int) ≤ |z| := Int.one_le_abs (by omega)
      exact_mod_cast this
    have hr1 : Repr binary64 (1 : ℚ) := ⟨1, 0, by decide, by decide, by norm_num⟩
    exact le_rnd_of_repr hr1 h1
  unfold sqrtElem ofInt toFp
  have hd : decide (z < 0) = true := by simpa using hz
  rw [hd, show FTy.dbl.fmt = binary64 from rfl]
  by_cases h : (2 : ℚ) ^ FTy.dbl.emax ≤ rnd binary64 |(z : ℚ)|
  · rw [if_pos h]; rfl
  · rw [if_neg h]
    have h0 : rnd binary64 |(z : ℚ)| ≠ 0 := by
      intro h0
      rw [h0] at hr
      norm_num at hr
    simp only [stdSqrt, h0, if_false, if_true]
    rfl

example : sqrtAll true 64 [4, -1] = .ub := by decide +kernel

/-- One less than a square has a root one too large: for all squares from (2^26 + 1)^2 to 2^53 + 1, and all above 2^54 up to 2^64. -/
theorem C132_squares (sg : Bool) (w a : Nat) (h1 : 2 ^ 26 < a) (h2 : a ≤ 2 ^ 32) (h3 : a ^ 2 ≤ 2 ^ 53 + 1 ∨ 2 ^ 54 < a ^ 2)
    (hR : InR sg w ((a ^ 2 - 1 : Nat) : Int)) :
    sqrtElem sg w ((a ^ 2 - 1 : Nat) : Int) = .ok a ∧ IsRoot ((a ^ 2 - 1 : Nat) : Int) (a - 1) := by
  have a2 : (2 ^ 26) ^ 2 < a ^ 2 := Nat.pow_lt_pow_left h1 (by decide)
  have a3 : a ^ 2 ≤ (2 ^ 32) ^ 2 := Nat.pow_le_pow_left h2 2
  have hle : a ≤ a ^ 2 - 1 := by
    have : a + 1 ≤ a ^ 2 := by nlinarith
    omega
  have hroot : IsRoot ((a ^ 2 - 1 : Nat) : Int) (a - 1) := by
    obtain ⟨j, rfl⟩ : ∃ j, a = j + 1 := ⟨a - 1, by omega⟩
    have e : (((j + 1) ^ 2 - 1 : Nat) : Int) = (j : Int) ^ 2 + 2 * j := by
      have : (j + 1) ^ 2 - 1 = j ^ 2 + 2 * j := by
        have : (j + 1) ^ 2 = j ^ 2 + 2 * j + 1 := by ring
        omega
      rw [this]; push_cast; rfl
    rw [e]
    refine ⟨by push_cast; omega, ?_, ?_⟩ <;> push_cast <;> nlinarith
  refine ⟨?_, hroot⟩
  have hrN : Nat.sqrt (a ^ 2 - 1) = a - 1 := by
    have := isRoot_unique (isRoot_nat (a ^ 2 - 1)) hroot
    omega
  have hm64 : a ^ 2 - 1 < 2 ^ 64 := by omega
  obtain ⟨m', e, hp, hl, hE⟩ := sqrtElem_eq (m := a ^ 2 - 1) (by omega) hm64 hR
  rcases Nat.lt_or_ge (a ^ 2 - 1) (2 ^ 53 + 1) with h53 | h53
  · rw [rnd_small (by omega)] at e
    have e' : a ^ 2 - 1 = m' := by exact_mod_cast e
    subst e'
    refine hE a hle ?_
    rw [if_neg, hrN]
    · omega
    · rw [hrN, show a - 1 + 1 = a by omega]
      have hlog : 52 ≤ Nat.log 2 (a ^ 2 - 1) := Nat.le_log_of_pow_le (by decide) (by omega)
      have hT : units (a ^ 2 - 1) ≤ 2 ^ 26 := by
        unfold units
        exact Nat.pow_le_pow_right (by decide) (by omega)
      have : a ^ 2 - (a ^ 2 - 1) = 1 := by omega
      rw [this]
      omega
  · have hbig : 2 ^ 54 < a ^ 2 := by omega
    obtain ⟨m'', e'', l1, l2, l3⟩ := rnd_nat (m := a ^ 2 - 1) (by omega)
    have : m'' = m' := by
      rw [e] at e''
      exact_mod_cast e''.symm
    subst this
    have hL : Nat.log 2 (a ^ 2 - 1) < 64 := Nat.log_lt_of_lt_pow (by omega) hm64
    have hL' : 54 ≤ Nat.log 2 (a ^ 2 - 1) := Nat.le_log_of_pow_le (by decide) (by omega)
    have hpow : 2 ^ Nat.log 2 (a ^ 2 - 1) ≤ a ^ 2 - 1 := Nat.pow_log_le_self 2 (by omega)
    obtain ⟨rs, er, fr⟩ := C132_close sg w [((a ^ 2 - 1 : Nat) : Int)] (by
      intro z hz
      rw [List.mem_singleton] at hz
      subst hz
      exact ⟨by omega, by omega, hR⟩)
    -- the result is `a - 1` or `a`; exclude `a - 1`
    set r := if Nat.sqrt m'' + 1 ≤ ((Nat.sqrt m'' + 1) ^ 2 - m'') * units m'' then Nat.sqrt m'' else Nat.sqrt m'' + 1 with hr
    have near : m'' ≤ a ^ 2 - 1 + 2 ^ 10 := by
      have hp10 : 2 ^ (Nat.log 2 (a ^ 2 - 1) - 53) ≤ 2 ^ 10 := Nat.pow_le_pow_right (by decide) (by omega)
      omega
    have hrle : r ≤ a ^ 2 - 1 := by
      have hk : Nat.sqrt m'' < a + 1 := by
        rw [Nat.sqrt_lt']
        have : (a + 1) ^ 2 = a ^ 2 + 2 * a + 1 := by ring
        omega
      have : r ≤ a + 1 := by rw [hr]; split_ifs <;> omega
      have : a + 1 + 1 ≤ a ^ 2 := by nlinarith
      omega
    have hres := hE r hrle hr
    have hge : a ≤ r := by
      rcases Nat.lt_or_ge m'' (a ^ 2) with hlt | hge
      · -- the conversion stays below the square
        have hlog : Nat.log 2 m'' = Nat.log 2 (a ^ 2 - 1) := by
          refine le_antisymm (Nat.log_mono_right (by omega)) ?_
          exact Nat.le_log_of_pow_le (by decide) l1
        have hs : a - 1 ≤ Nat.sqrt m'' := by
          rw [Nat.le_sqrt']
          have hp10 : 2 ^ (Nat.log 2 (a ^ 2 - 1) - 53) ≤ 2 ^ 10 := Nat.pow_le_pow_right (by decide) (by omega)
          obtain ⟨j, rfl⟩ : ∃ j, a = j + 1 := ⟨a - 1, by omega⟩
          simp only [Nat.add_sub_cancel]
          have hx : (j + 1) ^ 2 ≤ m'' + 2 ^ 10 + 1 := by omega
          have hj : 2 ^ 26 ≤ j := by omega
          have : (j + 1) ^ 2 = j ^ 2 + 2 * j + 1 := by ring
          omega
        have hs2 : Nat.sqrt m'' < a := by rw [Nat.sqrt_lt']; exact hlt
        have hs' : Nat.sqrt m'' = a - 1 := by omega
        rw [hr, if_neg, hs']
        · omega
        · rw [hs', show a - 1 + 1 = a by omega, not_le]
          have hd : a ^ 2 - m'' ≤ 1 + 2 ^ (Nat.log 2 (a ^ 2 - 1) - 53) := by omega
          unfold units
          rw [hlog]
          generalize Nat.log 2 (a ^ 2 - 1) = L at *
          have hprod : (a ^ 2 - m'') * 2 ^ (52 - L / 2) ≤ 2 ^ (52 - L / 2) + 2 ^ (L - L / 2 - 1) := by
            calc (a ^ 2 - m'') * 2 ^ (52 - L / 2) ≤ (1 + 2 ^ (L - 53)) * 2 ^ (52 - L / 2) := Nat.mul_le_mul_right _ hd
              _ = 2 ^ (52 - L / 2) + 2 ^ (L - 53) * 2 ^ (52 - L / 2) := by ring
              _ = 2 ^ (52 - L / 2) + 2 ^ (L - L / 2 - 1) := by rw [← pow_add]; congr 2; omega
          refine lt_of_le_of_lt hprod ?_
          rcases Nat.even_or_odd' L with ⟨b, hb | hb⟩
          · have e1 : L / 2 = b := by omega
            have e2 : L - b - 1 = b - 1 := by omega
            rw [e1, e2]
            refine sq_bound' b (by omega) ?_
            rw [← pow_mul, show b * 2 = L by omega]
            omega
          · have e1 : L / 2 = b := by omega
            have e2 : L - b - 1 = b := by omega
            rw [e1, e2]
            refine sq_bound b (by omega) ?_
            rw [← pow_mul, ← pow_succ', show b * 2 + 1 = L by omega]
            omega
      · have : a ≤ Nat.sqrt m'' := by rw [Nat.le_sqrt']; exact hge
        rw [hr]; split_ifs <;> omega
    simp only [sqrtAll, hres, Out.bind] at er
    cases er
    cases fr with
    | cons p _ =>
      rcases p with p | p
      · have := isRoot_unique p hroot
        omega
      · have := isRoot_unique p hroot
        have : r = a := by omega
        rw [hres, this]

/- The smallest, one in the middle of the second range, and the largest unsigned value. -/
example : sqrtElem true 64 (((2 ^ 26 + 1) ^ 2 - 1 : Nat) : Int) = .ok (2 ^ 26 + 1) :=
  (C132_squares true 64 (2 ^ 26 + 1) (by decide) (by decide) (by decide) (by decide)).1
example : sqrtElem true 64 ((3000000000 ^ 2 - 1 : Nat) : Int) = .ok 3000000000 :=
  (C132_squares true 64 3000000000 (by decide) (by decide) (by decide) (by decide)).1
example : sqrtElem false 64 (((2 ^ 32) ^ 2 - 1 : Nat) : Int) = .ok (2 ^ 32) :=
  (C132_squares false 64 (2 ^ 32) (by decide) (by decide) (by decide) (by decide)).1

end Verif.IntSqrt
