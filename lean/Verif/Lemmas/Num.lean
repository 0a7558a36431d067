import Verif.Model.Num
import Verif.Lemmas.Ieee
import Verif.Lemmas.ErrFree

/-! Lemmas about numbers of the fundamental types. -/

namespace Verif.Num

open Verif.Ieee

theorem toFp_sign (f : FTy) (s : Bool) (m : ℚ) : (toFp f s m).sign = s := by
  unfold toFp; split <;> rfl

theorem ofInt_sign (f : FTy) (z : Int) : (ofInt f z).sign = decide (z < 0) := toFp_sign ..

theorem convFp_sign (f : FTy) (x : Fp) : (convFp f x).sign = x.sign := by
  cases x with
  | nan s => rfl
  | inf s => rfl
  | fin s m => exact toFp_sign f s m

theorem withSign_sign (s : Bool) (x : Fp) : (x.withSign s).sign = s := by cases x <;> rfl

theorem withSign_withSign (s t : Bool) (x : Fp) : (x.withSign s).withSign t = x.withSign t := by cases x <;> rfl

theorem withSign_self (x : Fp) : x.withSign x.sign = x := by cases x <;> rfl

theorem toFp_exact {f : FTy} {s : Bool} {m : ℚ} (h : Repr f.fmt m) (hm : m < (2 : ℚ) ^ f.emax) : toFp f s m = .fin s m := by
  unfold toFp
  rw [rnd_of_repr h, if_neg (not_le.2 hm)]

/-- Whole numbers up to `2 ^ 53` are values of `double`. -/
theorem ofInt_exact {z : Int} (h : |z| ≤ 2 ^ 53) : ofInt .dbl z = .fin (decide (z < 0)) |(z : ℚ)| := by
  unfold ofInt
  apply toFp_exact
  · have : Repr binary64 ((|z| : Int) : ℚ) := repr_int (by decide) (by rw [abs_abs]; exact h)
    rwa [Int.cast_abs] at this
  · have h1 : |(z : ℚ)| ≤ 2 ^ 53 := by exact_mod_cast h
    exact lt_of_le_of_lt h1 (pow_lt_pow_right₀ (by norm_num) (by decide))

theorem wrap_eq {sg : Bool} {w : Nat} {z : Int} (hw : 1 ≤ w) (h : InR sg w z) : wrap sg w z = z := by
  obtain ⟨h1, h2⟩ := h
  obtain ⟨k, rfl⟩ : ∃ k, w = k + 1 := ⟨w - 1, by omega⟩
  unfold lo at h1; unfold hi at h2; unfold wrap
  have e : (2 : Int) ^ (k + 1) = 2 * 2 ^ k := by rw [pow_succ]; ring
  have hp : (0 : Int) < 2 ^ k := by positivity
  simp only [Nat.add_sub_cancel] at *
  rw [e] at *
  generalize (2 : Int) ^ k = t at *
  cases sg with
  | false =>
    simp only [Bool.false_eq_true, if_false, false_and] at *
    exact Int.emod_eq_of_lt h1 (by omega)
  | true =>
    simp only [if_true, true_and] at *
    by_cases c : 0 ≤ z
    · rw [Int.emod_eq_of_lt c (by omega), if_neg (by omega)]
    · have : z % (2 * t) = z + 2 * t := by
        rw [← Int.add_emod_right, Int.emod_eq_of_lt (by omega) (by omega)]
      rw [this, if_pos (by omega)]; omega

theorem wrap_mod (sg : Bool) (w : Nat) (z k : Int) : wrap sg w (z + k * 2 ^ w) = wrap sg w z := by
  unfold wrap
  rw [Int.add_mul_emod_self_right]

/-- Half of the least positive number and less rounds to zero. -/
theorem rnd_tiny {f : Fmt} {x : ℚ} (h0 : 0 ≤ x) (h : x < (2 : ℚ) ^ (f.emin - 1)) : rnd f x = 0 := by
  rcases h0.eq_or_lt with rfl | hx
  · exact rnd_zero f
  · have hl : Int.log 2 x < f.emin - 1 := by
      by_contra hc
      have := zpow_le_zpow.2 (not_lt.1 hc)
      have := log_le_self hx
      linarith
    have hu : ulpExp f x = f.emin := by
      rw [ulpExp_of_pos hx]
      apply max_eq_right
      have := f.hp
      omega
    unfold rnd
    rw [hu]
    have hp := two_zpow_pos f.emin
    have : rne (x / (2 : ℚ) ^ f.emin) = 0 := by
      apply rne_eq_of_lt_half
      · simp only [Int.cast_zero]; positivity
      · rw [div_lt_iff₀ hp]
        have : (2 : ℚ) ^ (f.emin - 1) = 2 ^ f.emin / 2 := by rw [zpow_sub₀ (by norm_num)]; simp
        rw [this] at h
        simp only [Int.cast_zero]
        linarith
    rw [this]; simp

/-- The truncation of a finite number that is whole. -/
theorem truncTo_int {sg : Bool} {w : Nat} {s : Bool} {n : Int} (hr : InR sg w (if s then -n else n)) :
    truncTo sg w (.fin s (n : ℚ)) = .ok (if s then -n else n) := by
  simp only [truncTo, Int.floor_intCast]
  rw [if_pos hr]

end Verif.Num

namespace Verif.Num

open Verif.Ieee

/-! ### Arguments whose conversions keep their values -/

/-- Groups of arguments: integers of any type that are not negative, integers of signed types, floating-point numbers. -/
inductive Group where
  | nonneg
  | signed
  | float

/-- The types of a group. -/
def GoodTy : Group → Ty → Prop
  | .nonneg, .int _ w => 1 ≤ w
  | .signed, .int sg w => sg = true ∧ 1 ≤ w
  | .float, .fp _ => True
  | _, _ => False

/-- A number of a floating-point type that is not NaN. -/
def Fp.Valid (f : FTy) : Fp → Prop
  | .nan _ => False
  | .inf _ => True
  | .fin _ m => 0 ≤ m ∧ Ieee.Repr f.fmt m ∧ m < (2 : ℚ) ^ f.emax

/-- The arguments of a group. -/
def Good : Group → Ty × Val → Prop
  | .nonneg, (.int sg w, .i z) => 1 ≤ w ∧ InR sg w z ∧ 0 ≤ z
  | .signed, (.int sg w, .i z) => sg = true ∧ 1 ≤ w ∧ InR sg w z
  | .float, (.fp f, .f x) => x.Valid f
  | _, _ => False

theorem Good.ty {g : Group} {p : Ty × Val} (h : Good g p) : GoodTy g p.1 := by
  match g, p, h with
  | .nonneg, (.int _ _, .i _), h => exact h.1
  | .signed, (.int _ _, .i _), h => exact ⟨h.1, h.2.1⟩
  | .float, (.fp _, .f _), _ => trivial

/-- The number of value bits of an integer type. -/
def bits (a : Bool × Nat) : Nat := if a.1 then a.2 - 1 else a.2

theorem inR_nonneg {a : Bool × Nat} {z : Int} (hz : 0 ≤ z) : InR a.1 a.2 z ↔ z < 2 ^ bits a := by
  obtain ⟨sg, w⟩ := a
  have : (0 : Int) < 2 ^ (w - 1) := by positivity
  cases sg <;> simp [InR, lo, hi, bits] <;> omega

theorem bits_promote {sg : Bool} {w : Nat} : bits (sg, w) ≤ bits (promote sg w) ∧ (1 ≤ w → 1 ≤ (promote sg w).2) := by
  unfold promote
  split
  · cases sg <;> simp [bits] <;> omega
  · simp

theorem bits_common (a b : Bool × Nat) (ha : 1 ≤ a.2) (hb : 1 ≤ b.2) :
    bits a ≤ bits (commonInt a b) ∧ bits b ≤ bits (commonInt a b) ∧ 1 ≤ (commonInt a b).2 := by
  obtain ⟨sa, wa⟩ := a
  obtain ⟨sb, wb⟩ := b
  simp only at ha hb
  cases sa <;> cases sb <;> simp [commonInt, bits]
  · omega
  · split <;> simp <;> omega
  · split <;> simp <;> omega
  · omega

theorem inR_mono {w v : Nat} {z : Int} (h : InR true w z) (hwv : w ≤ v) : InR true v z := by
  simp only [InR, lo, hi, if_true] at *
  have : (2 : Int) ^ (w - 1) ≤ 2 ^ (v - 1) := pow_le_pow_right₀ (by norm_num) (by omega)
  omega

theorem repr_dbl {m : ℚ} (h : Ieee.Repr binary32 m) : Ieee.Repr binary64 m := by
  obtain ⟨n, e, he, hn, rfl⟩ := h
  refine ⟨n, e, le_trans (by decide) he, lt_of_lt_of_le hn ?_, rfl⟩
  exact pow_le_pow_right₀ (by norm_num) (by decide)

theorem valid_dbl {f : FTy} {x : Fp} (h : x.Valid f) : x.Valid .dbl := by
  cases f with
  | dbl => exact h
  | flt =>
    cases x with
    | nan s => exact h
    | inf s => trivial
    | fin s m => exact ⟨h.1, repr_dbl h.2.1, lt_trans h.2.2 (pow_lt_pow_right₀ (by norm_num) (by decide))⟩

theorem conv_valid {f : FTy} {x : Fp} (h : x.Valid f) : convFp f x = x := by
  cases x with
  | nan s => rfl
  | inf s => rfl
  | fin s m => exact toFp_exact h.2.1 h.2.2

/-- A value of the group is kept by the conversion to its own type. -/
theorem cast_self {g : Group} {t : Ty} {v : Val} (h : Good g (t, v)) : cast t v = .ok v := by
  match g, t, v, h with
  | .nonneg, .int sg w, .i z, h => simp only [cast, wrap_eq h.1 h.2.1]
  | .signed, .int sg w, .i z, h => simp only [cast, wrap_eq h.2.1 h.2.2]
  | .float, .fp f, .f x, h => simp only [cast, conv_valid h]

/-- The common type of two types of a group holds the values of both. -/
theorem good_common {g : Group} {a b : Ty} {v : Val} (ha : GoodTy g a) (hb : GoodTy g b) (h : Good g (a, v) ∨ Good g (b, v)) :
    Good g (common a b, v) := by
  match g, a, b, ha, hb with
  | .nonneg, .int sa wa, .int sb wb, ha, hb =>
    have pa := bits_promote (sg := sa) (w := wa)
    have pb := bits_promote (sg := sb) (w := wb)
    have hc := bits_common (promote sa wa) (promote sb wb) (pa.2 ha) (pb.2 hb)
    match v, h with
    | .i z, h =>
      have hz : 0 ≤ z := by rcases h with h | h <;> exact h.2.2
      refine ⟨hc.2.2, (inR_nonneg hz).2 ?_, hz⟩
      rcases h with h | h
      · have h1 := (inR_nonneg (a := (sa, wa)) hz).1 h.2.1
        exact lt_of_lt_of_le h1 (pow_le_pow_right₀ (by norm_num) (le_trans pa.1 hc.1))
      · have h1 := (inR_nonneg (a := (sb, wb)) hz).1 h.2.1
        exact lt_of_lt_of_le h1 (pow_le_pow_right₀ (by norm_num) (le_trans pb.1 hc.2.1))
    | .f x, h => exact (h.elim id id).elim
  | .signed, .int sa wa, .int sb wb, ha, hb =>
    obtain ⟨rfl, ha⟩ := ha
    obtain ⟨rfl, hb⟩ := hb
    have hp : ∀ w : Nat, (promote true w).1 = true ∧ w ≤ (promote true w).2 := by
      intro w; unfold promote; split <;> simp; omega
    have hcm : commonInt (promote true wa) (promote true wb) = (true, Max.max (promote true wa).2 (promote true wb).2) := by
      unfold commonInt
      rw [(hp wa).1, (hp wb).1]
      simp
    match v, h with
    | .i z, h =>
      simp only [common, hcm]
      refine ⟨rfl, le_trans ha (le_trans (hp wa).2 (le_max_left _ _)), ?_⟩
      rcases h with h | h
      · exact inR_mono h.2.2 (le_trans (hp wa).2 (le_max_left _ _))
      · exact inR_mono h.2.2 (le_trans (hp wb).2 (le_max_right _ _))
    | .f x, h => exact (h.elim id id).elim
  | .float, .fp f, .fp f', ha, hb =>
    match v, h with
    | .i z, h => exact (h.elim id id).elim
    | .f x, h =>
      cases f <;> cases f'
      · exact h.elim id id
      · exact h.elim valid_dbl id
      · exact h.elim id valid_dbl
      · exact h.elim id id

theorem good_ternary {g : Group} {a b : Ty} {v : Val} (ha : GoodTy g a) (hb : GoodTy g b) (h : Good g (a, v) ∨ Good g (b, v)) :
    Good g (ternary a b, v) := by
  unfold ternary
  split
  · next e => subst e; exact h.elim id id
  · exact good_common ha hb h

theorem goodTy_common {g : Group} {a b : Ty} (ha : GoodTy g a) (hb : GoodTy g b) : GoodTy g (common a b) := by
  match g, a, b, ha, hb with
  | .nonneg, .int sa wa, .int sb wb, ha, hb =>
    exact (bits_common (promote sa wa) (promote sb wb) (bits_promote.2 ha) (bits_promote.2 hb)).2.2
  | .signed, .int sa wa, .int sb wb, ha, hb =>
    have : Good .signed (.int sa wa, .i 0) := ⟨ha.1, ha.2, by
      obtain ⟨rfl, _⟩ := ha
      have : (0 : Int) < 2 ^ (wa - 1) := by positivity
      simp only [InR, lo, hi, if_true]; omega⟩
    exact (good_common ha hb (Or.inl this)).ty
  | .float, .fp f, .fp f', _, _ => cases f <;> cases f' <;> trivial

theorem goodTy_pick {g : Group} (a : Ty) (r : List Ty) (h : ∀ t ∈ a :: r, GoodTy g t) : GoodTy g (pickTy a r) := by
  induction r generalizing a with
  | nil => exact h a (by simp)
  | cons b r ih =>
    have h1 := ih a (fun t ht => h t (by simp only [List.mem_cons] at ht ⊢; tauto))
    have h2 := ih b (fun t ht => h t (by simp only [List.mem_cons] at ht ⊢; tauto))
    simp only [pickTy, ternary]
    split
    · exact h1
    · exact goodTy_common h1 h2

/-- The place of a value in the order of the extended numbers; NaN has none. -/
def Val.key : Val → Option (WithBot (WithTop ℚ))
  | .i z => some (((z : ℚ) : WithTop ℚ) : WithBot (WithTop ℚ))
  | .f x => x.key

/-- The comparison of two values of a group is the comparison of the numbers. -/
theorem less_good {g : Group} {a b : Ty × Val} (ha : Good g a) (hb : Good g b) :
    ∃ x y, a.2.key = some x ∧ b.2.key = some y ∧ less a b = .ok (decide (x < y)) := by
  have e1 := cast_self (good_common ha.ty hb.ty (Or.inl ha) : Good g (common a.1 b.1, a.2))
  have e2 := cast_self (good_common ha.ty hb.ty (Or.inr hb) : Good g (common a.1 b.1, b.2))
  have el : less a b = .ok (ltVal a.2 b.2) := by simp only [less, e1, e2, Out.ok_bind, Out.pure_eq]
  rw [el]
  have hint : ∀ z z' : Int, ltVal (.i z) (.i z') = decide ((((z : ℚ) : WithTop ℚ) : WithBot (WithTop ℚ)) < ((z' : ℚ) : WithTop ℚ)) := by
    intro z z'
    simp [ltVal]
  match g, a, b, ha, hb with
  | .nonneg, (.int _ _, .i z), (.int _ _, .i z'), _, _ => exact ⟨_, _, rfl, rfl, by rw [hint]⟩
  | .signed, (.int _ _, .i z), (.int _ _, .i z'), _, _ => exact ⟨_, _, rfl, rfl, by rw [hint]⟩
  | .float, (.fp _, .f x), (.fp _, .f y), ha, hb =>
    have hk : ∀ (f : FTy) (x : Fp), x.Valid f → ∃ k, x.key = some k := by
      intro f x hx
      cases x with
      | nan s => exact hx.elim
      | inf s => cases s <;> exact ⟨_, rfl⟩
      | fin s m => exact ⟨_, rfl⟩
    obtain ⟨k, hk1⟩ := hk _ x ha
    obtain ⟨k', hk2⟩ := hk _ y hb
    exact ⟨k, k', hk1, hk2, by simp only [ltVal, Fp.lt, hk1, hk2]⟩

end Verif.Num
