import Verif.Lemmas.HalfOrder

/-! # What `halfAdd` returns -/

namespace Verif.HalfM

open HalfS

/-! ## The function in stages -/

def expBits (a : Nat) : Nat := a &&& 0x7c00
def sigBits (a : Nat) : Nat := (a &&& 0x3ff) ||| (asr16 (sub16 0 (expBits a)) &&& 0x400)
def saBits (a b : Nat) : Nat :=
  uint16Sels (sub16 0 (expBits a) &&& not16 (sub16 0 (expBits b))) (sub16 (expBits a) 14 >>> 10)
    (sub16 (expBits a) (expBits b) >>> 10)
def jamBits (b0 sh so : Nat) : Nat := sh ||| (sub16 0 (b0 &&& sub16 so 1) >>> 15)
def smagBits (am bm : Nat) : Nat := uint16Sels (sub16 bm am) (sub16 am bm) (sub16 bm am)
def signDiffBits (a b am bm : Nat) : Nat := uint16Sels (sub16 bm am) (a &&& 0x8000) (b &&& 0x8000)

/-- The difference, normalised by the shifts `d1` (to the least exponent) or `d2`. -/
def diffBits (eb dd d1 d2 : Nat) : Nat × Nat :=
  let sa := sub16 (uint16Cntlz dd) 1
  let isd := sub16 eb sa
  let nrm := sub16 0 eb
  (uint16Sels nrm (uint16Sels isd d1 d2) dd, uint16Sels nrm (sub16 eb sa &&& not16 (asr16 isd)) eb)

/-- Carry, rounding and packing of exponent and significand. -/
def finishBits (ae c e : Nat) : Nat :=
  let carry := c &&& 0x4000
  let c1 := uint16Sels (sub16 0 carry) (c >>> 1) c
  let e1 := add16 e (carry >>> 14)
  let e2 := add16 e1 (asr16 (sub16 ae 1) &&& ((c1 &&& 0x2000) >>> 13))
  let r := add16 c1 (c1 &&& 7)
  let e3 := add16 e2 ((r &&& 0x4000) >>> 14)
  shl16 e3 10 ||| ((r >>> 3) &&& 0x3ff)

def resultBits (a b bm : Nat) (d1 d2 : Nat) : Nat :=
  let am := shl16 (sigBits a) 3
  let eb := expBits a >>> 10
  let sgn := (a &&& 0x8000) ^^^ (b &&& 0x8000)
  let dd := smagBits am bm
  let df := diffBits eb dd d1 d2
  let c := uint16Sels sgn df.1 (add16 am bm)
  let e := uint16Sels sgn df.2 eb
  let em := finishBits (expBits a) c e
  let cs := uint16Sels sgn (signDiffBits a b am bm) (a &&& 0x8000)
  let ainf := sub16 0x7bff (expBits a ||| (a &&& 0x3ff))
  let binf := sub16 0x7bff (expBits b ||| (b &&& 0x3ff))
  let z := asr16 (sgn &&& sub16 df.1 1)
  uint16Sels (ainf &&& binf &&& (b &&& 0x8000)) 0xfe00
    (uint16Sels ainf ((a &&& 0x8000) ||| 0x7c00) (cs ||| em) &&& not16 z)

def addCore (W : Wide) (a b : Nat) : Out Nat := do
  let b0 := shl16 (sigBits b) 3
  let sa := saBits a b
  let sh ← shr W b0 sa
  let so ← shlV16 W 1 sa
  let bm := jamBits b0 sh so
  let dd := smagBits (shl16 (sigBits a) 3) bm
  let d1 ← shlV16 W dd (sub16 (expBits a >>> 10) 1)
  let d2 ← shlV16 W dd (sub16 (uint16Cntlz dd) 1)
  .ok (resultBits a b bm d1 d2)

theorem halfAdd_core (W : Wide) (x y : Nat) : halfAdd W x y =
    addCore W (uint16Sels (sub16 (expBits x) (expBits y)) y x) (uint16Sels (sub16 (expBits x) (expBits y)) x y) := by
  rfl


/-! ## The stages as arithmetic -/

theorem and_exp (x : Nat) : x &&& 0x7c00 = x / 2 ^ 10 % 2 ^ 5 * 2 ^ 10 := and_field x 10 5 _ (by norm_num)
theorem and_frac (x : Nat) : x &&& 0x3ff = x % 2 ^ 10 := by
  have := and_field x 0 10 0x3ff (by norm_num)
  simpa using this
theorem and_sign (x : Nat) : x &&& 0x8000 = x / 2 ^ 15 % 2 * 2 ^ 15 := and_field x 15 1 _ (by norm_num)
theorem and_7 (x : Nat) : x &&& 7 = x % 2 ^ 3 := by
  have := and_field x 0 3 7 (by norm_num)
  simpa using this
theorem and_4000 (x : Nat) : x &&& 0x4000 = x / 2 ^ 14 % 2 * 2 ^ 14 := and_field x 14 1 _ (by norm_num)
theorem and_2000 (x : Nat) : x &&& 0x2000 = x / 2 ^ 13 % 2 * 2 ^ 13 := and_field x 13 1 _ (by norm_num)

/-- Significand with the hidden bit. -/
def sig (e m : Nat) : Nat := if e = 0 then m else 2 ^ 10 + m

theorem sig_lt {e m : Nat} (hm : m < 2 ^ 10) : sig e m < 2 ^ 11 := by unfold sig; split <;> omega
theorem sig_ge {e m : Nat} (he : e ≠ 0) : 2 ^ 10 ≤ sig e m := by unfold sig; rw [if_neg he]; omega

section fields
variable {s e m : Nat} (hs : s < 2) (he : e < 32) (hm : m < 2 ^ 10)
include hs he hm

theorem expBits_eq : expBits (s * 2 ^ 15 + e * 2 ^ 10 + m) = e * 2 ^ 10 := by
  unfold expBits
  rw [and_exp]
  congr 1
  omega

theorem fracBits_eq : (s * 2 ^ 15 + e * 2 ^ 10 + m) &&& 0x3ff = m := by
  rw [and_frac]; omega

theorem signBits_eq : (s * 2 ^ 15 + e * 2 ^ 10 + m) &&& 0x8000 = s * 2 ^ 15 := by
  rw [and_sign]; congr 1; omega

theorem sigBits_eq : sigBits (s * 2 ^ 15 + e * 2 ^ 10 + m) = sig e m := by
  unfold sigBits
  rw [fracBits_eq hs he hm, expBits_eq hs he hm]
  unfold sig asr16 sub16
  by_cases h : e = 0
  · subst h
    rw [if_pos rfl, if_neg (by norm_num)]
    simp
  · rw [if_neg h, if_pos (by omega)]
    rw [show (2 ^ 16 - 1) &&& 0x400 = 2 ^ 10 by decide]
    have := or_add (a := 1) 10 hm
    rw [Nat.one_mul] at this
    rw [Nat.or_comm, this]

end fields

theorem not16_msb {x : Nat} (hx : x < 2 ^ 16) : 2 ^ 15 ≤ not16 x ↔ x < 2 ^ 15 := by
  unfold not16; omega

theorem saBits_eq {s e m s' e' m' : Nat} (hs : s < 2) (he : e < 32) (hm : m < 2 ^ 10) (hs' : s' < 2) (he' : e' < 32)
    (hm' : m' < 2 ^ 10) (hle : e' ≤ e) :
    saBits (s * 2 ^ 15 + e * 2 ^ 10 + m) (s' * 2 ^ 15 + e' * 2 ^ 10 + m') = max e 1 - max e' 1 := by
  unfold saBits
  rw [expBits_eq hs he hm, expBits_eq hs' he' hm', sels16]
  have h1 : sub16 0 (e * 2 ^ 10) < 2 ^ 16 := Nat.mod_lt _ (by norm_num)
  have h2 : sub16 0 (e' * 2 ^ 10) < 2 ^ 16 := Nat.mod_lt _ (by norm_num)
  have h3 : not16 (sub16 0 (e' * 2 ^ 10)) < 2 ^ 16 := by unfold not16; omega
  have h4 : (2 ^ 15 ≤ sub16 0 (e * 2 ^ 10) &&& not16 (sub16 0 (e' * 2 ^ 10))) ↔ (e ≠ 0 ∧ e' = 0) := by
    rw [le_and_iff 15 _ _ h1 h3, not16_msb h2]
    unfold sub16
    omega
  have h5 : sub16 (e * 2 ^ 10) 14 >>> 10 % 2 ^ 16 = if e = 0 then 63 else e - 1 := by
    rw [Nat.shiftRight_eq_div_pow]
    unfold sub16
    split <;> omega
  have h6 : sub16 (e * 2 ^ 10) (e' * 2 ^ 10) >>> 10 % 2 ^ 16 = e - e' := by
    rw [Nat.shiftRight_eq_div_pow]
    unfold sub16
    omega
  rw [h6, h5]
  by_cases h : e ≠ 0 ∧ e' = 0
  · rw [if_pos (h4.2 h), if_neg h.1]; omega
  · rw [if_neg (fun hc => h (h4.1 hc))]; omega

/-- Shift right, collecting the lost bits in the last place. -/
def jam (b k : Nat) : Nat := b / 2 ^ k ||| (if b % 2 ^ k = 0 then 0 else 1)

theorem jamBits_eq {b k : Nat} (hb : b < 2 ^ 14) (hk : k < 32) : jamBits b (b >>> k) ((1 <<< k) % 2 ^ 16) = jam b k := by
  unfold jamBits jam
  rw [Nat.shiftRight_eq_div_pow]
  congr 1
  rw [Nat.shiftLeft_eq, Nat.one_mul]
  have hcol : b &&& sub16 (2 ^ k % 2 ^ 16) 1 = b % 2 ^ k := by
    by_cases h : k < 16
    · have h1 : 2 ^ k < 2 ^ 16 := Nat.pow_lt_pow_right (by norm_num) h
      have h0 : 0 < 2 ^ k := Nat.two_pow_pos k
      have : sub16 (2 ^ k % 2 ^ 16) 1 = 2 ^ k - 1 := by
        unfold sub16
        rw [Nat.mod_eq_of_lt h1]
        omega
      rw [this, Nat.and_two_pow_sub_one_eq_mod]
    · have h1 : 2 ^ 16 ∣ 2 ^ k := pow_dvd_pow 2 (by omega)
      have h2 : 2 ^ 16 ≤ 2 ^ k := Nat.pow_le_pow_right (by norm_num) (by omega)
      rw [Nat.mod_eq_zero_of_dvd h1, Nat.mod_eq_of_lt (by omega : b < 2 ^ k)]
      have : sub16 0 1 = 2 ^ 16 - 1 := by decide
      rw [this, Nat.and_two_pow_sub_one_eq_mod, Nat.mod_eq_of_lt (by omega)]
  rw [hcol, Nat.shiftRight_eq_div_pow]
  have hle : b % 2 ^ k ≤ b := Nat.mod_le _ _
  unfold sub16
  split <;> omega

theorem smagBits_eq {am bm : Nat} (ha : am < 2 ^ 15) (hb : bm < 2 ^ 15) :
    smagBits am bm = if bm < am then am - bm else bm - am := by
  unfold smagBits
  rw [sels16]
  unfold sub16
  by_cases h : bm < am
  · rw [if_pos (by omega), if_pos h]; omega
  · rw [if_neg (by omega), if_neg h]; omega

/-- The final stage by numbers. -/
def finish (ea c e : Nat) : Nat :=
  let c1 := if 2 ^ 14 ≤ c then c / 2 else c
  let e1 := if 2 ^ 14 ≤ c then e + 1 else e
  let e2 := if ea = 0 ∧ 2 ^ 13 ≤ c1 then e1 + 1 else e1
  let r := c1 + c1 % 2 ^ 3
  let e3 := if 2 ^ 14 ≤ r then e2 + 1 else e2
  e3 * 2 ^ 10 + r / 2 ^ 3 % 2 ^ 10

theorem finishBits_eq {ea c e : Nat} (hea : ea < 32) (hc : c < 2 ^ 15) (he : e < 32) :
    finishBits (ea * 2 ^ 10) c e = finish ea c e := by
  unfold finishBits finish
  extract_lets carry c1 e1 e2 r e3 c1' e1' e2' r' e3'
  have hcarry : carry = if 2 ^ 14 ≤ c then 2 ^ 14 else 0 := by
    simp only [carry]; rw [and_4000]; split <;> omega
  have hc1 : c1 = c1' := by
    simp only [c1, c1']
    rw [sels16, hcarry, Nat.shiftRight_eq_div_pow]
    unfold sub16
    by_cases h : 2 ^ 14 ≤ c
    · rw [if_pos h, if_pos (by omega), if_pos h]; omega
    · rw [if_neg h, if_neg (by omega), if_neg h]; omega
  have hc1' : c1' < 2 ^ 14 := by
    simp only [c1']; split <;> omega
  have he1 : e1 = e1' := by
    simp only [e1, e1']
    rw [hcarry, Nat.shiftRight_eq_div_pow]
    unfold add16
    split <;> omega
  have he1' : e1' ≤ 32 := by simp only [e1']; split <;> omega
  have he2 : e2 = e2' := by
    simp only [e2, e2']
    rw [he1, hc1, and_2000, Nat.shiftRight_eq_div_pow]
    unfold add16 asr16 sub16
    by_cases h0 : ea = 0
    · subst h0
      rw [if_pos (by norm_num), Nat.and_comm, Nat.and_two_pow_sub_one_eq_mod]
      by_cases h : 2 ^ 13 ≤ c1'
      · rw [if_pos ⟨rfl, h⟩]; omega
      · rw [if_neg (fun hx => h hx.2)]; omega
    · rw [if_neg (by omega), if_neg (fun hx => h0 hx.1), Nat.zero_and]; omega
  have he2' : e2' ≤ 33 := by simp only [e2']; split <;> omega
  have hr : r = r' := by
    simp only [r, r']
    rw [hc1, and_7]
    unfold add16
    omega
  have hr' : r' < 2 ^ 15 := by simp only [r']; omega
  have he3 : e3 = e3' := by
    simp only [e3, e3']
    rw [he2, hr, and_4000, Nat.shiftRight_eq_div_pow]
    unfold add16
    split <;> omega
  have he3' : e3' ≤ 34 := by simp only [e3']; split <;> omega
  rw [he3, hr, and_frac, Nat.shiftRight_eq_div_pow]
  unfold shl16
  rw [Nat.shiftLeft_eq, Nat.mod_eq_of_lt (by omega)]
  exact or_add 10 (Nat.mod_lt _ (by norm_num))

theorem cntlz16_table : allBits (fun x => decide (uint16Cntlz x = if x = 0 then 16 else 15 - Nat.log2 x)) 14 0 = true := by
  decide +kernel

theorem cntlz16 {x : Nat} (hx : x < 2 ^ 14) : uint16Cntlz x = if x = 0 then 16 else 15 - Nat.log2 x := by
  have := allBits_spec cntlz16_table x hx
  simpa using this

end Verif.HalfM
