import Verif.Lemmas.HalfLead
import Verif.Lemmas.HalfSumNear

/-! # What `halfMul` returns -/

namespace Verif.HalfM

open HalfS

/-! ## The function in stages -/

/-- The significand before normalisation, `cu` the unbiased exponent. -/
def radixBits (cu P u : Nat) : Nat := uint32Selb (asr32 cu) u P >>> 1
def leadBits (r : Nat) : Nat := uint16Cntlz ((r >>> 5) % 2 ^ 16)
def expoBits (cu : Nat) : Nat := cu &&& not32 (asr32 cu)

def normE (e0 r : Nat) : Nat :=
  let e1 := add32 e0 1
  let hu := not32 (sub32 (leadBits r) e1)
  uint32Sels (sub32 (r &&& 0x100000) 1) (sub32 e1 (leadBits r) &&& not32 (asr32 hu)) e1

def normM (e0 r h1 h2 : Nat) : Nat :=
  let hu := not32 (sub32 (leadBits r) (add32 e0 1))
  uint32Sels (sub32 (r &&& 0x100000) 1) (uint32Sels hu h1 h2) r

def packBits (e0 ez mz : Nat) : Nat :=
  uint32Sels (sub32 0 (ez &&& 32) ||| sub32 0 (e0 &&& 32)) 0x7c00
    ((shl32 ez 10 &&& 0x7c00) ||| ((add32 mz (mz &&& 0x3ff) >>> 10) &&& 0x3ff))

/-- The choice among the kinds of result. -/
def pickBits (cs as ae be am bm d em : Nat) : Nat :=
  let af := sub32 0x7bff ae
  let bf := sub32 0x7bff be
  let bz := sub32 be 1 &&& sub32 bm 1
  let az := sub32 ae 1 &&& sub32 am 1
  let zero := uint32Sels bz cs (cs ||| em)
  let nan := uint32Sels ((af &&& not32 bf) ||| (bf &&& not32 (sub32 bm 1))) (as ||| (0x7c00 ||| am)) zero
  let nanMin := uint32Sels ((af &&& bz) ||| (bf &&& az)) 0x7c01 nan
  let inf := uint32Sels (af ||| bf) (cs ||| 0x7c00) nanMin
  let den := uint32Sels (sub32 be 1 &&& not32 af) (cs ||| (d &&& 0x3ff)) inf
  uint32Sels ((af &&& sub32 am 1) &&& bz) 0xfe00 den % 2 ^ 16

/-- `halfMul` after the operands have been put in order. -/
def mulCore (W : Wide) (cs as a b : Nat) : Out Nat := do
  let ae := a &&& 0x7c00
  let be := b &&& 0x7c00
  let am := a &&& 0x3ff
  let bm := b &&& 0x3ff
  let D := mul32 (am ||| 0x400) bm
  let P := mul32 (am ||| 0x400) (bm ||| 0x400)
  let cu := sub32 (add32 (ae >>> 10) (be >>> 10)) 15
  let d ← shr W (add32 D (D &&& 0x3ff) >>> 10) (sub32 15 (ae >>> 10))
  let u ← shr W P (shl32 (sub32 0 cu) 1)
  let r := radixBits cu P u
  let h1 ← shlV32 W r (leadBits r >>> 1)
  let h2 ← shlV32 W r (leadBits r)
  .ok (pickBits cs as ae be am bm d (packBits (expoBits cu) (normE (expoBits cu) r) (normM (expoBits cu) r h1 h2)))

theorem halfMul_core (W : Wide) (x y : Nat) : halfMul W x y =
    mulCore W ((x &&& 0x8000) ^^^ (y &&& 0x8000)) (x &&& 0x8000)
      (uint32Sels (sub32 (x &&& 0x7c00) 1) y x) (uint32Sels (sub32 (x &&& 0x7c00) 1) x y) := rfl

/-! ## Exponent and significand of a product of normal operands -/

/-- Exponent field and unrounded significand (ten further bits), `C` the sum of the exponent fields and `P` the product of the
significands. -/
def prodEM (C P : Nat) : Nat × Nat :=
  if 15 ≤ C then
    if 2 ^ 21 ≤ P then (C - 14, P / 2)
    else if C = 15 then (0, P / 2)
    else (C - 15, P / 2 * 2)
  else (0, P / 2 ^ (2 * (15 - C)) / 2 * 2 ^ (uint16Cntlz (P / 2 ^ (2 * (15 - C)) / 2 / 2 ^ 5) / 2))

/-- Rounding and packing. -/
def prodBody (C P : Nat) : Nat :=
  let E := (prodEM C P).1
  let S := (prodEM C P).2
  if 47 ≤ C ∨ E = 32 then 0x7c00 else E % 32 * 2 ^ 10 + (S + S % 2 ^ 10) / 2 ^ 10 % 2 ^ 10

/-- The result, `d` being the shifted significand of a product with a subnormal. -/
def prodRes (t e m e' m' d : Nat) : Nat :=
  if e = 31 ∧ m = 0 ∧ e' = 0 ∧ m' = 0 then 0xfe00
  else if e' = 0 ∧ e ≠ 31 then t * 2 ^ 15 + d % 2 ^ 10
  else if e = 31 ∨ e' = 31 then t * 2 ^ 15 + 0x7c00
  else t * 2 ^ 15 + prodBody (e + e') ((2 ^ 10 + m) * (2 ^ 10 + m'))

theorem shlV_ok (W : Wide) (a k : Nat) (hk : k < 32) : shlV32 W a k = .ok (a * 2 ^ k % 2 ^ 32) := by
  rw [shlV32, if_pos hk, Nat.shiftLeft_eq]

theorem selb_mask (c : Prop) [Decidable c] (a b : Nat) :
    uint32Selb (if c then 2 ^ 32 - 1 else 0) a b = if c then a % 2 ^ 32 else b % 2 ^ 32 := by
  unfold uint32Selb not32
  by_cases h : c
  · simp only [if_pos h, and_all32]; simp
  · simp only [if_neg h, Nat.sub_zero, and_all32]; simp

theorem or_hidden10 {m : Nat} (hm : m < 2 ^ 10) : m ||| 0x400 = 2 ^ 10 + m := by
  have := or_add (a := 1) 10 hm
  rw [Nat.one_mul] at this
  rw [Nat.or_comm]; exact this

/-! ## The stages as arithmetic -/

theorem expoBits_eq {C : Nat} (hC : C < 64) : expoBits (sub32 C 15) = C - 15 := by
  unfold expoBits asr32 not32
  by_cases h : C < 15
  · rw [if_pos (by unfold sub32; omega), Nat.sub_self, Nat.and_zero]; omega
  · rw [if_neg (by unfold sub32; omega), Nat.sub_zero, and_all32]; unfold sub32; omega

theorem radixBits_eq {C P u : Nat} (hC : C < 64) (hP : P < 2 ^ 22) (hu : C < 15 → u = P / 2 ^ (2 * (15 - C))) :
    radixBits (sub32 C 15) P u = (if 15 ≤ C then P else P / 2 ^ (2 * (15 - C))) / 2 := by
  unfold radixBits asr32
  rw [selb_mask, Nat.shiftRight_eq_div_pow, pow_one]
  by_cases h : C < 15
  · have := Nat.div_le_self P (2 ^ (2 * (15 - C)))
    rw [if_pos (by unfold sub32; omega), if_neg (by omega), hu h, Nat.mod_eq_of_lt (by omega)]
  · rw [if_neg (by unfold sub32; omega), if_pos (by omega), Nat.mod_eq_of_lt (by omega)]

theorem leadBits_le (r : Nat) : leadBits r ≤ 16 := cntlz16_le (Nat.mod_lt _ (by norm_num))

theorem and_hid (r : Nat) : r &&& 0x100000 = r / 2 ^ 20 % 2 * 2 ^ 20 := and_field r 20 1 _ (by norm_num)
theorem and_32 (r : Nat) : r &&& 32 = r / 2 ^ 5 % 2 * 2 ^ 5 := and_field r 5 1 _ (by norm_num)

theorem nohid_iff {r : Nat} (hr : r < 2 ^ 21) : 2 ^ 31 ≤ sub32 (r &&& 0x100000) 1 ↔ r < 2 ^ 20 := by
  rw [and_hid]; unfold sub32; omega

theorem under_iff {n e1 : Nat} (hn : n ≤ 16) (he : e1 < 64) : 2 ^ 31 ≤ not32 (sub32 n e1) ↔ e1 ≤ n := by
  unfold not32 sub32; omega

theorem normE_eq {e0 r : Nat} (he : e0 < 48) (hr : r < 2 ^ 21) :
    normE e0 r = if 2 ^ 20 ≤ r then e0 + 1 else e0 + 1 - leadBits r := by
  have hn := leadBits_le r
  unfold normE
  simp only [sels32, nohid_iff hr]
  have h1 : add32 e0 1 = e0 + 1 := by unfold add32; omega
  rw [h1]
  by_cases h : 2 ^ 20 ≤ r
  · rw [if_pos h, if_neg (by omega)]; omega
  · rw [if_neg h, if_pos (by omega)]
    unfold asr32
    by_cases hu : e0 + 1 ≤ leadBits r
    · rw [if_pos ((under_iff hn (by omega)).2 hu)]
      simp only [not32, Nat.sub_self, Nat.and_zero]
      omega
    · rw [if_neg (fun hc => hu ((under_iff hn (by omega)).1 hc))]
      simp only [not32, Nat.sub_zero, and_all32, sub32]
      omega

theorem normM_eq {e0 r : Nat} (he : e0 < 48) (hr : r < 2 ^ 21) (h1 h2 : Nat) :
    normM e0 r h1 h2 = if 2 ^ 20 ≤ r then r else if e0 + 1 ≤ leadBits r then h1 % 2 ^ 32 else h2 % 2 ^ 32 := by
  have hn := leadBits_le r
  unfold normM
  have ha : add32 e0 1 = e0 + 1 := by unfold add32; omega
  simp only [sels32, nohid_iff hr, ha, under_iff hn (show e0 + 1 < 64 by omega)]
  by_cases h : 2 ^ 20 ≤ r
  · rw [if_pos h, if_neg (by omega)]; omega
  · rw [if_neg h, if_pos (by omega)]
    split <;> omega

theorem packBits_eq {e0 ez mz : Nat} (h0 : e0 < 48) (hz : ez < 49) (hm : mz < 2 ^ 31) :
    packBits e0 ez mz = if 32 ≤ e0 ∨ 32 ≤ ez then 0x7c00 else ez * 2 ^ 10 + (mz + mz % 2 ^ 10) / 2 ^ 10 % 2 ^ 10 := by
  unfold packBits
  rw [sels32]
  have b1 : sub32 0 (ez &&& 32) < 2 ^ 32 := Nat.mod_lt _ (by norm_num)
  have b2 : sub32 0 (e0 &&& 32) < 2 ^ 32 := Nat.mod_lt _ (by norm_num)
  have c1 : 2 ^ 31 ≤ sub32 0 (ez &&& 32) ↔ 32 ≤ ez := by rw [and_32]; unfold sub32; omega
  have c2 : 2 ^ 31 ≤ sub32 0 (e0 &&& 32) ↔ 32 ≤ e0 := by rw [and_32]; unfold sub32; omega
  rw [if_congr ((le_or_iff 31 _ _ b1 b2).trans ((or_congr c1 c2).trans or_comm)) rfl rfl]
  split
  · rfl
  · next h =>
    rw [and_exp, and_frac, and_frac, shl32, Nat.shiftLeft_eq, Nat.shiftRight_eq_div_pow, add32]
    have h1 : ez * 2 ^ 10 % 2 ^ 32 / 2 ^ 10 % 2 ^ 5 = ez := by omega
    have h2 : (mz + mz % 2 ^ 10) % 2 ^ 32 = mz + mz % 2 ^ 10 := by omega
    rw [h1, h2, or_add 10 (Nat.mod_lt _ (by norm_num))]
    omega

/-- The three stages together. -/
theorem pack_eq (W : Wide) {C P u : Nat} (hC : C < 63) (hP1 : 2 ^ 20 ≤ P) (hP : P < 2 ^ 22)
    (hu : C < 15 → u = P / 2 ^ (2 * (15 - C))) :
    ∃ h1 h2, shlV32 W (radixBits (sub32 C 15) P u) (leadBits (radixBits (sub32 C 15) P u) >>> 1) = .ok h1 ∧
      shlV32 W (radixBits (sub32 C 15) P u) (leadBits (radixBits (sub32 C 15) P u)) = .ok h2 ∧
      packBits (expoBits (sub32 C 15)) (normE (expoBits (sub32 C 15)) (radixBits (sub32 C 15) P u))
        (normM (expoBits (sub32 C 15)) (radixBits (sub32 C 15) P u) h1 h2) = prodBody C P := by
  rw [expoBits_eq (by omega), radixBits_eq (by omega) hP hu]
  set r := (if 15 ≤ C then P else P / 2 ^ (2 * (15 - C))) / 2 with hr
  have hn := leadBits_le r
  have hsh : leadBits r >>> 1 = leadBits r / 2 := Nat.shiftRight_eq_div_pow _ 1
  refine ⟨_, _, shlV_ok W _ _ (by omega), shlV_ok W _ _ (by omega), ?_⟩
  have r_lt : r < 2 ^ 21 := by
    have := Nat.div_le_self P (2 ^ (2 * (15 - C)))
    rw [hr]; split <;> omega
  rw [normE_eq (by omega) r_lt, normM_eq (by omega) r_lt, hsh]
  have bd : ∀ x, x % 2 ^ 32 % 2 ^ 32 = x % 2 ^ 32 := fun x => by omega
  rw [bd, bd]
  unfold prodBody prodEM
  by_cases h15 : 15 ≤ C
  · rw [if_pos h15] at hr
    by_cases h21 : 2 ^ 21 ≤ P
    · have : 2 ^ 20 ≤ r := by omega
      rw [if_pos this, if_pos this, packBits_eq (by omega) (by omega) (by omega), if_pos h15, if_pos h21]
      simp only
      by_cases hov : 47 ≤ C ∨ C - 14 = 32
      · rw [if_pos hov, if_pos (by omega)]
      · rw [if_neg hov, if_neg (by omega), hr]; omega
    · have hlt : ¬ 2 ^ 20 ≤ r := by omega
      have hn1 : leadBits r = 1 := by
        unfold leadBits
        rw [Nat.shiftRight_eq_div_pow]
        apply cntlz16_of (by norm_num) <;> omega
      rw [if_neg hlt, if_neg hlt, hn1, packBits_eq (by omega) (by omega) (by split <;> omega), if_pos h15, if_neg h21]
      by_cases hc : C = 15
      · subst hc
        norm_num
        rw [hr]
        omega
      · rw [if_neg hc, if_neg (by omega : ¬ C - 15 + 1 ≤ 1)]
        simp only [pow_one]
        rw [Nat.mod_eq_of_lt (by omega : r * 2 < 2 ^ 32), hr]
        by_cases hov : 47 ≤ C
        · rw [if_pos (Or.inl hov), if_pos (by omega)]
        · rw [if_neg (by omega), if_neg (by omega)]; omega
  · rw [if_neg h15] at hr
    have q : P / 2 ^ (2 * (15 - C)) ≤ P / 2 ^ 2 :=
      Nat.div_le_div_left (Nat.pow_le_pow_right (by norm_num) (by omega)) (by norm_num)
    have hlt : r < 2 ^ 19 := by omega
    have hn1 : leadBits r = uint16Cntlz (r / 2 ^ 5) := by
      unfold leadBits
      rw [Nat.shiftRight_eq_div_pow, Nat.mod_eq_of_lt (by omega)]
    have hpos : 1 ≤ leadBits r := by
      rw [hn1, cntlz16_full (by omega)]
      split
      · norm_num
      · next h0 =>
        have : Nat.log2 (r / 2 ^ 5) < 14 := (Nat.log2_lt h0).2 (by omega)
        omega
    have hM : r * 2 ^ (leadBits r / 2) < 2 ^ 27 := by
      calc r * 2 ^ (leadBits r / 2) ≤ r * 2 ^ 8 := Nat.mul_le_mul le_rfl (Nat.pow_le_pow_right (by norm_num) (by omega))
        _ < 2 ^ 27 := by omega
    rw [if_neg (by omega), if_neg (by omega), if_pos (by omega : C - 15 + 1 ≤ leadBits r), Nat.mod_eq_of_lt (by omega : r * 2 ^ (leadBits r / 2) < 2 ^ 32),
      packBits_eq (by omega) (by omega) (by omega), if_neg h15]
    simp only
    rw [if_neg (by omega), if_neg (by omega), ← hr, ← hn1]
    omega

theorem pickBits_eq {t as e m e' m' d em : Nat} (ht : t < 2) (he : e < 32) (hm : m < 2 ^ 10) (he' : e' < 32) (hm' : m' < 2 ^ 10)
    (hem : em < 2 ^ 15) :
    pickBits (t * 2 ^ 15) as (e * 2 ^ 10) (e' * 2 ^ 10) m m' d em =
      if e = 31 ∧ m = 0 ∧ e' = 0 ∧ m' = 0 then 0xfe00
      else if e' = 0 ∧ e ≠ 31 then t * 2 ^ 15 + d % 2 ^ 10
      else if e = 31 ∨ e' = 31 then t * 2 ^ 15 + 0x7c00
      else t * 2 ^ 15 + em := by
  unfold pickBits
  extract_lets af bf bz az zero nan nanMin inf den
  have b_af : af < 2 ^ 32 := Nat.mod_lt _ (by norm_num)
  have b_bf : bf < 2 ^ 32 := Nat.mod_lt _ (by norm_num)
  have b_be : sub32 (e' * 2 ^ 10) 1 < 2 ^ 32 := Nat.mod_lt _ (by norm_num)
  have b_am : sub32 m 1 < 2 ^ 32 := Nat.mod_lt _ (by norm_num)
  have b_bm : sub32 m' 1 < 2 ^ 32 := Nat.mod_lt _ (by norm_num)
  have c_af : 2 ^ 31 ≤ af ↔ e = 31 := by simp only [af, sub32]; omega
  have c_bf : 2 ^ 31 ≤ bf ↔ e' = 31 := by simp only [bf, sub32]; omega
  have c_am : 2 ^ 31 ≤ sub32 m 1 ↔ m = 0 := by simp only [sub32]; omega
  have c_be : 2 ^ 31 ≤ sub32 (e' * 2 ^ 10) 1 ↔ e' = 0 := by simp only [sub32]; omega
  have c_bm : 2 ^ 31 ≤ sub32 m' 1 ↔ m' = 0 := by simp only [sub32]; omega
  have b_bz : bz < 2 ^ 32 := lt_of_le_of_lt Nat.and_le_left b_be
  have c_bz : 2 ^ 31 ≤ bz ↔ e' = 0 ∧ m' = 0 := by
    simp only [bz]; rw [le_and_iff 31 _ _ b_be b_bm, c_be, c_bm]
  have b_naf : not32 af < 2 ^ 32 := by unfold not32; omega
  have n_af : 2 ^ 31 ≤ not32 af ↔ e ≠ 31 := by rw [Ne, ← c_af]; unfold not32; omega
  have l1 : af &&& not32 bf ≤ af := Nat.and_le_left
  have l2 : bf &&& not32 (sub32 m' 1) ≤ bf := Nat.and_le_left
  have l3 : af &&& bz ≤ af := Nat.and_le_left
  have l4 : bf &&& az ≤ bf := Nat.and_le_left
  have l5 : af &&& sub32 m 1 ≤ af := Nat.and_le_left
  simp only [den, inf, nanMin, nan, zero, sels32]
  clear_value af bf bz az
  clear den inf nanMin nan zero
  rw [if_congr ((le_and_iff 31 _ _ (by omega) b_bz).trans (and_congr ((le_and_iff 31 _ _ b_af b_am).trans (and_congr c_af c_am)) c_bz)) rfl rfl,
    if_congr ((le_and_iff 31 _ _ b_be b_naf).trans (and_congr c_be n_af)) rfl rfl,
    if_congr ((le_or_iff 31 _ _ b_af b_bf).trans (or_congr c_af c_bf)) rfl rfl]
  have dl : d % 2 ^ 10 < 2 ^ 10 := Nat.mod_lt _ (by norm_num)
  rw [and_frac, or_add 15 (by omega : d % 2 ^ 10 < 2 ^ 15), or_add 15 (by norm_num : 0x7c00 < 2 ^ 15), or_add 15 hem]
  by_cases k1 : (e = 31 ∧ m = 0) ∧ e' = 0 ∧ m' = 0
  · rw [if_pos k1, if_pos ⟨k1.1.1, k1.1.2, k1.2⟩]
    norm_num
  rw [if_neg k1, if_neg (show ¬ (e = 31 ∧ m = 0 ∧ e' = 0 ∧ m' = 0) from fun h => k1 ⟨⟨h.1, h.2.1⟩, h.2.2⟩)]
  by_cases k2 : e' = 0 ∧ e ≠ 31
  · rw [if_pos k2, if_pos k2]; omega
  rw [if_neg k2, if_neg k2]
  by_cases k3 : e = 31 ∨ e' = 31
  · rw [if_pos k3, if_pos k3]; omega
  rw [if_neg k3, if_neg k3]
  have f1 : ¬ 2 ^ 31 ≤ (af &&& bz) ||| (bf &&& az) := by
    rw [le_or_iff 31 _ _ (by omega) (by omega)]; omega
  have f2 : ¬ 2 ^ 31 ≤ (af &&& not32 bf) ||| (bf &&& not32 (sub32 m' 1)) := by
    rw [le_or_iff 31 _ _ (by omega) (by omega)]; omega
  have f3 : ¬ 2 ^ 31 ≤ bz := by rw [c_bz]; omega
  rw [if_neg f1, if_neg f2, if_neg f3]
  omega

theorem prodBody_lt (C P : Nat) : prodBody C P < 2 ^ 15 := by
  unfold prodBody
  simp only
  split
  · norm_num
  · generalize (prodEM C P).1 = E
    generalize ((prodEM C P).2 + (prodEM C P).2 % 2 ^ 10) / 2 ^ 10 = S
    omega

theorem mulCore_eq (W : Wide) {s e m s' e' m' t as : Nat} (hs : s < 2) (he : e < 32) (hm : m < 2 ^ 10) (hs' : s' < 2)
    (he' : e' < 32) (hm' : m' < 2 ^ 10) (ht : t < 2) (a b : Nat)
    (ha : a = s * 2 ^ 15 + e * 2 ^ 10 + m) (hb : b = s' * 2 ^ 15 + e' * 2 ^ 10 + m') :
    mulCore W (t * 2 ^ 15) as a b =
      (shr W (((2 ^ 10 + m) * m' + (2 ^ 10 + m) * m' % 2 ^ 10) / 2 ^ 10) (sub32 15 e)) >>= fun d =>
      (shr W ((2 ^ 10 + m) * (2 ^ 10 + m')) (shl32 (sub32 0 (sub32 (e + e') 15)) 1)) >>= fun _ =>
        .ok (prodRes t e m e' m' d) := by
  have v_ae : a &&& 0x7c00 = e * 2 ^ 10 := by rw [ha]; exact expBits_eq hs he hm
  have v_be : b &&& 0x7c00 = e' * 2 ^ 10 := by rw [hb]; exact expBits_eq hs' he' hm'
  have v_am : a &&& 0x3ff = m := by rw [ha]; exact fracBits_eq hs he hm
  have v_bm : b &&& 0x3ff = m' := by rw [hb]; exact fracBits_eq hs' he' hm'
  have P1 : 2 ^ 20 ≤ (2 ^ 10 + m) * (2 ^ 10 + m') :=
    le_trans (by norm_num) (Nat.mul_le_mul (Nat.le_add_right (2 ^ 10) m) (Nat.le_add_right (2 ^ 10) m'))
  have P2 : (2 ^ 10 + m) * (2 ^ 10 + m') < 2 ^ 22 :=
    lt_of_le_of_lt (Nat.mul_le_mul (show 2 ^ 10 + m ≤ 2047 by omega) (show 2 ^ 10 + m' ≤ 2047 by omega)) (by norm_num)
  have D2 : (2 ^ 10 + m) * m' < 2 ^ 21 :=
    lt_of_le_of_lt (Nat.mul_le_mul (show 2 ^ 10 + m ≤ 2047 by omega) (show m' ≤ 1023 by omega)) (by norm_num)
  have mP : mul32 (2 ^ 10 + m) (2 ^ 10 + m') = (2 ^ 10 + m) * (2 ^ 10 + m') := Nat.mod_eq_of_lt (by omega)
  have mD : mul32 (2 ^ 10 + m) m' = (2 ^ 10 + m) * m' := Nat.mod_eq_of_lt (by omega)
  have e1 : (e * 2 ^ 10) >>> 10 = e := by rw [Nat.shiftRight_eq_div_pow]; omega
  have e2 : (e' * 2 ^ 10) >>> 10 = e' := by rw [Nat.shiftRight_eq_div_pow]; omega
  have e5 : add32 e e' = e + e' := by unfold add32; omega
  unfold mulCore prodRes
  simp only [v_ae, v_be, v_am, v_bm, or_hidden10 hm, or_hidden10 hm', mP, mD, e1, e2, e5]
  generalize (2 ^ 10 + m) * (2 ^ 10 + m') = P at *
  generalize (2 ^ 10 + m) * m' = D at *
  have e6 : add32 D (D &&& 0x3ff) >>> 10 = (D + D % 2 ^ 10) / 2 ^ 10 := by
    rw [and_frac, Nat.shiftRight_eq_div_pow, add32]; omega
  rw [e6]
  refine congrArg _ (funext fun d => ?_)
  have key : ∀ u, shr W P (shl32 (sub32 0 (sub32 (e + e') 15)) 1) = .ok u → (e + e' < 15 → u = P / 2 ^ (2 * (15 - (e + e')))) := by
    intro u hu hlt
    have : shl32 (sub32 0 (sub32 (e + e') 15)) 1 = 2 * (15 - (e + e')) := by
      simp only [shl32, sub32, Nat.shiftLeft_eq]; omega
    rw [this, shr, if_pos (by omega), Nat.shiftRight_eq_div_pow] at hu
    exact (Out.ok.inj hu).symm
  rcases hu : shr W P (shl32 (sub32 0 (sub32 (e + e') 15)) 1) with u | _ | _
  swap; · rfl
  swap; · rfl
  obtain ⟨h1, h2, q1, q2, q3⟩ := pack_eq W (show e + e' < 63 by omega) P1 P2 (key u hu)
  rw [Out.ok_bind, Out.ok_bind, q1, q2, Out.ok_bind, Out.ok_bind, q3, pickBits_eq ht he hm he' hm' (prodBody_lt _ _)]

end Verif.HalfM
