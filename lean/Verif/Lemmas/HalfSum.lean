import Verif.Lemmas.HalfAdd

/-! # `halfAdd` rounds to nearest -/

namespace Verif.HalfM

open HalfS

/-! ## The difference stage -/

/-- The normalising shift. -/
def nsh (d : Nat) : Nat := if d = 0 then 15 else 14 - Nat.log2 d

theorem nsh_spec {d : Nat} (h0 : d ≠ 0) (hd : d < 2 ^ 14) :
    1 ≤ nsh d ∧ nsh d ≤ 14 ∧ 2 ^ 14 ≤ d * 2 ^ nsh d ∧ d * 2 ^ nsh d < 2 ^ 15 := by
  have h1 : Nat.log2 d < 14 := (Nat.log2_lt h0).2 hd
  have h2 := Nat.log2_self_le h0
  have h3 : d < 2 ^ (Nat.log2 d + 1) := Nat.lt_log2_self
  unfold nsh
  rw [if_neg h0]
  refine ⟨by omega, by omega, ?_, ?_⟩
  · calc 2 ^ 14 = 2 ^ Nat.log2 d * 2 ^ (14 - Nat.log2 d) := by
          rw [← pow_add, show Nat.log2 d + (14 - Nat.log2 d) = 14 by omega]
      _ ≤ _ := Nat.mul_le_mul_right _ h2
  · calc d * 2 ^ (14 - Nat.log2 d) < 2 ^ (Nat.log2 d + 1) * 2 ^ (14 - Nat.log2 d) :=
          Nat.mul_lt_mul_of_pos_right h3 (Nat.two_pow_pos _)
      _ = 2 ^ 15 := by rw [← pow_add, show Nat.log2 d + 1 + (14 - Nat.log2 d) = 15 by omega]

theorem sub16_cntlz {d : Nat} (hd : d < 2 ^ 14) : sub16 (uint16Cntlz d) 1 = nsh d := by
  rw [cntlz16 hd]
  unfold nsh sub16
  by_cases h : d = 0
  · rw [if_pos h, if_pos h]
  · rw [if_neg h, if_neg h]
    have h1 : Nat.log2 d < 14 := (Nat.log2_lt h).2 hd
    omega

theorem diffBits_eq {ea d d1 d2 : Nat} (hea : ea < 32) (hd : d < 2 ^ 14) (h1 : d1 < 2 ^ 16) (h2 : d2 < 2 ^ 16) :
    diffBits ea d d1 d2 =
      if ea = 0 then (d, 0) else if ea < nsh d then (d1, 0) else (d2, ea - nsh d) := by
  have hn : nsh d ≤ 15 := by unfold nsh; split <;> omega
  unfold diffBits
  rw [sub16_cntlz hd]
  generalize nsh d = n at hn
  extract_lets sa isd nrm
  have hnrm : 2 ^ 15 ≤ nrm ↔ ea ≠ 0 := by simp only [nrm]; unfold sub16; omega
  have hisd : 2 ^ 15 ≤ isd ↔ ea < n := by simp only [isd, sa]; unfold sub16; omega
  rw [sels16, sels16, sels16]
  by_cases h0 : ea = 0
  · rw [if_neg (fun h => hnrm.1 h h0), if_neg (fun h => hnrm.1 h h0), if_pos h0]
    congr 1 <;> omega
  · rw [if_pos (hnrm.2 h0), if_pos (hnrm.2 h0), if_neg h0]
    unfold asr16
    by_cases hlt : ea < n
    · rw [if_pos (hisd.2 hlt), if_pos hlt, if_pos (hisd.2 hlt)]
      congr 1
      · omega
      · simp [not16]
    · rw [if_neg (fun h => hlt (hisd.1 h)), if_neg hlt, if_neg (fun h => hlt (hisd.1 h))]
      congr 1
      · omega
      · unfold not16 sub16
        rw [Nat.sub_zero, Nat.and_two_pow_sub_one_eq_mod]
        omega

/-! ## The whole function by fields -/

theorem shlV16_ok {W : Wide} {a k : Nat} (h : W ≠ none ∨ k < 32) :
    ∃ r, shlV16 W a k = .ok r ∧ r < 2 ^ 16 ∧ (k < 32 → r = a * 2 ^ k % 2 ^ 16) := by
  unfold shlV16
  by_cases hk : k < 32
  · rw [if_pos hk, Nat.shiftLeft_eq]
    exact ⟨_, rfl, Nat.mod_lt _ (by norm_num), fun _ => rfl⟩
  · rw [if_neg hk]
    cases W with
    | none => exact absurd rfl (h.resolve_right hk)
    | some w => exact ⟨_, rfl, Nat.mod_lt _ (by norm_num), fun h => absurd h hk⟩

theorem or_one (f : Nat) : f ||| 1 = 2 * (f / 2) + 1 := by
  have h1 : (f ||| 1) / 2 = f / 2 := by rw [Nat.or_div_two]; simp
  have h2 : (f ||| 1) % 2 = 1 := by rw [Nat.or_mod_two_eq_one]; right; rfl
  omega

theorem jam_eq (b k : Nat) : jam b k = if b % 2 ^ k = 0 then b / 2 ^ k else 2 * (b / 2 ^ k / 2) + 1 := by
  unfold jam
  split
  · simp
  · rw [or_one]

theorem jam_ge (b k u : Nat) : 2 * u ≤ jam b k ↔ 2 * u * 2 ^ k ≤ b := by
  have h0 : 0 < 2 ^ k := Nat.two_pow_pos k
  rw [← Nat.le_div_iff_mul_le h0, jam_eq]
  split <;> omega

theorem jam_le (b k u : Nat) : jam b k ≤ 2 * u ↔ b ≤ 2 * u * 2 ^ k := by
  have h0 : 0 < 2 ^ k := Nat.two_pow_pos k
  have hd := Nat.div_add_mod b (2 ^ k)
  have hm := Nat.mod_lt b h0
  rw [jam_eq]
  generalize hf : b / 2 ^ k = f at *
  generalize hr : b % 2 ^ k = r at *
  have key : b ≤ 2 * u * 2 ^ k ↔ (f < 2 * u ∨ (f = 2 * u ∧ r = 0)) := by
    constructor
    · intro h
      rcases Nat.lt_trichotomy f (2 * u) with h1 | h1 | h1
      · exact Or.inl h1
      · right; refine ⟨h1, ?_⟩; subst h1; rw [Nat.mul_comm] at hd; omega
      · exfalso
        have : (2 * u + 1) * 2 ^ k ≤ f * 2 ^ k := Nat.mul_le_mul_right _ h1
        rw [Nat.add_mul, Nat.one_mul] at this
        rw [Nat.mul_comm f] at this
        omega
    · rintro (h | ⟨rfl, rfl⟩)
      · have : (f + 1) * 2 ^ k ≤ 2 * u * 2 ^ k := Nat.mul_le_mul_right _ h
        rw [Nat.add_mul, Nat.one_mul, Nat.mul_comm f] at this
        omega
      · rw [Nat.mul_comm] at hd; omega
  rw [key]
  split <;> omega

theorem jam_lt {b k : Nat} (hb : b < 2 ^ 14) : jam b k < 2 ^ 14 := by
  have h0 : 0 < 2 ^ k := Nat.two_pow_pos k
  have := Nat.div_le_self b (2 ^ k)
  rw [jam_eq]; split <;> omega

/-- Exponent and significand bits of a difference of magnitude `d`. -/
def diffEm (ea d : Nat) : Nat :=
  if ea = 0 then finish ea d 0
  else if ea < nsh d then finish ea (d * 2 ^ (ea - 1) % 2 ^ 16) 0
  else finish ea (d * 2 ^ nsh d % 2 ^ 16) (ea - nsh d)

theorem finish_lt {ea c e : Nat} (hc : c < 2 ^ 15) (h : e + 2 < 31 ∨ (ea ≠ 0 ∧ e < 30) ∨ (ea ≠ 0 ∧ e ≤ 30 ∧ c < 2 ^ 15 - 8)) :
    finish ea c e < 2 ^ 15 := by
  unfold finish
  extract_lets c1 e1 e2 r e3
  have hc1 : c1 < 2 ^ 14 := by simp only [c1]; split <;> omega
  have he2 : ea ≠ 0 → e2 = e1 := by
    intro h; simp only [e2]; rw [if_neg (fun hx => h hx.1)]
  have he2' : e2 ≤ e1 + 1 := by simp only [e2]; split <;> omega
  have he3 : e3 ≤ 31 := by
    simp only [e3]
    by_cases hb : 2 ^ 14 ≤ c
    · have h1 : e1 = e + 1 := by simp only [e1]; rw [if_pos hb]
      have h2 : c1 = c / 2 := by simp only [c1]; rw [if_pos hb]
      have h3 : 2 ^ 14 ≤ r → 2 ^ 15 - 8 ≤ c := by simp only [r]; omega
      rcases h with h | h | h
      · split <;> omega
      · have := he2 h.1; split <;> omega
      · have := he2 h.1; split <;> omega
    · have h1 : e1 = e := by simp only [e1]; rw [if_neg hb]
      rcases h with h | h | h
      · split <;> omega
      · have := he2 h.1; split <;> omega
      · have := he2 h.1; split <;> omega
  have := Nat.mod_lt (r / 2 ^ 3) (by norm_num : 0 < 2 ^ 10)
  omega

theorem xor_sign {s s' : Nat} (hs : s < 2) (hs' : s' < 2) : s * 2 ^ 15 ^^^ s' * 2 ^ 15 = if s = s' then 0 else 2 ^ 15 := by
  have S : s = 0 ∨ s = 1 := by omega
  have S' : s' = 0 ∨ s' = 1 := by omega
  rcases S with rfl | rfl <;> rcases S' with rfl | rfl <;> decide

theorem ainf_zero {s e m : Nat} (hs : s < 2) (he : e < 31) (hm : m < 2 ^ 10) :
    sub16 0x7bff (expBits (s * 2 ^ 15 + e * 2 ^ 10 + m) ||| ((s * 2 ^ 15 + e * 2 ^ 10 + m) &&& 0x3ff)) < 2 ^ 15 := by
  rw [expBits_eq hs (by omega) hm, fracBits_eq hs (by omega) hm, or_add 10 hm]
  unfold sub16
  omega

section core
variable {s e m s' e' m' : Nat} (hs : s < 2) (he : e < 31) (hm : m < 2 ^ 10) (hs' : s' < 2) (hle : e' ≤ e) (hm' : m' < 2 ^ 10)
  {W : Wide} (hW : W ≠ none ∨ e ≠ 0)
include hs he hm hs' hle hm' hW

/-- The sum for finite operands with the larger exponent first. -/
theorem addCore_eq (A B : Nat) (hAd : 8 * sig e m = A) (hBd : jam (8 * sig e' m') (max e 1 - max e' 1) = B) :
    ∃ r, addCore W (s * 2 ^ 15 + e * 2 ^ 10 + m) (s' * 2 ^ 15 + e' * 2 ^ 10 + m') = .ok r ∧ r =
      (if s = s' then s * 2 ^ 15 + finish e (A + B) e
       else if A = B then 0
       else if B < A then s * 2 ^ 15 + diffEm e (A - B)
       else s' * 2 ^ 15 + diffEm e (B - A)) := by
  have he32 : e < 32 := by omega
  have he32' : e' < 32 := by omega
  have hA0 := sig_lt (e := e) hm
  have hB0 := sig_lt (e := e') hm'
  have shl3 : ∀ x, x < 2 ^ 11 → shl16 x 3 = 8 * x := by
    intro x hx; unfold shl16; rw [Nat.shiftLeft_eq]; omega
  unfold addCore
  rw [sigBits_eq hs' he32' hm', sigBits_eq hs he32 hm, saBits_eq hs he32 hm hs' he32' hm' hle, expBits_eq hs he32 hm,
    shl3 _ hA0, shl3 _ hB0]
  have hk : max e 1 - max e' 1 < 32 := by omega
  set k := max e 1 - max e' 1 with hkdef
  extract_lets b0 sa
  have hsh : shr W b0 sa = .ok (b0 >>> k) := by unfold shr; rw [if_pos hk]
  have hso : shlV16 W 1 sa = .ok ((1 <<< k) % 2 ^ 16) := by unfold shlV16; rw [if_pos hk]
  rw [hsh, Out.ok_bind, hso, Out.ok_bind]
  have hA : 8 * sig e m < 2 ^ 14 := by omega
  have hBjam : jamBits b0 (b0 >>> k) ((1 <<< k) % 2 ^ 16) = jam (8 * sig e' m') k := jamBits_eq (by omega) hk
  rw [hBjam]
  have hB : jam (8 * sig e' m') k < 2 ^ 14 := jam_lt (by omega)
  rw [hAd] at hA ⊢
  rw [hBd] at hB ⊢
  extract_lets bm dd
  have hdd : dd = if B < A then A - B else B - A := smagBits_eq (by omega) (by omega)
  have hdd14 : dd < 2 ^ 14 := by rw [hdd]; split <;> omega
  have hsa1 : sub16 ((e * 2 ^ 10) >>> 10) 1 = if e = 0 then 65535 else e - 1 := by
    rw [Nat.shiftRight_eq_div_pow]; unfold sub16; split <;> omega
  have hn15 : nsh dd ≤ 15 := by unfold nsh; split <;> omega
  obtain ⟨d1, hd1, hd1', hd1e⟩ := shlV16_ok (W := W) (a := dd) (k := sub16 ((e * 2 ^ 10) >>> 10) 1) (by
    rw [hsa1]
    rcases hW with h | h
    · exact Or.inl h
    · right; rw [if_neg h]; omega)
  obtain ⟨d2, hd2, hd2', hd2e⟩ := shlV16_ok (W := W) (a := dd) (k := sub16 (uint16Cntlz dd) 1) (by
    right; rw [sub16_cntlz hdd14]; omega)
  rw [hd1, Out.ok_bind, hd2, Out.ok_bind]
  refine ⟨_, rfl, ?_⟩
  rw [sub16_cntlz hdd14] at hd2e
  have hd2e := hd2e (by omega)
  -- the last stage
  unfold resultBits
  rw [sigBits_eq hs he32 hm, expBits_eq hs he32 hm, expBits_eq hs' he32' hm', signBits_eq hs he32 hm,
    signBits_eq hs' he32' hm', shl3 _ hA0, hAd, xor_sign hs hs', fracBits_eq hs he32 hm, fracBits_eq hs' he32' hm']
  extract_lets am eb sgn dd' df c ec em cs ainf binf z
  have hainf : ainf < 2 ^ 15 := by
    have := ainf_zero hs he hm
    rw [expBits_eq hs he32 hm, fracBits_eq hs he32 hm] at this
    exact this
  have hinv : ¬ 2 ^ 15 ≤ ainf &&& binf &&& s' * 2 ^ 15 := by
    have h1 : ainf &&& binf &&& s' * 2 ^ 15 ≤ ainf := le_trans Nat.and_le_left Nat.and_le_left
    omega
  have heb : eb = e := by simp only [eb]; rw [Nat.shiftRight_eq_div_pow]; omega
  have hdd' : dd' = dd := rfl
  have hdf : df = if e = 0 then (dd, 0) else if e < nsh dd then (d1, 0) else (d2, e - nsh dd) := by
    simp only [df]; rw [heb, hdd']; exact diffBits_eq he32 hdd14 hd1' hd2'
  rw [sels16 _ 0xfe00, if_neg hinv, sels16 ainf, if_neg (by omega)]
  by_cases hss : s = s'
  · have hsgn : sgn = 0 := by simp only [sgn]; rw [if_pos hss]
    have hc : c = A + B := by
      simp only [c]; rw [hsgn, sels16, if_neg (by norm_num)]; simp only [am]; unfold add16; omega
    have hec : ec = e := by
      simp only [ec]; rw [hsgn, sels16, if_neg (by norm_num), heb]; omega
    have hem : em = finish e (A + B) e := by
      simp only [em]; rw [hc, hec]; exact finishBits_eq he32 (by omega) he32
    have hcs : cs = s * 2 ^ 15 := by
      simp only [cs]; rw [hsgn, sels16, if_neg (by norm_num)]; omega
    have hz : z = 0 := by simp only [z]; rw [hsgn, Nat.zero_and]; rfl
    have hfin : finish e (A + B) e < 2 ^ 15 := by
      by_cases h0 : e = 0
      · exact finish_lt (by omega) (Or.inl (by omega))
      · refine finish_lt (by omega) (Or.inr (Or.inr ⟨h0, by omega, ?_⟩))
        have h1 : A ≤ 8 * 2047 := by omega
        have h2 : B ≤ 2 * (4 * 2047) := by
          rw [← hBd, jam_le]
          have : 0 < 2 ^ k := Nat.two_pow_pos k
          calc 8 * sig e' m' ≤ 2 * (4 * 2047) * 1 := by omega
            _ ≤ _ := Nat.mul_le_mul_left _ this
        omega
    rw [if_pos hss, hz, hem, hcs, or_add 15 hfin]
    unfold not16
    rw [Nat.sub_zero, Nat.and_two_pow_sub_one_eq_mod]
    omega
  · have hsgn : sgn = 2 ^ 15 := by simp only [sgn]; rw [if_neg hss]
    have hdf1 : df.1 < 2 ^ 16 := by rw [hdf]; split <;> [omega; (split <;> omega)]
    have hdf2 : df.2 < 31 := by rw [hdf]; split <;> [omega; (split <;> omega)]
    have hc : c = df.1 := by
      simp only [c]; rw [hsgn, sels16, if_pos (by norm_num)]; omega
    have hec : ec = df.2 := by
      simp only [ec]; rw [hsgn, sels16, if_pos (by norm_num)]; omega
    have hcs : cs = if B < A then s * 2 ^ 15 else s' * 2 ^ 15 := by
      simp only [cs]; rw [hsgn, sels16, if_pos (by norm_num)]
      unfold signDiffBits
      rw [sels16, signBits_eq hs he32 hm, signBits_eq hs' he32' hm']
      simp only [am]
      unfold sub16
      by_cases h : B < A
      · rw [if_pos (by omega), if_pos h]; omega
      · rw [if_neg (by omega), if_neg h]; omega
    have hd1e : e ≠ 0 → d1 = dd * 2 ^ (e - 1) % 2 ^ 16 := by
      intro h
      rw [hsa1, if_neg h] at hd1e
      exact hd1e (by omega)
    by_cases hAB : A = B
    · have hz0 : dd = 0 := by rw [hdd]; split <;> omega
      have hd10 : e ≠ 0 → d1 = 0 := by
        intro h; rw [hd1e h, hz0, Nat.zero_mul]; rfl
      have hdf0 : df.1 = 0 := by
        rw [hdf]
        split
        · exact hz0
        · rename_i h
          split
          · exact hd10 h
          · show d2 = 0
            rw [hd2e, hz0, Nat.zero_mul]; rfl
      have hz : z = 2 ^ 16 - 1 := by
        simp only [z]; rw [hsgn, hdf0]; decide
      rw [if_neg hss, if_pos hAB, hz]
      unfold not16
      simp
    · have hne : dd ≠ 0 := by rw [hdd]; split <;> omega
      obtain ⟨n1, n2, n3, n4⟩ := nsh_spec hne hdd14
      have hlow : e ≠ 0 → e < nsh dd → 0 < dd * 2 ^ (e - 1) ∧ dd * 2 ^ (e - 1) < 2 ^ 13 := by
        intro h0 h1
        refine ⟨Nat.mul_pos (Nat.pos_of_ne_zero hne) (Nat.two_pow_pos _), ?_⟩
        have h2 : 2 ^ (e - 1) * 2 ^ 2 ≤ 2 ^ nsh dd := by
          rw [← pow_add]; exact Nat.pow_le_pow_right (by norm_num) (by omega)
        have h3 : dd * (2 ^ (e - 1) * 2 ^ 2) ≤ dd * 2 ^ nsh dd := Nat.mul_le_mul_left _ h2
        rw [← Nat.mul_assoc] at h3
        omega
      have hem0 : df.1 ≠ 0 ∧ df.1 < 2 ^ 15 ∧ finish e df.1 df.2 = diffEm e dd := by
        unfold diffEm
        rw [hdf]
        by_cases h0 : e = 0
        · rw [if_pos h0, if_pos h0]; exact ⟨hne, by omega, rfl⟩
        · rw [if_neg h0, if_neg h0]
          by_cases h1 : e < nsh dd
          · rw [if_pos h1, if_pos h1, ← hd1e h0]
            have := hlow h0 h1
            have := hd1e h0
            exact ⟨by show d1 ≠ 0; omega, by show d1 < 2 ^ 15; omega, rfl⟩
          · rw [if_neg h1, if_neg h1, ← hd2e]
            exact ⟨by show d2 ≠ 0; omega, by show d2 < 2 ^ 15; omega, rfl⟩
      obtain ⟨hne1, hlt1, hfe⟩ := hem0
      have hem : em = diffEm e dd := by
        simp only [em]; rw [hc, hec, ← hfe]; exact finishBits_eq he32 hlt1 (by omega)
      have hz : z = 0 := by
        simp only [z]; rw [hsgn]
        have h1 : sub16 df.1 1 < 2 ^ 15 := by unfold sub16; omega
        have h2 : 2 ^ 15 &&& sub16 df.1 1 ≤ sub16 df.1 1 := Nat.and_le_right
        unfold asr16
        rw [if_neg (by omega)]
      have hfin : diffEm e dd < 2 ^ 15 := by
        rw [← hfe]
        by_cases h0 : e = 0
        · refine finish_lt hlt1 (Or.inl ?_)
          rw [hdf, if_pos h0]; norm_num
        · refine finish_lt hlt1 (Or.inr (Or.inl ⟨h0, ?_⟩))
          rw [hdf, if_neg h0]
          split
          · norm_num
          · show e - nsh dd < 30; omega
      rw [if_neg hss, if_neg hAB, hz, hem, hcs]
      unfold not16
      rw [Nat.sub_zero, Nat.and_two_pow_sub_one_eq_mod]
      by_cases h : B < A
      · rw [if_pos h] at hdd
        rw [if_pos h, if_pos h, ← hdd, or_add 15 hfin]; omega
      · rw [if_neg h] at hdd
        rw [if_neg h, if_neg h, ← hdd, or_add 15 hfin]; omega

end core

end Verif.HalfM
