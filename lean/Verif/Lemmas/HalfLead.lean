import Verif.Lemmas.Half

/-! # Leading zeros of 16-bit words -/

namespace Verif.HalfM

theorem cntlz16_full_table : allBits (fun x => decide (uint16Cntlz x = if x = 0 then 16 else 15 - Nat.log2 x)) 16 0 = true := by
  decide +kernel

theorem cntlz16_full {x : Nat} (hx : x < 2 ^ 16) : uint16Cntlz x = if x = 0 then 16 else 15 - Nat.log2 x := by
  have := allBits_spec cntlz16_full_table x hx
  simpa using this

/-- The count is `n` for numbers of `16 - n` bits. -/
theorem cntlz16_of {x n : Nat} (hn : n ≤ 15) (h1 : 2 ^ (15 - n) ≤ x) (h2 : x < 2 ^ (16 - n)) : uint16Cntlz x = n := by
  have h3 : x < 2 ^ 16 := lt_of_lt_of_le h2 (Nat.pow_le_pow_right (by norm_num) (by omega))
  have h0 : x ≠ 0 := by have := Nat.two_pow_pos (15 - n); omega
  rw [cntlz16_full h3, if_neg h0]
  have : Nat.log2 x = 15 - n := by
    rw [Nat.log2_eq_iff h0]
    refine ⟨h1, ?_⟩
    rwa [show 15 - n + 1 = 16 - n by omega]
  omega

theorem cntlz16_le {x : Nat} (hx : x < 2 ^ 16) : uint16Cntlz x ≤ 16 := by
  rw [cntlz16_full hx]
  split <;> omega

end Verif.HalfM
