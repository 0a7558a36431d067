import Verif.Basic

/-!
# The class `half` (`math/half.hpp`)

Words are natural numbers below `2 ^ 16` or `2 ^ 32`, and each operator of the C++ code is the operation below of the
width it is done in.
Constants are written in place.

A shift by 32 or more is undefined behaviour in C++.
The functions take the platform's behaviour for it as an argument `W`: with `none` such a shift is `ub`, with `some w` it
yields `w x k` for the operand `x` and the count `k`.
The conversions are free of branches, so they execute shifts whose result they then discard.

The branches for `LIBRAPID_GNU_CXX` (lines 59-63 and 97-100) are not modelled, since nothing defines that macro.
`str` (637-640), division (594-597, which divides two `float`s) and the conversions of other types through `float`
(553-560, 574-577) are not modelled.
-/

namespace Verif.HalfM

/-- Unsigned 32-bit operators. -/
def add32 (a b : Nat) : Nat := (a + b) % 2 ^ 32
/-- subtraction. Unsigned arithmetic of C++, for math/half.hpp 30-660. -/
def sub32 (a b : Nat) : Nat := (a + 2 ^ 32 - b) % 2 ^ 32
/-- multiplication. Unsigned arithmetic of C++, for math/half.hpp 30-660. -/
def mul32 (a b : Nat) : Nat := (a * b) % 2 ^ 32
/-- complement. Unsigned arithmetic of C++, for math/half.hpp 30-660. -/
def not32 (a : Nat) : Nat := 2 ^ 32 - 1 - a
/-- left shift by a constant. Unsigned arithmetic of C++, for math/half.hpp 30-660. -/
def shl32 (a k : Nat) : Nat := (a <<< k) % 2 ^ 32
/-- `((std::int32_t) a) >> 31` -/
def asr32 (a : Nat) : Nat := if 2 ^ 31 ≤ a then 2 ^ 32 - 1 else 0

/-- The same on `uint16_t`: the operands are promoted to `int`, the result is stored in 16 bits. -/
def add16 (a b : Nat) : Nat := (a + b) % 2 ^ 16
/-- subtraction. Unsigned arithmetic of C++, for math/half.hpp 30-660. -/
def sub16 (a b : Nat) : Nat := (a + 2 ^ 16 - b) % 2 ^ 16
/-- complement. Unsigned arithmetic of C++, for math/half.hpp 30-660. -/
def not16 (a : Nat) : Nat := 2 ^ 16 - 1 - a
/-- left shift by a constant. Unsigned arithmetic of C++, for math/half.hpp 30-660. -/
def shl16 (a k : Nat) : Nat := (a <<< k) % 2 ^ 16
/-- `((int16_t) a) >> 15` -/
def asr16 (a : Nat) : Nat := if 2 ^ 15 ≤ a then 2 ^ 16 - 1 else 0

/-- Behaviour of a shift by 32 or more. -/
abbrev Wide := Option (Nat → Nat → Nat)

/-- The value of such a shift. Unsigned arithmetic of C++, for math/half.hpp 30-660. -/
def wide (W : Wide) (a k : Nat) : Out Nat :=
  match W with
  | none => .ub
  | some w => .ok (w a k % 2 ^ 32)

/-- Right shift by a computed count. Unsigned arithmetic of C++, for math/half.hpp 30-660. -/
def shr (W : Wide) (a k : Nat) : Out Nat := if k < 32 then .ok (a >>> k) else wide W a k
/-- Left shift by a computed count, 32 bits. -/
def shlV32 (W : Wide) (a k : Nat) : Out Nat := if k < 32 then .ok ((a <<< k) % 2 ^ 32) else wide W a k
/-- Left shift by a computed count, stored in 16 bits. -/
def shlV16 (W : Wide) (a k : Nat) : Out Nat :=
  if k < 32 then .ok ((a <<< k) % 2 ^ 16) else (wide W a k).bind fun r => .ok (r % 2 ^ 16)

/-- An x86 processor uses the low five bits of the count. -/
def x86 : Wide := some fun a k => a >>> (k % 32)

/-- `uint32Sels`, half.hpp 31-38 -/
def uint32Sels (test a b : Nat) : Nat :=
  let mask := asr32 test
  let sel_a := a &&& mask
  let sel_b := b &&& not32 mask
  sel_a ||| sel_b

/-- `uint32Selb`, lines 40-46 -/
def uint32Selb (mask a b : Nat) : Nat :=
  let sel_a := a &&& mask
  let sel_b := b &&& not32 mask
  sel_a ||| sel_b

/-- `uint16Sels`, lines 48-55 -/
def uint16Sels (test a b : Nat) : Nat :=
  let mask := asr16 test
  let sel_a := a &&& mask
  let sel_b := b &&& not16 mask
  sel_a ||| sel_b

/-- `uint32Cntlz`, lines 57-93: the number of leading zeros -/
def uint32Cntlz (x : Nat) : Nat :=
  let x0 := x >>> 1
  let x1 := x ||| x0
  let x2 := x1 >>> 2
  let x3 := x1 ||| x2
  let x4 := x3 >>> 4
  let x5 := x3 ||| x4
  let x6 := x5 >>> 8
  let x7 := x5 ||| x6
  let x8 := x7 >>> 16
  let x9 := x7 ||| x8
  let xA := not32 x9
  let xB := xA >>> 1
  let xC := xB &&& 0x55555555
  let xD := sub32 xA xC
  let xE := xD &&& 0x33333333
  let xF := xD >>> 2
  let x10 := xF &&& 0x33333333
  let x11 := add32 xE x10
  let x12 := x11 >>> 4
  let x13 := add32 x11 x12
  let x14 := x13 &&& 0x0f0f0f0f
  let x15 := x14 >>> 8
  let x16 := add32 x14 x15
  let x17 := x16 >>> 16
  let x18 := add32 x16 x17
  let x19 := x18 &&& 0x0000003f
  x19

/-- `uint16Cntlz`, lines 95-122 -/
def uint16Cntlz (x : Nat) : Nat :=
  let x0 := x >>> 1
  let x1 := x ||| x0
  let x2 := x1 >>> 2
  let x3 := x1 ||| x2
  let x4 := x3 >>> 4
  let x5 := x3 ||| x4
  let x6 := x5 >>> 8
  let x7 := x5 ||| x6
  let x8 := not16 x7
  let x9 := (x8 >>> 1) &&& 0x5555
  let xA := sub16 x8 x9
  let xB := xA &&& 0x3333
  let xC := (xA >>> 2) &&& 0x3333
  let xD := add16 xB xC
  let xE := xD >>> 4
  let xF := (add16 xD xE) &&& 0x0f0f
  let x10 := xF >>> 8
  let x11 := (add16 xF x10) &&& 0x001f
  x11

/-- `floatToHalf`, lines 124-191 -/
def floatToHalf (W : Wide) (f : Nat) : Out Nat := do
  let f_s := f &&& 0x80000000
  let f_e := f &&& 0x7f800000
  let h_s := (f_s >>> 16) % 2 ^ 16
  let f_m := f &&& 0x7fffff
  let f_e_amount := (f_e >>> 23) % 2 ^ 16
  let f_e_half_bias := sub32 f_e_amount 0x70
  let f_snan := f &&& 0x7fc00000
  let f_m_round_mask := f_m &&& 0x1000
  let f_m_round_offset := shl32 f_m_round_mask 1
  let f_m_rounded := add32 f_m f_m_round_offset
  let f_m_denorm_sa := sub32 1 f_e_half_bias
  let f_m_with_hidden := f_m_rounded ||| 0x800000
  let f_m_denorm ← shr W f_m_with_hidden f_m_denorm_sa
  let h_m_denorm := f_m_denorm >>> 13
  let f_m_rounded_overflow := f_m_rounded &&& 0x800000
  let m_nan := f_m >>> 13
  let h_em_nan := 0x7c00 ||| m_nan
  let h_e_norm_overflow_offset := add32 f_e_half_bias 1
  let h_e_norm_overflow := shl32 h_e_norm_overflow_offset 10
  let h_e_norm := shl32 f_e_half_bias 10
  let h_m_norm := f_m_rounded >>> 13
  let h_em_norm := h_e_norm ||| h_m_norm
  let is_h_ndenorm_msb := sub32 0x70 f_e_amount
  let is_f_e_flagged_msb := sub32 0x8f f_e_half_bias
  let is_h_denorm_msb := not32 is_h_ndenorm_msb
  let is_f_m_eqz_msb := sub32 f_m 1
  let is_h_nan_eqz_msb := sub32 m_nan 1
  let is_f_inf_msb := is_f_e_flagged_msb &&& is_f_m_eqz_msb
  let is_f_nan_underflow_msb := is_f_e_flagged_msb &&& is_h_nan_eqz_msb
  let is_e_overflow_msb := sub32 31 f_e_half_bias
  let is_h_inf_msb := is_e_overflow_msb ||| is_f_inf_msb
  let is_f_nsnan_msb := sub32 f_snan 0x7fc00000
  let is_m_norm_overflow_msb := sub32 0 f_m_rounded_overflow
  let is_f_snan_msb := not32 is_f_nsnan_msb
  let h_em_overflow_result := uint32Sels is_m_norm_overflow_msb h_e_norm_overflow h_em_norm
  let h_em_nan_result := uint32Sels is_f_e_flagged_msb h_em_nan h_em_overflow_result
  let h_em_nan_underflow_result := uint32Sels is_f_nan_underflow_msb 0x7c01 h_em_nan_result
  let h_em_inf_result := uint32Sels is_h_inf_msb 0x7c00 h_em_nan_underflow_result
  let h_em_denorm_result := uint32Sels is_h_denorm_msb h_m_denorm h_em_inf_result
  let h_em_snan_result := uint32Sels is_f_snan_msb 0x7e00 h_em_denorm_result
  let h_result := h_s ||| h_em_snan_result
  .ok (h_result % 2 ^ 16)

/-- `halfToFloat`, lines 193-237 -/
def halfToFloat (W : Wide) (h : Nat) : Out Nat := do
  let h_e := h &&& 0x7c00
  let h_m := h &&& 0x3ff
  let h_s := h &&& 0x8000
  let h_e_f_bias := add32 h_e 0x1c000
  let h_m_nlz := uint32Cntlz h_m
  let f_s := shl32 h_s 16
  let f_e := shl32 h_e_f_bias 13
  let f_m := shl32 h_m 13
  let f_em := f_e ||| f_m
  let h_f_m_sa := sub32 h_m_nlz 8
  let f_e_denorm_unpacked := sub32 0x7e h_f_m_sa
  let h_f_m ← shlV32 W h_m h_f_m_sa
  let f_m_denorm := h_f_m &&& 0x7fffff
  let f_e_denorm := shl32 f_e_denorm_unpacked 23
  let f_em_denorm := f_e_denorm ||| f_m_denorm
  let f_em_nan := 0x7f800000 ||| f_m
  let is_e_eqz_msb := sub32 h_e 1
  let is_m_nez_msb := sub32 0 h_m
  let is_e_flagged_msb := sub32 0x7bff h_e
  let is_zero_msb := is_e_eqz_msb &&& (not32 is_m_nez_msb)
  let is_inf_msb := is_e_flagged_msb &&& (not32 is_m_nez_msb)
  let is_denorm_msb := is_m_nez_msb &&& is_e_eqz_msb
  let is_nan_msb := is_e_flagged_msb &&& is_m_nez_msb
  let is_zero := asr32 is_zero_msb
  let f_zero_result := f_em &&& (not32 is_zero)
  let f_denorm_result := uint32Sels is_denorm_msb f_em_denorm f_zero_result
  let f_inf_result := uint32Sels is_inf_msb 0x7f800000 f_denorm_result
  let f_nan_result := uint32Sels is_nan_msb f_em_nan f_inf_result
  let f_result := f_s ||| f_nan_result
  .ok (f_result)

/-- `halfAdd`, lines 239-353 -/
def halfAdd (W : Wide) (x y : Nat) : Out Nat := do
  let h_grs_round_carry := shl16 1 3
  let h_grs_round_mask := sub16 h_grs_round_carry 1
  let x_e := x &&& 0x7c00
  let y_e := y &&& 0x7c00
  let is_y_e_larger_msb := sub16 x_e y_e
  let a := uint16Sels is_y_e_larger_msb y x
  let a_s := a &&& 0x8000
  let a_e := a &&& 0x7c00
  let a_m_no_hidden_bit := a &&& 0x3ff
  let a_em_no_hidden_bit := a_e ||| a_m_no_hidden_bit
  let b := uint16Sels is_y_e_larger_msb x y
  let b_s := b &&& 0x8000
  let b_e := b &&& 0x7c00
  let b_m_no_hidden_bit := b &&& 0x3ff
  let b_em_no_hidden_bit := b_e ||| b_m_no_hidden_bit
  let is_diff_sign_msb := a_s ^^^ b_s
  let is_a_inf_msb := sub16 0x7bff a_em_no_hidden_bit
  let is_b_inf_msb := sub16 0x7bff b_em_no_hidden_bit
  let is_undenorm_msb := sub16 a_e 1
  let is_undenorm := asr16 is_undenorm_msb
  let is_both_inf_msb := is_a_inf_msb &&& is_b_inf_msb
  let is_invalid_inf_op_msb := is_both_inf_msb &&& b_s
  let is_a_e_nez_msb := sub16 0 a_e
  let is_b_e_nez_msb := sub16 0 b_e
  let is_a_e_nez := asr16 is_a_e_nez_msb
  let is_b_e_nez := asr16 is_b_e_nez_msb
  let a_m_hidden_bit := is_a_e_nez &&& 0x400
  let b_m_hidden_bit := is_b_e_nez &&& 0x400
  let a_m_no_grs := a_m_no_hidden_bit ||| a_m_hidden_bit
  let b_m_no_grs := b_m_no_hidden_bit ||| b_m_hidden_bit
  let diff_e := sub16 a_e b_e
  let a_e_unbias := sub16 a_e 14
  let a_m := shl16 a_m_no_grs 3
  let a_e_biased := a_e >>> 10
  let m_sa_unbias := a_e_unbias >>> 10
  let m_sa_default := diff_e >>> 10
  let m_sa_unbias_mask := is_a_e_nez_msb &&& (not16 is_b_e_nez_msb)
  let m_sa := uint16Sels m_sa_unbias_mask m_sa_unbias m_sa_default
  let b_m_no_sticky := shl16 b_m_no_grs 3
  let sh_m ← shr W b_m_no_sticky m_sa
  let sticky_overflow ← shlV16 W 1 m_sa
  let sticky_mask := sub16 sticky_overflow 1
  let sticky_collect := b_m_no_sticky &&& sticky_mask
  let is_sticky_set_msb := sub16 0 sticky_collect
  let sticky := is_sticky_set_msb >>> 15
  let b_m := sh_m ||| sticky
  let is_c_m_ab_pos_msb := sub16 b_m a_m
  let c_inf := a_s ||| 0x7c00
  let c_m_sum := add16 a_m b_m
  let c_m_diff_ab := sub16 a_m b_m
  let c_m_diff_ba := sub16 b_m a_m
  let c_m_smag_diff := uint16Sels is_c_m_ab_pos_msb c_m_diff_ab c_m_diff_ba
  let c_s_diff := uint16Sels is_c_m_ab_pos_msb a_s b_s
  let c_s := uint16Sels is_diff_sign_msb c_s_diff a_s
  let c_m_smag_diff_nlz := uint16Cntlz c_m_smag_diff
  let diff_norm_sa := sub16 c_m_smag_diff_nlz 1
  let is_diff_denorm_msb := sub16 a_e_biased diff_norm_sa
  let is_diff_denorm := asr16 is_diff_denorm_msb
  let is_a_or_b_norm_msb := sub16 0 a_e_biased
  let diff_denorm_sa := sub16 a_e_biased 1
  let c_m_diff_denorm ← shlV16 W c_m_smag_diff diff_denorm_sa
  let c_m_diff_norm ← shlV16 W c_m_smag_diff diff_norm_sa
  let c_e_diff_norm := sub16 a_e_biased diff_norm_sa
  let c_m_diff_ab_norm := uint16Sels is_diff_denorm_msb c_m_diff_denorm c_m_diff_norm
  let c_e_diff_ab_norm := c_e_diff_norm &&& (not16 is_diff_denorm)
  let c_m_diff := uint16Sels is_a_or_b_norm_msb c_m_diff_ab_norm c_m_smag_diff
  let c_e_diff := uint16Sels is_a_or_b_norm_msb c_e_diff_ab_norm a_e_biased
  let is_diff_eqz_msb := sub16 c_m_diff 1
  let is_diff_exactly_zero_msb := is_diff_sign_msb &&& is_diff_eqz_msb
  let is_diff_exactly_zero := asr16 is_diff_exactly_zero_msb
  let c_m_added := uint16Sels is_diff_sign_msb c_m_diff c_m_sum
  let c_e_added := uint16Sels is_diff_sign_msb c_e_diff a_e_biased
  let c_m_carry := c_m_added &&& 0x4000
  let is_c_m_carry_msb := sub16 0 c_m_carry
  let c_e_hidden_offset := (c_m_added &&& 0x4000) >>> 14
  let c_m_sub_hidden := c_m_added >>> 1
  let c_m_no_hidden := uint16Sels is_c_m_carry_msb c_m_sub_hidden c_m_added
  let c_e_no_hidden := add16 c_e_added c_e_hidden_offset
  let c_m_no_hidden_msb := c_m_no_hidden &&& 0x2000
  let undenorm_m_msb_odd := c_m_no_hidden_msb >>> 13
  let undenorm_fix_e := is_undenorm &&& undenorm_m_msb_odd
  let c_e_fixed := add16 c_e_no_hidden undenorm_fix_e
  let c_m_round_amount := c_m_no_hidden &&& h_grs_round_mask
  let c_m_rounded := add16 c_m_no_hidden c_m_round_amount
  let c_m_round_overflow := (c_m_rounded &&& 0x4000) >>> 14
  let c_e_rounded := add16 c_e_fixed c_m_round_overflow
  let c_m_no_grs := (c_m_rounded >>> 3) &&& 0x3ff
  let c_e := shl16 c_e_rounded 10
  let c_em := c_e ||| c_m_no_grs
  let c_normal := c_s ||| c_em
  let c_inf_result := uint16Sels is_a_inf_msb c_inf c_normal
  let c_zero_result := c_inf_result &&& (not16 is_diff_exactly_zero)
  let c_result := uint16Sels is_invalid_inf_op_msb 0xfe00 c_zero_result
  .ok (c_result)

/-- `halfMul`, lines 355-470 -/
def halfMul (W : Wide) (x y : Nat) : Out Nat := do
  let a_s := x &&& 0x8000
  let b_s := y &&& 0x8000
  let c_s := a_s ^^^ b_s
  let x_e := x &&& 0x7c00
  let x_e_eqz_msb := sub32 x_e 1
  let a := uint32Sels x_e_eqz_msb y x
  let b := uint32Sels x_e_eqz_msb x y
  let a_e := a &&& 0x7c00
  let b_e := b &&& 0x7c00
  let a_m := a &&& 0x3ff
  let b_m := b &&& 0x3ff
  let a_e_amount := a_e >>> 10
  let b_e_amount := b_e >>> 10
  let a_m_with_hidden := a_m ||| 0x400
  let b_m_with_hidden := b_m ||| 0x400
  let c_m_normal := mul32 a_m_with_hidden b_m_with_hidden
  let c_m_denorm_biased := mul32 a_m_with_hidden b_m
  let c_e_denorm_unbias_e := sub32 15 a_e_amount
  let c_m_denorm_round_amount := c_m_denorm_biased &&& 0x3ff
  let c_m_denorm_rounded := add32 c_m_denorm_biased c_m_denorm_round_amount
  let c_m_denorm_inplace := c_m_denorm_rounded >>> 10
  let c_m_denorm_unbiased ← shr W c_m_denorm_inplace c_e_denorm_unbias_e
  let c_m_denorm := c_m_denorm_unbiased &&& 0x3ff
  let c_e_amount_biased := add32 a_e_amount b_e_amount
  let c_e_amount_unbiased := sub32 c_e_amount_biased 15
  let is_c_e_unbiased_underflow := asr32 c_e_amount_unbiased
  let c_e_underflow_half_sa := sub32 0 c_e_amount_unbiased
  let c_e_underflow_sa := shl32 c_e_underflow_half_sa 1
  let c_m_underflow ← shr W c_m_normal c_e_underflow_sa
  let c_e_underflow_added := c_e_amount_unbiased &&& (not32 is_c_e_unbiased_underflow)
  let c_m_underflow_added := uint32Selb is_c_e_unbiased_underflow c_m_underflow c_m_normal
  let is_mul_overflow_test := c_e_underflow_added &&& 32
  let is_mul_overflow_msb := sub32 0 is_mul_overflow_test
  let c_e_norm_radix_corrected := add32 c_e_underflow_added 1
  let c_m_norm_radix_corrected := c_m_underflow_added >>> 1
  let c_m_norm_hidden_bit := c_m_norm_radix_corrected &&& 0x100000
  let is_c_m_norm_no_hidden_msb := sub32 c_m_norm_hidden_bit 1
  let c_m_norm_lo := c_m_norm_radix_corrected >>> 5
  let c_m_norm_lo_nlz := uint16Cntlz (c_m_norm_lo % 2 ^ 16)
  let is_c_m_hidden_nunderflow_msb := sub32 c_m_norm_lo_nlz c_e_norm_radix_corrected
  let is_c_m_hidden_underflow_msb := not32 is_c_m_hidden_nunderflow_msb
  let is_c_m_hidden_underflow := asr32 is_c_m_hidden_underflow_msb
  let c_m_hidden_underflow_normalized_sa := c_m_norm_lo_nlz >>> 1
  let c_m_hidden_underflow_normalized ← shlV32 W c_m_norm_radix_corrected c_m_hidden_underflow_normalized_sa
  let c_m_hidden_normalized ← shlV32 W c_m_norm_radix_corrected c_m_norm_lo_nlz
  let c_e_hidden_normalized := sub32 c_e_norm_radix_corrected c_m_norm_lo_nlz
  let c_e_hidden := c_e_hidden_normalized &&& (not32 is_c_m_hidden_underflow)
  let c_m_hidden := uint32Sels is_c_m_hidden_underflow_msb c_m_hidden_underflow_normalized c_m_hidden_normalized
  let c_m_normalized := uint32Sels is_c_m_norm_no_hidden_msb c_m_hidden c_m_norm_radix_corrected
  let c_e_normalized := uint32Sels is_c_m_norm_no_hidden_msb c_e_hidden c_e_norm_radix_corrected
  let c_m_norm_round_amount := c_m_normalized &&& 0x3ff
  let c_m_norm_rounded := add32 c_m_normalized c_m_norm_round_amount
  let is_round_overflow_test := c_e_normalized &&& 32
  let is_round_overflow_msb := sub32 0 is_round_overflow_test
  let c_m_norm_inplace := c_m_norm_rounded >>> 10
  let c_m := c_m_norm_inplace &&& 0x3ff
  let c_e_norm_inplace := shl32 c_e_normalized 10
  let c_e := c_e_norm_inplace &&& 0x7c00
  let c_em_nan := 0x7c00 ||| a_m
  let c_nan := a_s ||| c_em_nan
  let c_denorm := c_s ||| c_m_denorm
  let c_inf := c_s ||| 0x7c00
  let c_em_norm := c_e ||| c_m
  let is_a_e_flagged_msb := sub32 0x7bff a_e
  let is_b_e_flagged_msb := sub32 0x7bff b_e
  let is_a_e_eqz_msb := sub32 a_e 1
  let is_a_m_eqz_msb := sub32 a_m 1
  let is_b_e_eqz_msb := sub32 b_e 1
  let is_b_m_eqz_msb := sub32 b_m 1
  let is_b_eqz_msb := is_b_e_eqz_msb &&& is_b_m_eqz_msb
  let is_a_eqz_msb := is_a_e_eqz_msb &&& is_a_m_eqz_msb
  let is_c_nan_via_a_msb := is_a_e_flagged_msb &&& (not32 is_b_e_flagged_msb)
  let is_c_nan_via_b_msb := is_b_e_flagged_msb &&& (not32 is_b_m_eqz_msb)
  let is_c_nan_msb := is_c_nan_via_a_msb ||| is_c_nan_via_b_msb
  let is_c_denorm_msb := is_b_e_eqz_msb &&& (not32 is_a_e_flagged_msb)
  let is_a_inf_msb := is_a_e_flagged_msb &&& is_a_m_eqz_msb
  let is_c_snan_msb := is_a_inf_msb &&& is_b_eqz_msb
  let is_c_nan_min_via_a_msb := is_a_e_flagged_msb &&& is_b_eqz_msb
  let is_c_nan_min_via_b_msb := is_b_e_flagged_msb &&& is_a_eqz_msb
  let is_c_nan_min_msb := is_c_nan_min_via_a_msb ||| is_c_nan_min_via_b_msb
  let is_c_inf_msb := is_a_e_flagged_msb ||| is_b_e_flagged_msb
  let is_overflow_msb := is_round_overflow_msb ||| is_mul_overflow_msb
  let c_em_overflow_result := uint32Sels is_overflow_msb 0x7c00 c_em_norm
  let c_common_result := c_s ||| c_em_overflow_result
  let c_zero_result := uint32Sels is_b_eqz_msb c_s c_common_result
  let c_nan_result := uint32Sels is_c_nan_msb c_nan c_zero_result
  let c_nan_min_result := uint32Sels is_c_nan_min_msb 0x7c01 c_nan_result
  let c_inf_result := uint32Sels is_c_inf_msb c_inf c_nan_min_result
  let c_denorm_result := uint32Sels is_c_denorm_msb c_denorm c_inf_result
  let c_result := uint32Sels is_c_snan_msb 0xfe00 c_denorm_result
  .ok (c_result % 2 ^ 16)

/-- `halfNeg`, line 472 -/
def halfNeg (h : Nat) : Nat := h ^^^ 0x8000

/-- `halfSub`, lines 474-476 -/
def halfSub (W : Wide) (ha hb : Nat) : Out Nat := halfAdd W ha (halfNeg hb)

/-! ## The class

An object is its 16 bits; a member function that changes the object returns the new bits and the returned bits. -/

/-- `operator++()`, lines 610-613, through `operator+=` (579-582) -/
def preInc (W : Wide) (h : Nat) : Out (Nat × Nat) := do
  let h ← halfAdd W h 0x3c00
  .ok (h, h)

/-- `operator++(int)`, lines 615-619 -/
def postInc (W : Wide) (h : Nat) : Out (Nat × Nat) := do
  let tmp ← halfAdd W h 0x3c00
  .ok (h, tmp)

/-- `operator--()`, lines 599-602, through `operator-=` (584-587) -/
def preDec (W : Wide) (h : Nat) : Out (Nat × Nat) := do
  let h ← halfSub W h 0x3c00
  .ok (h, h)

/-- `operator--(int)`, lines 604-608 -/
def postDec (W : Wide) (h : Nat) : Out (Nat × Nat) := do
  let tmp ← halfSub W h 0x3c00
  .ok (h, tmp)

/-- `operator/=`, lines 594-597: both operands are converted to `float` (`operator float`, 568-572), divided there by the processor
(`fdiv`, on the bit patterns), and the quotient is converted back (`operator=(T)`, 556-560, and `half(float)`, 547-551).
`operator/`, lines 663-668, does this to a copy. -/
def halfDiv (W : Wide) (fdiv : Nat → Nat → Nat) (x y : Nat) : Out Nat := do
  let a ← halfToFloat W x
  let b ← halfToFloat W y
  floatToHalf W (fdiv a b)

/-- `half(T d)`, lines 553-554, for a number `d` of a type `T` other than `float`: `d` is converted to `float` by the processor (`fcast`)
and from there by `half(float)`, lines 547-551. `operator=(T)`, lines 556-560, is this too. -/
def halfOf {D : Type} (W : Wide) (fcast : D → Nat) (d : D) : Out Nat := floatToHalf W (fcast d)

/-- unary `operator-`, lines 621-623 -/
def neg (h : Nat) : Nat := (h &&& 0x7fff) ||| (h ^^^ 0x8000)

/-- The bit fields of `float16_t`, lines 12-19. -/
def frac (h : Nat) : Nat := h % 2 ^ 10
/-- `m_exp`. half.hpp 16. -/
def exp (h : Nat) : Nat := h / 2 ^ 10 % 2 ^ 5
/-- `m_sign`. half.hpp 17. -/
def sign (h : Nat) : Nat := h / 2 ^ 15 % 2

/-- `operator<`, lines 670-688 -/
def lt (l r : Nat) : Bool :=
  if sign l = 1 then
    if sign r = 0 then true
    else if exp l > exp r then true
    else if exp l < exp r then false
    else if frac l > frac r then true
    else false
  else if sign r = 1 then false
  else if exp l > exp r then false
  else if exp l < exp r then true
  else if frac l ≥ frac r then false
  else true

/-- `operator==`, lines 690-693 -/
def beq (l r : Nat) : Bool := l == r
/-- `operator!=`, lines 695-698 -/
def bne (l r : Nat) : Bool := l != r
/-- `operator<=`, lines 700-703 -/
def le (l r : Nat) : Bool := lt l r || beq l r
/-- `operator>`, lines 705-708 -/
def gt (l r : Nat) : Bool := !le l r
/-- `operator>=`, lines 710-713 -/
def ge (l r : Nat) : Bool := !lt l r

/-! The named values of `TypeInfo<half>`, lines 738-757. -/

/-- line 738 -/
def cInfinity : Nat := 0x7c00
/-- line 739 -/
def cMax : Nat := 0x7bff
/-- line 740 -/
def cMaxSubnormal : Nat := 0x3ff
/-- line 741 -/
def cMin : Nat := 0xfbff
/-- line 742 -/
def cMinPositive : Nat := 0x400
/-- line 743 -/
def cMinPositiveSubnormal : Nat := 0x1
/-- line 744 -/
def cNan : Nat := 0x7e00
/-- line 745 -/
def cNegativeInfinity : Nat := 0xfc00
/-- line 746 -/
def cEpsilon : Nat := 0x1400
/-- line 748 -/
def cOne : Nat := 0x3c00
/-- line 749 -/
def cNegativeOne : Nat := 0x4000
/-- line 750 -/
def cTwo : Nat := 0x4000
/-- line 751 -/
def cNegativeTwo : Nat := 0xc000
/-- line 752 -/
def cHalf : Nat := 0x3800
/-- line 753 -/
def cNegativeHalf : Nat := 0x3b00
/-- line 754 -/
def cZero : Nat := 0x0
/-- line 755 -/
def cNegativeZero : Nat := 0x8000
/-- line 756 -/
def cE : Nat := 0x4170
/-- line 757 -/
def cPi : Nat := 0x4248

end Verif.HalfM
