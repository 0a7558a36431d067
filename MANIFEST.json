{
 "claims": [
  {
   "property": "C01",
   "status": "proved",
   "theorems": [
    "Verif.SetM.C01_set_history"
   ],
   "note": "All histories over assign/insert/discard and their vector forms; membership through both contains and operator[]."
  },
  {
   "property": "C02",
   "status": "proved",
   "theorems": [
    "Verif.SetM.C02_contains"
   ],
   "note": "For every set reachable through the public interface."
  },
  {
   "property": "C03",
   "status": "proved",
   "theorems": [
    "Verif.SetM.C03_union_inter_diff",
    "Verif.SetM.C03_wellformed"
   ],
   "note": ""
  },
  {
   "property": "C04",
   "status": "partial",
   "theorems": [
    "Verif.SetM.C04_symmetric_difference_false",
    "Verif.SetM.C04_symmetric_difference_partial",
    "Verif.SetM.C04_same_maximum_partial"
   ],
   "note": "False of the code: operator^ drops the tail of the longer operand. Negation on a witness; exact description of the result proved."
  },
  {
   "property": "C05",
   "status": "proved",
   "theorems": [
    "Verif.SetM.C05_equality",
    "Verif.SetM.C05_histories",
    "Verif.SetM.C05_ordering",
    "Verif.SetM.C05_remove"
   ],
   "note": ""
  },
  {
   "property": "C06",
   "status": "proved",
   "theorems": [
    "Verif.BitSetM.C06_writes",
    "Verif.BitSetM.C06_default"
   ],
   "note": ""
  },
  {
   "property": "C07",
   "status": "partial",
   "theorems": [
    "Verif.BitSetM.C07_range_set_false",
    "Verif.BitSetM.C07_range_set_partial",
    "Verif.BitSetM.C07_range_set_aligned_partial"
   ],
   "note": "False of the code when both endpoints lie in one word. Exact written range proved."
  },
  {
   "property": "C08",
   "status": "partial",
   "theorems": [
    "Verif.BitSetM.C08_false",
    "Verif.BitSetM.C08_any_false",
    "Verif.BitSetM.C08_all_false",
    "Verif.BitSetM.C08_partial"
   ],
   "note": "False of the code for stray bits beyond the size and for all() when the size is not a multiple of 64."
  },
  {
   "property": "C09",
   "status": "partial",
   "theorems": [
    "Verif.BitSetM.C09_last_false",
    "Verif.BitSetM.C09_partial"
   ],
   "note": "last() on an empty bit set reads out of bounds; everything else proved."
  },
  {
   "property": "C10",
   "status": "partial",
   "theorems": [
    "Verif.BitSetM.C10_false",
    "Verif.BitSetM.C10_partial",
    "Verif.BitSetM.C10_clean"
   ],
   "note": "False when the right operand has stray bits beyond its size; proved for clean right operands of any size."
  },
  {
   "property": "C11",
   "status": "partial",
   "theorems": [
    "Verif.BitSetM.C11_false",
    "Verif.BitSetM.C11_word_shift_false",
    "Verif.BitSetM.C11_long_shift_false",
    "Verif.BitSetM.C11_stray_bits_false",
    "Verif.BitSetM.C11_partial"
   ],
   "note": "Whole-word and over-long shifts are undefined behaviour; left shifts leave stray bits."
  },
  {
   "property": "C12",
   "status": "partial",
   "theorems": [
    "Verif.BitSetM.C12_false",
    "Verif.BitSetM.C12_partial"
   ],
   "note": "False for sizes that are multiples of 64."
  },
  {
   "property": "C13",
   "status": "partial",
   "theorems": [
    "Verif.BitSetM.C13_false",
    "Verif.BitSetM.C13_partial",
    "Verif.BitSetM.C13_string_constructor",
    "Verif.BitSetM.C13_invalid_character"
   ],
   "note": "Round trip fails only for bit sets with stray bits."
  },
  {
   "property": "C14",
   "status": "partial",
   "theorems": [
    "Verif.ShapeM.C14_false",
    "Verif.ShapeM.C14_matrix_size_false",
    "Verif.ShapeM.C14_shape_size_false",
    "Verif.ShapeM.C14_vector_subshape_false",
    "Verif.ShapeM.C14_negative_start_false",
    "Verif.ShapeM.C14_matrix_end_false",
    "Verif.ShapeM.C14_size_partial",
    "Verif.ShapeM.C14_small_size_partial",
    "Verif.ShapeM.C14_subshape_partial",
    "Verif.ShapeM.C14_subshape_end_partial",
    "Verif.ShapeM.C14_subshape_reject_partial",
    "Verif.ShapeM.C14_construct",
    "Verif.ShapeM.C14_construct_classes",
    "Verif.ShapeM.C14_convert"
   ],
   "note": "Element counts wrap (2^32 for MatrixShape, 2^64 for Shape), sub-shapes of VectorShape are (0), and negative starts are accepted; the rest is proved. Missing: nothing of the code, the property itself is false in these cases."
  },
  {
   "property": "C15",
   "status": "partial",
   "theorems": [
    "Verif.ShapeM.C15_compare",
    "Verif.ShapeM.C15_match_false",
    "Verif.ShapeM.C15_match_partial",
    "Verif.ShapeM.C15_match_same_partial",
    "Verif.ShapeM.C15_match_two_partial"
   ],
   "note": "Comparison of shapes is proved; shapesMatch over three or more shapes compares them in pairs only (the third of three is never compared), so that part is refuted; what it accepts is characterised exactly, and the two-shape and all-equal cases are proved."
  },
  {
   "property": "C16",
   "status": "proved",
   "theorems": [
    "Verif.ViewM.C16_access",
    "Verif.ViewM.C16_bijection",
    "Verif.ViewM.C16_reject"
   ],
   "note": "All three shape classes, any rank and extents, assertions on or off."
  },
  {
   "property": "C17",
   "status": "partial",
   "theorems": [
    "Verif.ViewM.C17_false",
    "Verif.ViewM.C17_vector_false",
    "Verif.ViewM.C17_large_false",
    "Verif.ViewM.C17_chain_partial",
    "Verif.ViewM.C17_reject_partial"
   ],
   "note": "False for VectorShape arrays and for arrays of 2^32 elements or more; proved for the others."
  },
  {
   "property": "C18",
   "status": "partial",
   "theorems": [
    "Verif.ViewM.C18_empty_false",
    "Verif.ViewM.C18_flat_partial",
    "Verif.ViewM.C18_eval_partial"
   ],
   "note": "Evaluating an empty view is out of bounds; proved for non-empty arrays of class Shape or MatrixShape below 2^32 elements."
  },
  {
   "property": "C19",
   "status": "partial",
   "theorems": [
    "Verif.ViewM.C19_false",
    "Verif.ViewM.C19_write_false",
    "Verif.ViewM.C19_partial"
   ],
   "note": "The copy constructor drops the offset, so the property is false; what a copy denotes is proved exactly."
  },
  {
   "property": "C20",
   "status": "partial",
   "theorems": [
    "Verif.ViewM.C20_empty_false",
    "Verif.ViewM.C20_reject",
    "Verif.ViewM.C20_assign_partial",
    "Verif.ViewM.C20_compound_partial",
    "Verif.ViewM.C20_view_to_view_partial"
   ],
   "note": "Assigning to an empty view writes out of bounds; proved for non-empty arrays of class Shape or MatrixShape below 2^32 elements."
  },
  {
   "property": "C21",
   "status": "partial",
   "theorems": [
    "Verif.ExprM.C21_empty_false",
    "Verif.ExprM.C21_partial"
   ],
   "note": "Throws for expressions without elements when assertions are on; proved for everything else (any size, packet width and expression)."
  },
  {
   "property": "C22",
   "status": "partial",
   "theorems": [
    "Verif.ExprM.C22_false",
    "Verif.ExprM.C22_fixed_nothing",
    "Verif.ExprM.C22_partial"
   ],
   "note": "Fixed-size arrays that are not vectorised are left unchanged by the parallel loop; proved for every schedule and interleaving in the other cases."
  },
  {
   "property": "C23",
   "status": "partial",
   "theorems": [
    "Verif.ExprM.C23_shapes",
    "Verif.ExprM.C23_empty_false",
    "Verif.ExprM.C23_value_partial"
   ],
   "note": "Shape checking is proved in full; evaluation throws for empty arrays with assertions on and is proved otherwise."
  },
  {
   "property": "C24",
   "status": "partial",
   "theorems": [
    "Verif.Named.C24_false",
    "Verif.Named.C24_wrong_false",
    "Verif.Named.C24_partial",
    "Verif.Named.means_unique"
   ],
   "note": "asinh, acosh, atanh, exp2 and exp10 apply other functions; the other 18 are proved over the real numbers (rounding not modelled)."
  },
  {
   "property": "C25",
   "status": "partial",
   "theorems": [
    "Verif.StorageM.C25_zero_false",
    "Verif.StorageM.C25_moved_false",
    "Verif.StorageM.C25_partial"
   ],
   "note": "With assertions enabled resize(0) and resizing a moved-from storage throw; proved in every other case."
  },
  {
   "property": "C26",
   "status": "proved",
   "theorems": [
    "Verif.StorageM.C26_no_double_free",
    "Verif.StorageM.C26_independent"
   ],
   "note": "Programs over owning storages of any length, with exceptions caught anywhere, assertions on or off. C26_dependent_double_free shows why dependent storages are excluded by the property."
  },
  {
   "property": "C27",
   "status": "partial",
   "theorems": [
    "Verif.StorageM.C27_false",
    "Verif.StorageM.C27_moved_false",
    "Verif.StorageM.C27_partial"
   ],
   "note": "Move assignment leaks the buffer of the target; proved for programs whose move assignments go to storages without memory and which do not resize moved-from storages without assertions."
  },
  {
   "property": "C28",
   "status": "partial",
   "theorems": [
    "Verif.StorageM.C28_empty_false",
    "Verif.StorageM.C28_moved_throws",
    "Verif.StorageM.C28_moved_null",
    "Verif.StorageM.C28_partial",
    "Verif.StorageM.C28_copies",
    "Verif.StorageM.C28_fixed",
    "Verif.StorageM.C28_fixed_copy_false"
   ],
   "note": "False for empty sources, moved-from targets and FixedStorage::copy; proved otherwise."
  },
  {
   "property": "C29",
   "status": "partial",
   "theorems": [
    "Verif.ContM.C29_false",
    "Verif.ContM.C29_default_false",
    "Verif.ContM.C29_default_throws",
    "Verif.ContM.C29_empty_false",
    "Verif.ContM.C29_moved_false",
    "Verif.ContM.C29_resize_false",
    "Verif.ContM.C29_fixed_false",
    "Verif.ContM.C29_partial",
    "Verif.ContM.C29_safe",
    "Verif.ContM.C29_assign",
    "Verif.ContM.C27_array_copy_leaks"
   ],
   "note": "False after a failed assignment of another size, for default-constructed targets, empty sources, moved-from arrays and (without assertions) resize; proved, with absence of undefined behaviour, for all other programs."
  },
  {
   "property": "C30",
   "status": "partial",
   "theorems": [
    "Verif.FromDataM.C30_false",
    "Verif.FromDataM.C30_empty_false",
    "Verif.FromDataM.C30_partial",
    "Verif.FromDataM.C30_items",
    "Verif.FromDataM.C30_reject",
    "Verif.FromDataM.C30_matrix",
    "Verif.FromDataM.C30_matrix_reject"
   ],
   "note": "False as stated: without assertions ragged data are accepted (an item is dropped), and rectangular data without scalars are rejected or undefined. Proved at every depth: non-empty rectangular data below 2^32 scalars give exactly that array; with assertions everything else throws. The MatrixShape constructors are proved separately."
  },
  {
   "property": "C31",
   "status": "partial",
   "theorems": [
    "Verif.PseudoM.C31_ordered",
    "Verif.PseudoM.C31_filled",
    "Verif.PseudoM.C31_arange_false",
    "Verif.PseudoM.C31_arange_partial",
    "Verif.PseudoM.C31_arange_divides",
    "Verif.PseudoM.C31_arange_reject",
    "Verif.PseudoM.C31_arange2",
    "Verif.PseudoM.C31_arange1",
    "Verif.PseudoM.C31_arange_int_false",
    "Verif.PseudoM.C31_arange_int_partial",
    "Verif.PseudoM.C31_linspace_partial",
    "Verif.PseudoM.C31_linspace_one_false",
    "Verif.PseudoM.C31_linspace_reject"
   ],
   "note": "ordered is proved for every shape. arange is false as stated (the last value is missing when the step does not divide the range) and, for integer arguments with negative values and a floating scalar type, gives values near 2^64; the documented count and values are proved otherwise. linspace is proved except for one sample with the end included, which is 0/0. Floating point is exact field arithmetic."
  },
  {
   "property": "C32",
   "status": "proved",
   "theorems": [
    "Verif.FromDataM.C32",
    "Verif.FromDataM.C32_reject"
   ],
   "note": "For every array and every list of values no longer than it; longer lists are rejected when assertions are compiled in."
  },
  {
   "property": "C33",
   "status": "proved",
   "theorems": [
    "Verif.TransM.C33",
    "Verif.TransM.C33_twice",
    "Verif.TransM.C33_in_place"
   ],
   "note": "The generic kernel, for every shape, scale, positive block size, thread count, distribution and interleaving. (A scalar type larger than a cache line gives block size 0, for which the loop never ends.)"
  },
  {
   "property": "C34",
   "status": "partial",
   "theorems": [
    "Verif.TransM.C34_false",
    "Verif.TransM.C34_bounds_false",
    "Verif.TransM.C34_scale_false",
    "Verif.TransM.C34_avx2_double_false",
    "Verif.TransM.C34_avx2_double_align_false",
    "Verif.TransM.C34_exact",
    "Verif.TransM.C34_partial"
   ],
   "note": "False of every vectorised version for non-square matrices (wrong elements or accesses out of bounds); float edges are not scaled; the AVX2 kernel for double is wrong for any matrix. Proved exactly for square matrices of every size (and matrices smaller than the kernel in one direction) for the five other versions."
  },
  {
   "property": "C35",
   "status": "partial",
   "theorems": [
    "Verif.TransM.C35_false",
    "Verif.TransM.C35_class_false",
    "Verif.TransM.C35_ignored",
    "Verif.TransM.C35_not_implemented",
    "Verif.TransM.C35_partial"
   ],
   "note": "False: the axes are ignored by transpose() and by applyTo, and other than two dimensions throws. Proved for two dimensions with axes (1, 0)."
  },
  {
   "property": "C36",
   "status": "proved",
   "theorems": [
    "Verif.MulM.C36"
   ],
   "note": "Every nesting of transposes and scalar factors over 2-D arrays, commutative scalars; arrays reached by dot are copies, so the destination is distinct."
  },
  {
   "property": "C37",
   "status": "partial",
   "theorems": [
    "Verif.MulM.C37_order",
    "Verif.MulM.C37_value",
    "Verif.MulM.C37_reject_partial",
    "Verif.MulM.C37_reject_false"
   ],
   "note": "The value is proved for all extents, flags, contents, scales, thread counts and interleavings (generic CPU routines; exact operation order in C37_order). Rejection of incompatible extents holds only with assertions; without them it is false (witness reads out of bounds)."
  },
  {
   "property": "C38",
   "status": "partial",
   "theorems": [
    "Verif.MulM.C38_partial",
    "Verif.MulM.C38_order",
    "Verif.MulM.C38_false",
    "Verif.MulM.C38_transposed_false",
    "Verif.MulM.C38_empty_false",
    "Verif.MulM.C38_large_false",
    "Verif.MulM.C38_row_rejected",
    "Verif.MulM.C38_dot_rejected"
   ],
   "note": "False for every transposed matrix that is not square (always out of bounds), for matrices without columns (result not written) and from 2^31 elements on. Proved otherwise."
  },
  {
   "property": "C39",
   "status": "partial",
   "theorems": [
    "Verif.GeamM.C39_exact",
    "Verif.GeamM.C39_partial",
    "Verif.GeamM.C39_false",
    "Verif.GeamM.C39_reject"
   ],
   "note": "False: geam ignores the scale a Transpose argument carries. All four host versions are proved exactly (C39_exact); with scales 1 the property holds (C39_partial). Arrays without elements and the CUDA versions are not covered."
  },
  {
   "property": "C40",
   "status": "partial",
   "theorems": [
    "Verif.ScalarM.C40_false",
    "Verif.ScalarM.C40_math_partial",
    "Verif.ScalarM.C40_down_partial",
    "Verif.ScalarM.C40_up_is_math",
    "Verif.ScalarM.C40_up_partial",
    "Verif.ScalarM.C40_halfEven_partial",
    "Verif.ScalarM.C40_halfEven_ub",
    "Verif.ScalarM.C40_digits_false",
    "Verif.ScalarM.C40_double_false",
    "Verif.ScalarM.C40_double",
    "Verif.ScalarM.C40_double_nearest"
   ],
   "note": "False for UP (which is the default mode), for HALF_EVEN above a tie, and at seven digits. In exact arithmetic: the default and truncating modes are proved for all values and other digit counts, and UP and HALF_EVEN are characterised exactly. Rounding to whole numbers is proved exact in every binary floating-point format."
  },
  {
   "property": "C41",
   "status": "partial",
   "theorems": [
    "Verif.ScalarM.C41_false",
    "Verif.ScalarM.C41_roundTo_partial",
    "Verif.ScalarM.C41_roundUpTo_partial",
    "Verif.ScalarM.C41_roundToI_partial",
    "Verif.ScalarM.C41_roundUpToI_partial",
    "Verif.ScalarM.C41_unit_false",
    "Verif.ScalarM.C41_double_false"
   ],
   "note": "False for negative values and for odd integer steps. Exactly characterised for reals (exact arithmetic) and for nonnegative integers."
  },
  {
   "property": "C42",
   "status": "partial",
   "theorems": [
    "Verif.ScalarM.C42_false",
    "Verif.ScalarM.C42_clamp_limits",
    "Verif.ScalarM.C42_clamp_partial",
    "Verif.ScalarM.C42_lerp",
    "Verif.ScalarM.C42_lerp_ends",
    "Verif.ScalarM.C42_lerp_between",
    "Verif.ScalarM.C42_map",
    "Verif.ScalarM.C42_smoothStep",
    "Verif.ScalarM.C42_isClose",
    "Verif.ScalarM.C42_unsigned_false"
   ],
   "note": "False only in that clamp does not swap reversed limits and rejects equal ones; every other law is proved, and for lerp and isClose also in floating-point arithmetic."
  },
  {
   "property": "C43",
   "status": "partial",
   "theorems": [
    "Verif.RandomM.C43_false",
    "Verif.RandomM.C43_random",
    "Verif.RandomM.C43_random_end",
    "Verif.RandomM.C43_random_int",
    "Verif.RandomM.C43_negative_false",
    "Verif.RandomM.C43_zero_false",
    "Verif.RandomM.C43_rounding_false",
    "Verif.RandomM.C43_randint_exact_partial",
    "Verif.RandomM.C43_randint_zero_partial",
    "Verif.RandomM.C43_randint_machine_partial"
   ],
   "note": "random is proved in double arithmetic for every interval and draw. randint is false for negative limits, and by rounding for some positive ones; proved in exact arithmetic for nonnegative lower limits, and in double arithmetic when the lower limit is 0."
  },
  {
   "property": "C44",
   "status": "partial",
   "theorems": [
    "Verif.RandomM.C44_false",
    "Verif.RandomM.C44_instances_false",
    "Verif.RandomM.C44_gaussian_false",
    "Verif.RandomM.C44_partial"
   ],
   "note": "False: only the first instantiation of random called after setSeed is seeded again, and randomGaussian keeps a value across seeds (shown for std::mt19937 as defined by the C++ standard). Proved for programs that use one instantiation."
  },
  {
   "property": "C45",
   "status": "partial",
   "theorems": [
    "Verif.DualM.C45_false",
    "Verif.DualM.C45_zero_base",
    "Verif.DualM.C45_dual_derivative_partial",
    "Verif.DualM.C45_one_variable_partial"
   ],
   "note": "False: pow(x, 0) at x = 0 and pow(0, y) give infinity or NaN although the function is differentiable there. Proved for every expression tree over the supported functions at every point where each operation is differentiable and those powers do not occur; real arithmetic, no rounding."
  },
  {
   "property": "C46",
   "status": "partial",
   "theorems": [
    "Verif.DualM.C46_mulAssign_iff",
    "Verif.DualM.C46_divAssign_iff",
    "Verif.DualM.C46_false",
    "Verif.DualM.C46_compound_partial"
   ],
   "note": "False for *= and /= with a dual (the value is overwritten before the derivative is computed); characterised exactly. Proved for += and -=, for the value components, and for all scalar forms."
  },
  {
   "property": "C47",
   "status": "partial",
   "theorems": [
    "Verif.HalfM.C47_exact",
    "Verif.HalfM.C47_false",
    "Verif.HalfM.C47_roundTrip_partial",
    "Verif.HalfM.C47_roundTrip_x86_partial"
   ],
   "note": "half to float is proved exact for all 65536 halves. The round trip is false for signalling NaNs, and undefined (a shift by 32 or more) for some values; proved for every other half."
  },
  {
   "property": "C48",
   "status": "partial",
   "theorems": [
    "Verif.HalfM.C48_undefined_iff",
    "Verif.HalfM.C48_too_big",
    "Verif.HalfM.C48_false",
    "Verif.HalfM.C48_nearest_partial",
    "Verif.HalfM.C48_small_partial"
   ],
   "note": "False: floats from 2^16 to 2^17 become NaNs or minus zero, signalling NaNs infinities, and the top of each subnormal binade is halved. Where the conversion is undefined is characterised exactly; from 2^-14 on (other than those) the nearest half is proved, below it an error under one place."
  },
  {
   "property": "C49",
   "status": "partial",
   "theorems": [
    "Verif.HalfM.C49_false",
    "Verif.HalfM.C49_compare_partial",
    "Verif.HalfM.C49_neg",
    "Verif.HalfM.C49_constants_partial",
    "Verif.HalfM.C49_limits_partial",
    "Verif.HalfM.C49_e_pi_partial"
   ],
   "note": "False for the two zeros and NaNs, and two named constants are wrong; proved for all other pairs, unary minus, the other constants, the limits against all halves, and e and pi against the reals."
  },
  {
   "property": "C50",
   "status": "partial",
   "theorems": [
    "Verif.HalfM.C50_false",
    "Verif.HalfM.C50_postfix",
    "Verif.HalfM.C50_prefix_partial",
    "Verif.HalfM.C50_count"
   ],
   "note": "False: the postfix forms leave the object unchanged and return the changed copy; ++ turns a NaN into an infinity. The prefix forms are proved for every half that is not a NaN."
  },
  {
   "property": "C51",
   "status": "partial",
   "theorems": [
    "Verif.Cx.C51_binary_partial",
    "Verif.Cx.C51_false",
    "Verif.Cx.C51_alias",
    "Verif.Cx.C51_inplace_partial",
    "Verif.Cx.C51_integer_false",
    "Verif.Cx.C51_eq"
   ],
   "note": "False: z *= z.real() and z /= z.real() change the divisor midway, assignment from another complex type copies the real part twice, and Complex<int> division truncates an intermediate. Proved over the reals for all binary operators and, without aliasing, all compound ones; the aliasing case is characterised exactly."
  },
  {
   "property": "C52",
   "status": "partial",
   "theorems": [
    "Verif.Cx.C52_simple",
    "Verif.Cx.C52_tanh",
    "Verif.Cx.C52_tan",
    "Verif.Cx.C52_tan_rat",
    "Verif.Cx.C52_sqrt_partial",
    "Verif.Cx.C52_sqrt_rounded_partial",
    "Verif.Cx.C52_false",
    "Verif.Cx.C52_sqrt_double_partial",
    "Verif.Cx.C52_parts",
    "Verif.Cx.C52_reciprocals"
   ],
   "note": "Proved over the reals against Mathlib for exp, the (hyperbolic) sine, cosine, tangent and reciprocals, abs, norm, conj, polar; sqrt is exact with exact constants, and with the double constants its square is within 2^-52 relative (and not exact). Inverse functions, log and pow are C65."
  },
  {
   "property": "C53",
   "status": "partial",
   "theorems": [
    "Verif.Ser.C53_deserialize",
    "Verif.Ser.C53_round_trip",
    "Verif.Ser.C53_false",
    "Verif.Ser.C53_partial",
    "Verif.Ser.C53_same_size_partial"
   ],
   "note": "The round trip is proved. False: data cut short anywhere are read past their end, data of a type of another size can be accepted, and without assertions there is no check; acceptance is characterised for all data. Rejection is proved for another type of the same size with assertions on."
  },
  {
   "property": "C54",
   "status": "partial",
   "theorems": [
    "Verif.Vec.C54_componentwise_partial",
    "Verif.Vec.C54_reductions",
    "Verif.Vec.C54_reductions_partial",
    "Verif.Vec.C54_iff",
    "Verif.Vec.C54_false",
    "Verif.Vec.C54_mixed_iff",
    "Verif.Vec.C54_mixed_false",
    "Verif.Vec.C54_cast_partial",
    "Verif.Vec.C54_construct",
    "Verif.Vec.C54_default_false",
    "Verif.Vec.C54_access",
    "Verif.Vec.C54_cross",
    "Verif.Vec.C54_cross_dims",
    "Verif.Vec.C54_norm_partial",
    "Verif.Vec.C54_norm_false",
    "Verif.Vec.C54_polar",
    "Verif.Vec.C54_sphere"
   ],
   "note": "Component-wise operation, access and the cross product are proved. False: reductions add the padding lanes too (exactly characterised; right if and only if the packet width divides the dimension), operands with fewer packets are read past their end, missing components are not zero in SIMD storage."
  },
  {
   "property": "C55",
   "status": "partial",
   "theorems": [
    "Verif.Print.C55_print_partial",
    "Verif.Print.C55_aligned_partial",
    "Verif.Print.C55_view",
    "Verif.Print.C55_other_aligned_false",
    "Verif.Print.C55_zero_dim",
    "Verif.Print.C55_spec_iff"
   ],
   "note": "Every shape with at least one dimension and fewer than 2^32 elements prints each element once in row-major order within the brackets of its shape; integer and floating-point columns are aligned at the decimal point. False for other element types (columns not aligned) and for 0-dimensional arrays (undefined behaviour). The text of a single element is a parameter."
  },
  {
   "property": "C56",
   "status": "partial",
   "theorems": [
    "Verif.ScalarM.C56_false",
    "Verif.ScalarM.C56_partial"
   ],
   "note": "False at 7 only."
  },
  {
   "property": "C57",
   "status": "proved",
   "theorems": [
    "Verif.Mpf.C57_mpf_text"
   ],
   "note": "For every base, digit valuation, digit string, exponent and sign."
  },
  {
   "property": "C58",
   "status": "partial",
   "theorems": [
    "Verif.Time.C58_rounded",
    "Verif.Time.C58_exact_partial",
    "Verif.Time.C58_double_partial",
    "Verif.Time.C58_false"
   ],
   "note": "Proved in exact arithmetic; in double arithmetic the product is within eight roundings of the duration (and not exact in general), the choice of the unit is right."
  },
  {
   "property": "C59",
   "status": "partial",
   "theorems": [
    "Verif.Sigmoid.C59_exact_partial",
    "Verif.Sigmoid.C59_rounded_partial",
    "Verif.Sigmoid.C59_false"
   ],
   "note": "Proved over the reals; in double arithmetic forward reaches 1 (so the strict bounds fail), the weak bounds and monotonicity are proved for every format."
  },
  {
   "property": "C60",
   "status": "partial",
   "theorems": [
    "Verif.Gpu.C60_gemv",
    "Verif.Gpu.C60_gemv_ends",
    "Verif.Gpu.C60_gemv_items",
    "Verif.Gpu.C60_gemv_no_columns_false",
    "Verif.Gpu.C60_transpose",
    "Verif.Gpu.C60_transpose_ends",
    "Verif.Gpu.C60_transpose_grid",
    "Verif.Gpu.C60_gemm_value",
    "Verif.Gpu.C60_gemm_ends",
    "Verif.Gpu.C60_gemm_tiles",
    "Verif.Gpu.C60_gemm_partial",
    "Verif.Gpu.C60_gemm_outside",
    "Verif.Gpu.C60_gemm_false",
    "Verif.Gpu.C60_gemm_value_false"
   ],
   "note": "Matrix times vector and transpose are proved for all extents, geometries and interleavings. The matrix product kernel is free of races and its result is characterised exactly, but it is the product only for k = 32 and one tile: otherwise it reads b outside its buffer on every schedule, or at the wrong places. CLBlast and cuBLAS are not modelled."
  },
  {
   "property": "C61",
   "status": "proved",
   "theorems": [
    "Verif.MapM.C61_map",
    "Verif.MapM.C61_str",
    "Verif.MapM.C61_unordered"
   ],
   "note": "For every history, comparison, hash and rehashing policy; std::map and std::unordered_map are modelled as a sorted list and as a table of buckets."
  },
  {
   "property": "C62",
   "status": "proved",
   "theorems": [
    "Verif.StorageM.C62_list",
    "Verif.StorageM.C62_fill",
    "Verif.StorageM.C62_write",
    "Verif.StorageM.C62_bounds",
    "Verif.StorageM.C62_move"
   ],
   "note": "In any memory state."
  },
  {
   "property": "C63",
   "status": "partial",
   "theorems": [
    "Verif.HalfM.C63_undefined_iff",
    "Verif.HalfM.C63_nearest_partial",
    "Verif.HalfM.C63_overflow",
    "Verif.HalfM.C63_nonfinite",
    "Verif.HalfM.C63_false",
    "Verif.HalfM.C63_sub_nearest_partial"
   ],
   "note": "False for overflowing sums, NaNs and some pairs of infinities, and undefined when both operands are zero or subnormal; each of these is characterised for all operands. All other sums and differences are proved correctly rounded (ties away from zero or either way)."
  },
  {
   "property": "C64",
   "status": "partial",
   "theorems": [
    "Verif.Ser.C64_partial",
    "Verif.Ser.C64_full_device",
    "Verif.Ser.C64_text",
    "Verif.Ser.C64_false",
    "Verif.Ser.C64_false_writable",
    "Verif.Ser.C64_crash"
   ],
   "note": "False: the flag is taken before the buffer is flushed, read needs write permission, and newline bytes are lost in text mode on Windows. Proved when none of these applies."
  },
  {
   "property": "C65",
   "status": "partial",
   "theorems": [
    "Verif.Cx.C65_acos_partial",
    "Verif.Cx.C65_acos_cos_partial",
    "Verif.Cx.C65_acosh_partial",
    "Verif.Cx.C65_acosh_cosh_partial",
    "Verif.Cx.C65_asinh_partial",
    "Verif.Cx.C65_asinh_sinh_partial",
    "Verif.Cx.C65_asin_partial",
    "Verif.Cx.C65_asin_sin_partial",
    "Verif.Cx.C65_atanh_partial",
    "Verif.Cx.C65_atan_partial",
    "Verif.Cx.C65_log_partial",
    "Verif.Cx.C65_log_far_partial",
    "Verif.Cx.C65_log_zero",
    "Verif.Cx.C65_exp_log_partial",
    "Verif.Cx.C65_pow",
    "Verif.Cx.C65_pow_partial",
    "Verif.Cx.C65_pow_zero",
    "Verif.Cx.C65_pow_false",
    "Verif.Cx.C65_log_base",
    "Verif.Cx.C65_spow",
    "Verif.Cx.C65_exp2",
    "Verif.Cx.C65_cbrt_partial",
    "Verif.Cx.C65_log_infinite_false"
   ],
   "note": "Over the reals, with both signs of a zero component. The inverse functions are proved for exact constants in sqrt and outside the branches for the very largest arguments (beyond 1/16 of the largest number; for atan and atanh beyond a quarter of its root); logarithms and powers for all bases other than zero, with the stated error of the approximations. False: pow(0, w) for a complex w with positive real part is NaN, and log of an argument with real part -inf has real part -inf."
  },
  {
   "property": "C66",
   "status": "partial",
   "theorems": [
    "Verif.Gpu.C66_kernel",
    "Verif.Gpu.C66_kernel_in_place",
    "Verif.Gpu.C66_kernel_ends",
    "Verif.Gpu.C66_assign",
    "Verif.Gpu.C66_assign_ends",
    "Verif.Gpu.C66_backends_agree",
    "Verif.Gpu.C66_opencl_limit",
    "Verif.Gpu.C66_cuda_limit",
    "Verif.Gpu.C66_destination_too_small",
    "Verif.Gpu.C66_false",
    "Verif.Gpu.C66_dual",
    "Verif.Gpu.C66_dual_false",
    "Verif.Gpu.C66_packets",
    "Verif.Gpu.C66_packets_false",
    "Verif.Gpu.C66_kernels",
    "Verif.Gpu.C66_missing_kernel_silent"
   ],
   "note": "Proved for all expressions, schedules, evaluation orders and aliasing, up to 2^31 (OpenCL) and 2^32 (CUDA) elements and for operands of one type. False beyond these sizes; the kernels for dual numbers give a wrong derivative in place; packets of width 3 leave the allocation; exp2 and exp10 have no kernel on either backend, asinh, acosh and atanh none on CUDA."
  },
  {
   "property": "C67",
   "status": "partial",
   "theorems": [
    "Verif.Gpu.C67_partial",
    "Verif.Gpu.C67_small",
    "Verif.Gpu.C67_repeats",
    "Verif.Gpu.C67_other_order",
    "Verif.Gpu.C67_false",
    "Verif.Gpu.C67_range_partial",
    "Verif.Gpu.C67_range_top",
    "Verif.Gpu.C67_range_top_false",
    "Verif.Gpu.C67_float_false"
   ],
   "note": "Proved for up to 1024 elements and every schedule. False above: work items race for the seeds, so the array depends on the schedule, and some schedules repeat the first 1024 elements. Ranges hold for double for all but the 1024 largest draws; these give the rounded lower bound plus width, which may exceed the range (2 for the range from -2^53 to 1.5); for float they are exceeded more often."
  },
  {
   "property": "C68",
   "status": "partial",
   "theorems": [
    "Verif.Gpu.C68_loop",
    "Verif.Gpu.C68_period",
    "Verif.Gpu.C68_false"
   ],
   "note": "False: the variant in use never updates its first word, so that every 623rd output is the tempered seed. The variant that is not used is proved to be MT19937."
  },
  {
   "property": "C69",
   "status": "partial",
   "theorems": [
    "Verif.GpuSt.C69_partial",
    "Verif.GpuSt.C69_disjoint_partial",
    "Verif.GpuSt.C69_false",
    "Verif.GpuSt.C69_assign_empty_false",
    "Verif.GpuSt.C69_double_free_false",
    "Verif.GpuSt.C69_double_alloc_false",
    "Verif.GpuSt.C69_copy_ctor_false",
    "Verif.GpuSt.C69_moved_throw_false",
    "Verif.GpuSt.C69_moved_lost_false",
    "Verif.GpuSt.C69_moved_cuda_false",
    "Verif.GpuSt.C69_leak_false",
    "Verif.GpuSt.C69_default_false"
   ],
   "note": "Proved by simulation for every program on OpenCL, and on CUDA without assertions, that avoids five uses; each of these uses is shown to fail: assigning an empty storage keeps the old elements, CUDA copy construction copies in the wrong direction, moved-from storages cannot be assigned, default construction leaves the size uninitialised, CUDA move assignment leaks. With assertions cudaSafeCall evaluates its argument twice, so every CUDA buffer is allocated and freed twice. Storages adopting a foreign buffer are not modelled."
  },
  {
   "property": "C70",
   "status": "partial",
   "theorems": [
    "Verif.ViewM.C70_one_level_partial",
    "Verif.ViewM.C70_nested_partial",
    "Verif.ViewM.C70_one_dim_partial",
    "Verif.ViewM.C70_false"
   ],
   "note": "One loop over an array visits a[0], a[1], ... as stated, for all shapes. Nested loops are false: begin() of a view copies the view and the copy constructor drops the offset. C70_nested_partial states exactly what is visited for every shape (the first row, repeated), which is the claim only for one dimension. ShapeType VectorShape is excluded (subshape of it is a separate defect, C14)."
  },
  {
   "property": "C71",
   "status": "proved",
   "theorems": [
    "Verif.Blas.C71_copy",
    "Verif.Blas.C71_ccopy",
    "Verif.Blas.C71_axpy",
    "Verif.Blas.C71_acxpy",
    "Verif.Blas.C71_raxpy",
    "Verif.Blas.C71_scal",
    "Verif.Blas.C71_axpby",
    "Verif.Blas.C71_swap",
    "Verif.Blas.C71_rot",
    "Verif.Blas.C71_crot"
   ],
   "note": "The generic code, exact arithmetic, one address space of cells; the calls into an external BLAS are not modelled."
  },
  {
   "property": "C72",
   "status": "proved",
   "theorems": [
    "Verif.Blas.C72_dot",
    "Verif.Blas.C72_asum",
    "Verif.Blas.C72_iamax",
    "Verif.Blas.C72_nrm2",
    "Verif.Blas.C72_cnrm2",
    "Verif.Blas.C72_nrm2_range"
   ],
   "note": "The generic code, exact arithmetic."
  },
  {
   "property": "C73",
   "status": "partial",
   "theorems": [
    "Verif.Blas.C73_rotg",
    "Verif.Blas.C73_crotg",
    "Verif.Blas.C73_restore_false",
    "Verif.Blas.C73_restore_partial"
   ],
   "note": "The rotation is proved for all real and complex arguments. Restoring it is false for |a| = |b| != 0, where the code stores 1 instead of 1/c, and proved otherwise."
  },
  {
   "property": "C74",
   "status": "proved",
   "theorems": [
    "Verif.Blas.C74_gemv",
    "Verif.Blas.C74_gemv_empty"
   ],
   "note": "The generic code, exact arithmetic, one address space of cells; the calls into an external BLAS are not modelled."
  },
  {
   "property": "C75",
   "status": "proved",
   "theorems": [
    "Verif.Blas.C75_geru",
    "Verif.Blas.C75_gerc",
    "Verif.Blas.C75_syr",
    "Verif.Blas.C75_syr2",
    "Verif.Blas.C75_her",
    "Verif.Blas.C75_her2"
   ],
   "note": "The generic code, exact arithmetic, one address space of cells; the calls into an external BLAS are not modelled."
  },
  {
   "property": "C76",
   "status": "proved",
   "theorems": [
    "Verif.Blas.C76_symv",
    "Verif.Blas.C76_hemv"
   ],
   "note": "The generic code, exact arithmetic, one address space of cells; the calls into an external BLAS are not modelled."
  },
  {
   "property": "C77",
   "status": "proved",
   "theorems": [
    "Verif.Blas.C77_trmv",
    "Verif.Blas.C77_trsv",
    "Verif.Blas.C77_inverse"
   ],
   "note": "The generic code, exact arithmetic, one address space of cells; the calls into an external BLAS are not modelled."
  },
  {
   "property": "C78",
   "status": "proved",
   "theorems": [
    "Verif.Blas.C78_gbmv",
    "Verif.Blas.C78_gbmv_empty"
   ],
   "note": "The generic code, exact arithmetic, one address space of cells; the calls into an external BLAS are not modelled."
  },
  {
   "property": "C79",
   "status": "proved",
   "theorems": [
    "Verif.Blas.C79_sbmv",
    "Verif.Blas.C79_hbmv",
    "Verif.Blas.C79_spmv",
    "Verif.Blas.C79_hpmv"
   ],
   "note": "The generic code, exact arithmetic, one address space of cells; the calls into an external BLAS are not modelled."
  },
  {
   "property": "C80",
   "status": "proved",
   "theorems": [
    "Verif.Blas.C80_spr",
    "Verif.Blas.C80_spr2",
    "Verif.Blas.C80_hpr",
    "Verif.Blas.C80_hpr2"
   ],
   "note": "The generic code, exact arithmetic, one address space of cells; the calls into an external BLAS are not modelled."
  },
  {
   "property": "C81",
   "status": "proved",
   "theorems": [
    "Verif.Blas.C81_tbmv",
    "Verif.Blas.C81_tpmv",
    "Verif.Blas.C81_tbsv",
    "Verif.Blas.C81_tpsv",
    "Verif.Blas.C81_band_inverse",
    "Verif.Blas.C81_pack_inverse"
   ],
   "note": "The generic code, exact arithmetic, one address space of cells; the calls into an external BLAS are not modelled."
  },
  {
   "property": "C82",
   "status": "partial",
   "theorems": [
    "Verif.Blas.C82_gemm_partial",
    "Verif.Blas.C82_gemm_wrong",
    "Verif.Blas.C82_gemm_real",
    "Verif.Blas.C82_false"
   ],
   "note": "The generic code, exact arithmetic, one address space of cells; the calls into an external BLAS are not modelled. False for two of the sixteen combinations of operations (for each order), where one conjugation is left out; C82_gemm_wrong says exactly what is computed there, C82_gemm_partial proves the fourteen others, C82_gemm_real all sixteen for elements equal to their conjugates."
  },
  {
   "property": "C83",
   "status": "proved",
   "theorems": [
    "Verif.Blas.C83_symm",
    "Verif.Blas.C83_hemm"
   ],
   "note": "The generic code, exact arithmetic, one address space of cells; the calls into an external BLAS are not modelled."
  },
  {
   "property": "C84",
   "status": "partial",
   "theorems": [
    "Verif.Blas.C84_syrk",
    "Verif.Blas.C84_syr2k",
    "Verif.Blas.C84_herk_partial",
    "Verif.Blas.C84_her2k_partial",
    "Verif.Blas.C84_herk_assert",
    "Verif.Blas.C84_false"
   ],
   "note": "The generic code, exact arithmetic, one address space of cells; the calls into an external BLAS are not modelled. syrk and syr2k are proved in full. herk and her2k are false for beta = 0 (C is scaled, hence read) and when they return early for beta = 1 (the diagonal is not made real); the partial theorems assume that C can be read and state that the early return leaves the memory."
  },
  {
   "property": "C85",
   "status": "proved",
   "theorems": [
    "Verif.Blas.C85_trmm",
    "Verif.Blas.C85_trsm",
    "Verif.Blas.C85_inverse"
   ],
   "note": "The generic code, exact arithmetic, one address space of cells; the calls into an external BLAS are not modelled."
  },
  {
   "property": "C86",
   "status": "partial",
   "theorems": [
    "Verif.Blas.C86_gbmm_left",
    "Verif.Blas.C86_gbmm_right",
    "Verif.Blas.C86_gbmm_empty",
    "Verif.Blas.C86_sbmm",
    "Verif.Blas.C86_hbmm",
    "Verif.Blas.C86_tbmm_partial",
    "Verif.Blas.C86_false"
   ],
   "note": "The generic code, exact arithmetic, one address space of cells; the calls into an external BLAS are not modelled. gbmm, sbmm and hbmm are proved in full. tbmm is false for row-major order from the right and column-major order from the left, where the factor is applied with the wrong increment, and proved for the two other cases."
  },
  {
   "property": "C87",
   "status": "partial",
   "theorems": [
    "Verif.ErrFree.C87_addX2",
    "Verif.ErrFree.C87_addSmallX2",
    "Verif.ErrFree.C87_sqrX2",
    "Verif.ErrFree.C87_sqrX2_double",
    "Verif.ErrFree.C87_sqrX2_float",
    "Verif.ErrFree.C87_false"
   ],
   "note": "Finite values, round to nearest, no overflow (exponent range unbounded above). Proved for double. sqrX2 is false for float: highHalf splits the number as a double, the lower half is zero and the error term is always zero (C87_sqrX2_float)."
  },
  {
   "property": "C88",
   "status": "partial",
   "theorems": [
    "Verif.ErrFree.C88_normMinusOne",
    "Verif.ErrFree.C88_double",
    "Verif.ErrFree.C88_logP1",
    "Verif.ErrFree.C88_false"
   ],
   "note": "Finite values, round to nearest. Proved for double with the error bound of C88_normMinusOne; false for float, where sqrX2 loses the error term."
  },
  {
   "property": "C89",
   "status": "partial",
   "theorems": [
    "Verif.ScalarM.C89_partial",
    "Verif.ScalarM.C89_zero",
    "Verif.ScalarM.C89_assert",
    "Verif.ScalarM.C89_ends",
    "Verif.ScalarM.C89_wrong",
    "Verif.ScalarM.C89_figs_wrong",
    "Verif.ScalarM.C89_double_false",
    "Verif.ScalarM.C89_false"
   ],
   "note": "T = double. C89_partial is in exact arithmetic; termination and the range of the scaled number are proved for the arithmetic of the machine (C89_ends). False for eight figures and for magnitudes above 10^7 up to 10^8, where the table of pow10 is wrong: roundSigFig(20000000.0) is 2000000."
  },
  {
   "property": "C90",
   "status": "proved",
   "theorems": [
    "Verif.RandomM.C90_pair",
    "Verif.RandomM.C90_radius"
   ],
   "note": "log and sqrt of the runtime are a parameter; the number of iterations of the rejection loop is not bounded, the theorems are about calls that return. C90_radius is over the reals."
  },
  {
   "property": "C91",
   "status": "partial",
   "theorems": [
    "Verif.Blas.C91_gecopy",
    "Verif.Blas.C91_geaxpy",
    "Verif.Blas.C91_geaxpby",
    "Verif.Blas.C91_geraxpy",
    "Verif.Blas.C91_geraxpy_assert",
    "Verif.Blas.C91_gerscal",
    "Verif.Blas.C91_geswap_partial",
    "Verif.Blas.C91_geswap_wrong",
    "Verif.Blas.C91_false"
   ],
   "note": "The generic code, exact arithmetic, one address space of cells; the calls into an external BLAS are not modelled. All in full but geswap, which for a row-major A and a column-major B exchanges n x m elements instead of m x n; geraxpy rejects conjugation by an assertion."
  },
  {
   "property": "C92",
   "status": "partial",
   "theorems": [
    "Verif.Blas.C92_traxpy",
    "Verif.Blas.C92_traxpby",
    "Verif.Blas.C92_unit_assert",
    "Verif.Blas.C92_trcopy_copied",
    "Verif.Blas.C92_trcopy_partial",
    "Verif.Blas.C92_false",
    "Verif.Blas.C92_trscal_row",
    "Verif.Blas.C92_trscal_col",
    "Verif.Blas.C92_trscal_partial",
    "Verif.Blas.C92_trscal_false"
   ],
   "note": "The generic code, exact arithmetic, one address space of cells; the calls into an external BLAS are not modelled. trcopy with a unit diagonal leaves out the last row (upper, m < n) or column (lower, m > n); trscal in column-major order scales the trapezoid of the n x m matrix; both proved for the other cases. traxpy and traxpby reject a unit diagonal by an assertion."
  },
  {
   "property": "C93",
   "status": "partial",
   "theorems": [
    "Verif.Blas.C93_gbcopy_partial",
    "Verif.Blas.C93_gbaxpy_partial",
    "Verif.Blas.C93_gbaxpby_partial",
    "Verif.Blas.C93_gbscal",
    "Verif.Blas.C93_false"
   ],
   "note": "The generic code, exact arithmetic, one address space of cells; the calls into an external BLAS are not modelled. gbscal in full; the others for square matrices or without transposition. A transposed band that is not square is read beyond the ends of its diagonals."
  },
  {
   "property": "C94",
   "status": "partial",
   "theorems": [
    "Verif.Blas.C94_tpcopy_partial",
    "Verif.Blas.C94_tpcopy_assert",
    "Verif.Blas.C94_tpaxpy_partial",
    "Verif.Blas.C94_tpaxpy_assert",
    "Verif.Blas.C94_tpaxpby_partial",
    "Verif.Blas.C94_false",
    "Verif.Blas.C94_tpscal_partial",
    "Verif.Blas.C94_tpscal_false"
   ],
   "note": "The generic code, exact arithmetic, one address space of cells; the calls into an external BLAS are not modelled. Transposed: proved for the two packed forms of which the rows get longer (upper column-major, lower row-major), false for the two others from order 4 on. tpscal with a unit diagonal: proved for the two others."
  },
  {
   "property": "C95",
   "status": "proved",
   "theorems": [
    "Verif.Blas.C95_gecotr",
    "Verif.Blas.C95_gecotr_assert",
    "Verif.Blas.C95_involution",
    "Verif.Blas.C95_gbcotr",
    "Verif.Blas.C95_gbcotr_assert"
   ],
   "note": "The generic code, exact arithmetic, one address space of cells; the calls into an external BLAS are not modelled."
  },
  {
   "property": "C96",
   "status": "proved",
   "theorems": [
    "Verif.Blas.C96_gecrsmv",
    "Verif.Blas.C96_gecrsmm"
   ],
   "note": "The generic code, exact arithmetic, one address space of cells; the calls into an external BLAS are not modelled."
  },
  {
   "property": "C97",
   "status": "proved",
   "theorems": [
    "Verif.Blas.C97_sycrsmv",
    "Verif.Blas.C97_syccsmv",
    "Verif.Blas.C97_hecrsmv",
    "Verif.Blas.C97_heccsmv",
    "Verif.Blas.C97_sycrsmm",
    "Verif.Blas.C97_syccsmm",
    "Verif.Blas.C97_hecrsmm",
    "Verif.Blas.C97_heccsmm",
    "Verif.Blas.C97_order_needed"
   ],
   "note": "The generic code, exact arithmetic, one address space of cells; the calls into an external BLAS are not modelled. Ascending indices are part of the property; C97_order_needed shows that without them a diagonal entry counts twice."
  },
  {
   "property": "C98",
   "status": "partial",
   "theorems": [
    "Verif.Blas.C98_copy_partial",
    "Verif.Blas.C98_copy_false",
    "Verif.Blas.C98_axpy",
    "Verif.Blas.C98_axpby",
    "Verif.Blas.C98_scal_partial",
    "Verif.Blas.C98_scal_false",
    "Verif.Blas.C98_gecopy_partial",
    "Verif.Blas.C98_gecopy_column_partial",
    "Verif.Blas.C98_gecopy_assert",
    "Verif.Blas.C98_gecopy_false",
    "Verif.Blas.C98_geaxpy",
    "Verif.Blas.C98_gescal",
    "Verif.Blas.C98_gemv_partial",
    "Verif.Blas.C98_gemv_false"
   ],
   "note": "The generic code, exact arithmetic, one address space of cells; the calls into an external BLAS are not modelled. axpy, axpby, geaxpy, gescal and their conjugating or dividing forms in full. copy writes with the increment of x, scal ignores the increment, gecopy therefore fails with transposition, gemv with transposition reads x with the increment of y: each proved where the increments agree and refuted otherwise."
  },
  {
   "property": "C99",
   "status": "partial",
   "theorems": [
    "Verif.Timer.C99_elapsed_partial",
    "Verif.Timer.C99_exact_partial",
    "Verif.Timer.C99_accuracy_partial",
    "Verif.Timer.C99_false",
    "Verif.Timer.C99_machine_false"
   ],
   "note": "Clock readings are arguments. setTargetTime on a stopped timer keeps the old end (elapsed is then negative); proved for all other histories, in exact and in double arithmetic (off by at most 384 ns; exactness is refuted)."
  },
  {
   "property": "C100",
   "status": "partial",
   "theorems": [
    "Verif.Timer.C100_iters",
    "Verif.Timer.C100_loop",
    "Verif.Timer.C100_loop_ends",
    "Verif.Timer.C100_average_partial",
    "Verif.Timer.C100_false",
    "Verif.Timer.C100_start_false",
    "Verif.Timer.C100_start_partial"
   ],
   "note": "The end of the loop in full. The call that ends the loop is counted, so the average is elapsed/(k+1) for k passes; start and reset do not clear the count."
  },
  {
   "property": "C101",
   "status": "proved",
   "theorems": [
    "Verif.Timer.C101_sleep",
    "Verif.Timer.C101_sleep_ends",
    "Verif.Timer.C101_accuracy",
    "Verif.Timer.C101_exact"
   ],
   "note": "Clock readings are arguments; finite doubles."
  },
  {
   "property": "C102",
   "status": "partial",
   "theorems": [
    "Verif.GpuSetup.C102_load_partial",
    "Verif.GpuSetup.C102_false",
    "Verif.GpuSetup.C102_read_false",
    "Verif.GpuSetup.C102_missing",
    "Verif.GpuSetup.C102_missing_cached"
   ],
   "note": "The cache ignores the argument relative, and files are opened for reading and writing; proved where neither matters. The compilation of the text is not modelled."
  },
  {
   "property": "C103",
   "status": "partial",
   "theorems": [
    "Verif.GpuSetup.C103_fastest_partial",
    "Verif.GpuSetup.C103_gpu",
    "Verif.GpuSetup.C103_false",
    "Verif.GpuSetup.C103_empty",
    "Verif.GpuSetup.C103_mono_false",
    "Verif.GpuSetup.C103_mono_partial"
   ],
   "note": "A device is the record of what the queries return. False for devices of score 0 only, and for products that do not fit in 32 bits."
  },
  {
   "property": "C104",
   "status": "partial",
   "theorems": [
    "Verif.HalfM.C104_undefined_iff",
    "Verif.HalfM.C104_nearest_partial",
    "Verif.HalfM.C104_carry",
    "Verif.HalfM.C104_carry_least",
    "Verif.HalfM.C104_overflow",
    "Verif.HalfM.C104_nan",
    "Verif.HalfM.C104_inf",
    "Verif.HalfM.C104_subnormal_partial",
    "Verif.HalfM.C104_subnormal_large",
    "Verif.HalfM.C104_tiny",
    "Verif.HalfM.C104_zero_partial",
    "Verif.HalfM.C104_subnormal_x86",
    "Verif.HalfM.C104_subnormal_one",
    "Verif.HalfM.C104_false"
   ],
   "note": "Products of normal halves are nearest unless they round up to a power of two (then half of it is returned), the exponent fields add up to 4..6 or the magnitude is 65520 or more. A product with a NaN is an infinity. Undefined if the exponent fields add up to more than 15. Sums 4..6 give 0, 0 and 1 or 2 units; zeros stay zeros wherever a wide shift of 0 is 0; on x86 a subnormal half times a magnitude of 2 or more is zero, and times one from 1 to 2 it loses 2^-14 once the product reaches it."
  },
  {
   "property": "C105",
   "status": "partial",
   "theorems": [
    "Verif.HalfM.C105_undefined_iff",
    "Verif.HalfM.C105_nearest_partial",
    "Verif.HalfM.C105_overflow",
    "Verif.HalfM.C105_small_partial",
    "Verif.HalfM.C105_special",
    "Verif.HalfM.C105_zero_x86",
    "Verif.HalfM.C105_false"
   ],
   "note": "The float division is any function that is correctly rounded. Nearest from 2^-14 to 2^16 and from 2^17 on; in between NaN from 65568 on; below 2^-14 within a place. Undefined from 2^-13 on where wide shifts are."
  },
  {
   "property": "C106",
   "status": "partial",
   "theorems": [
    "Verif.HalfM.C106_accuracy_partial",
    "Verif.HalfM.C106_integer_partial",
    "Verif.HalfM.C106_false"
   ],
   "note": "The conversion to float is any function that is correctly rounded. Doubles near the middle between two halves are rounded twice to the wrong side; integers up to 65519 are right. Below 2^-14 and from 65520 on it is C48."
  },
  {
   "property": "C107",
   "status": "proved",
   "theorems": [
    "Verif.MulM.C107_gemm",
    "Verif.MulM.C107_product",
    "Verif.MulM.C107_gemv",
    "Verif.MulM.C107_any_order",
    "Verif.MulM.C107_constant",
    "Verif.MulM.C107_reproducible",
    "Verif.MulM.C107_integers",
    "Verif.MulM.C107_partial_sums"
   ],
   "note": "For shapes for which C37 and C38 hold. The exponent has no upper limit in the model: the theorems are about products in which nothing overflows; C107_partial_sums bounds every sum formed on the way."
  },
  {
   "property": "C108",
   "status": "partial",
   "theorems": [
    "Verif.PseudoM.C108_linspace_partial",
    "Verif.PseudoM.C108_end_partial",
    "Verif.PseudoM.C108_end_false",
    "Verif.PseudoM.C108_arange_partial",
    "Verif.PseudoM.C108_arange_false"
   ],
   "note": "False for the last element of linspace (exact between integers only) and for the number and the last element of arange. Order and accuracy are proved for up to 2^p samples; nothing overflows in the model."
  },
  {
   "property": "C109",
   "status": "proved",
   "theorems": [
    "Verif.PseudoM.C109_logspace",
    "Verif.PseudoM.C109_nan",
    "Verif.PseudoM.C109_zero"
   ],
   "note": "In exact arithmetic, with exact exp and log. A zero end gives NaN followed by zeros."
  },
  {
   "property": "C110",
   "status": "partial",
   "theorems": [
    "Verif.Cx.C110_add",
    "Verif.Cx.C110_mul",
    "Verif.Cx.C110_div_partial",
    "Verif.Cx.C110_scalar",
    "Verif.Cx.C110_div_false",
    "Verif.Cx.C110_component_false"
   ],
   "note": "Quotients: for components that are zero or of magnitude 2^-242 to 2^242 (double), 2^-25 to 2^25 (float); false for subnormal numbers, where products in the formulas underflow. Overflow is not modelled. Single components have no such bound."
  },
  {
   "property": "C111",
   "status": "partial",
   "theorems": [
    "Verif.Vec.C111_reductions_partial",
    "Verif.Vec.C111_cross",
    "Verif.Vec.C111_orthogonal_false"
   ],
   "note": "Reductions for dimensions that are multiples of the packet width (otherwise the padding is added, C54). Nothing overflows in the model."
  },
  {
   "property": "C112",
   "status": "partial",
   "theorems": [
    "Verif.BitSetM.Heap.C112_false",
    "Verif.BitSetM.Heap.C112_value_partial",
    "Verif.BitSetM.Heap.C112_no_leak_partial",
    "Verif.BitSetM.Heap.C112_assign_false",
    "Verif.BitSetM.Heap.C112_alias_false",
    "Verif.BitSetM.Heap.C112_assign_leak_false",
    "Verif.BitSetM.Heap.C112_move_false",
    "Verif.BitSetM.Heap.C112_return_false",
    "Verif.BitSetM.Heap.C112_throw_leak_false"
   ],
   "note": "For programs without moves and assignments between bit sets, with results returned in place (as compilers do). The defaulted assignments and move constructor copy the pointer; a throwing string constructor leaks."
  },
  {
   "property": "C113",
   "status": "partial",
   "theorems": [
    "Verif.Num.C113_copySign_float",
    "Verif.Num.C113_fraction_false",
    "Verif.Num.C113_fraction_lost_false",
    "Verif.Num.C113_wide_false",
    "Verif.Num.C113_copySign_int_partial",
    "Verif.Num.C113_generic",
    "Verif.Num.C113_generic_false",
    "Verif.Num.C113_copySign_mp",
    "Verif.Num.C113_signBit",
    "Verif.Num.C113_signBit_mp",
    "Verif.Num.C113_signBit_false",
    "Verif.Num.C113_ldexp_partial",
    "Verif.Num.C113_ldexp_exact",
    "Verif.Num.C113_ldexp_wrap_false",
    "Verif.Num.C113_ldexp_big_false",
    "Verif.Num.C113_ldexp_false",
    "Verif.Num.C113_ldexp_int_partial",
    "Verif.Num.C113_ldexp_mp"
   ],
   "note": "copySign of floating-point and multi-precision numbers and signBit of fundamental types in full. Integers up to 2^53 with signs that survive the conversion to the type; half-like types with magnitudes from 0; ldexp for exponents of 32 bits, from 0 for multi-precision numbers. False elsewhere."
  },
  {
   "property": "C114",
   "status": "partial",
   "theorems": [
    "Verif.Num.C114_false",
    "Verif.Num.C114_max_false",
    "Verif.Num.C114_nan_false",
    "Verif.Num.C114_min_partial",
    "Verif.Num.C114_max_partial",
    "Verif.Num.C114_abs_partial",
    "Verif.Num.C114_abs_false",
    "Verif.Num.C114_abs_float_partial",
    "Verif.Num.C114_abs_zero_false",
    "Verif.Num.C114_mod_partial",
    "Verif.Num.C114_mod_false",
    "Verif.Num.C114_floor_partial",
    "Verif.Num.C114_floor_false"
   ],
   "note": "min and max for arguments of one group (no negative integers; signed types; floating-point numbers without NaN), any number and widths. False for negative integers with unsigned ones, the least integers (abs), -0.0 (abs) and integers beyond 2^53 (floor)."
  },
  {
   "property": "C115",
   "status": "partial",
   "theorems": [
    "Verif.Constants.C115_pi",
    "Verif.Constants.C115_tau",
    "Verif.Constants.C115_halfPi",
    "Verif.Constants.C115_degToRad",
    "Verif.Constants.C115_radToDeg",
    "Verif.Constants.C115_piSquaredOnSix",
    "Verif.Constants.C115_sqrtPi",
    "Verif.Constants.C115_sqrt",
    "Verif.Constants.C115_goldenRatio",
    "Verif.Constants.C115_cbrt",
    "Verif.Constants.C115_e",
    "Verif.Constants.C115_sqrtE",
    "Verif.Constants.C115_log",
    "Verif.Constants.C115_eToPi",
    "Verif.Constants.C115_piOnLn2",
    "Verif.Constants.C115_twoToRoot2",
    "Verif.Constants.C115_parabolic2",
    "Verif.Constants.C115_goldenAngle",
    "Verif.Constants.C115_plasticNumber",
    "Verif.Constants.C115_wallisConstant",
    "Verif.Constants.C115_zeta3",
    "Verif.Constants.C115_eulerMascheroni",
    "Verif.Constants.C115_gaussConstant",
    "Verif.Constants.C115_recipFib",
    "Verif.Constants.C115_cahenConstant",
    "Verif.Constants.C115_lochConstant",
    "Verif.Constants.C115_dottieNumber",
    "Verif.Constants.C115_laplaceLimit",
    "Verif.Constants.C115_quadRecurrence",
    "Verif.Constants.C115_nivenConstant",
    "Verif.Constants.C115_twinPrimes",
    "Verif.Constants.C115_fellerTornier",
    "Verif.Constants.C115_gieseking",
    "Verif.Constants.C115_lightSpeed",
    "Verif.Constants.C115_earthGravity",
    "Verif.Constants.C115_minimum_partial",
    "Verif.Constants.C115_minimum_false"
   ],
   "note": "The theorems name the constants; missing are those listed in the header of Model/Constants.lean. epsilon32 and epsilon64 are the least positive normal numbers, not the least positive ones."
  },
  {
   "property": "C116",
   "status": "partial",
   "theorems": [
    "Verif.Rfft.C116_rfft_partial",
    "Verif.Rfft.C116_empty",
    "Verif.Rfft.C116_conjugate",
    "Verif.Rfft.C116_injective",
    "Verif.Rfft.C116_size_false",
    "Verif.Rfft.C116_refused",
    "Verif.Rfft.C116_matrix_false",
    "Verif.Rfft.C116_undefined_false",
    "Verif.Rfft.C116_false"
   ],
   "note": "In exact arithmetic. Proved for every size from 1 with pocketfft and from 1 to 2^31 - 1 with FFTW; false for empty and larger arrays with FFTW and, without assertions, for arrays with other numbers of dimensions. The rounding of the back ends is not modelled."
  },
  {
   "property": "C117",
   "status": "partial",
   "theorems": [
    "Verif.MpConv.C117_false",
    "Verif.MpConv.C117_trunc",
    "Verif.MpConv.C117_mpfr_mpz",
    "Verif.MpConv.C117_mpf",
    "Verif.MpConv.C117_from_mpfr_partial",
    "Verif.MpConv.C117_integers_partial",
    "Verif.MpConv.C117_error_partial",
    "Verif.MpConv.C117_error_bits_partial",
    "Verif.MpConv.C117_small_false",
    "Verif.MpConv.C117_small_exists_false",
    "Verif.MpConv.C117_wide_false",
    "Verif.MpConv.C117_round_false",
    "Verif.MpConv.C117_to_mpfr_partial",
    "Verif.MpConv.C117_to_mpfr_error_partial",
    "Verif.MpConv.C117_digits_false"
   ],
   "note": "From mpz in full, from mpf and mpq to mpz, mpq and mpf in full. To mpfr from mpf and mpq: nearest for numbers with few digits, with an error bound for all. From mpfr: exact for numbers with few decimals, with an absolute error bound for all; false for small numbers, integers wider than mpf and numbers near integers."
  },
  {
   "property": "C118",
   "status": "partial",
   "theorems": [
    "Verif.FillRandom.C118_false",
    "Verif.FillRandom.C118_sequential_partial",
    "Verif.FillRandom.C118_reproducible_partial",
    "Verif.FillRandom.C118_range_partial",
    "Verif.FillRandom.C118_race",
    "Verif.FillRandom.C118_duplicate",
    "Verif.FillRandom.C118_when",
    "Verif.FillRandom.C118_float_end"
   ],
   "note": "Proved for the loop on one thread. False for the parallel loop: for every schedule with two busy threads there is a data race, and two elements can be made from the same draw."
  },
  {
   "property": "C119",
   "status": "partial",
   "theorems": [
    "Verif.CxInf.C119_false",
    "Verif.CxInf.C119_sqrt",
    "Verif.CxInf.C119_sqrt_nan",
    "Verif.CxInf.C119_acos",
    "Verif.CxInf.C119_asinh",
    "Verif.CxInf.C119_asin",
    "Verif.CxInf.C119_atanh",
    "Verif.CxInf.C119_atan",
    "Verif.CxInf.C119_proj_abs_arg",
    "Verif.CxInf.C119_exp",
    "Verif.CxInf.C119_cosh_sinh_partial",
    "Verif.CxInf.C119_cosh_sinh_false",
    "Verif.CxInf.C119_log_false",
    "Verif.CxInf.C119_log_im_partial",
    "Verif.CxInf.C119_pow_false",
    "Verif.CxInf.C119_acosh_partial",
    "Verif.CxInf.C119_acosh_false",
    "Verif.CxInf.C119_tanh_partial",
    "Verif.CxInf.C119_tanh_false",
    "Verif.CxInf.C119_nan"
   ],
   "note": "Proved in full for sqrt, acos, asin, atan, asinh, atanh, exp, proj, abs, arg. False for log (wrong sign of the infinity), pow, acosh of x + i inf (NaN), cosh, sinh, cos, sin on an axis (NaN), tanh of inf + i inf (NaN); the theorems say where they are right."
  },
  {
   "property": "C120",
   "status": "partial",
   "theorems": [
    "Verif.CxInf.C120_false",
    "Verif.CxInf.C120_mul_partial",
    "Verif.CxInf.C120_mul_both_partial",
    "Verif.CxInf.C120_mul_false",
    "Verif.CxInf.C120_div_zero_false",
    "Verif.CxInf.C120_div_inf_partial",
    "Verif.CxInf.C120_div_inf_false",
    "Verif.CxInf.C120_inf_div_partial",
    "Verif.CxInf.C120_inf_div_false",
    "Verif.CxInf.C120_scalar_false",
    "Verif.CxInf.C120_scalar_partial"
   ],
   "note": "Proved for numbers with one infinite component, and for products of two infinite components with numbers off the axes. False (NaN in both components) in the remaining cases, for every such pair; r * z loses the finite component."
  },
  {
   "property": "C121",
   "status": "partial",
   "theorems": [
    "Verif.AliasM.C121_false",
    "Verif.AliasM.C121_part_partial",
    "Verif.AliasM.C121_self_ub_false",
    "Verif.AliasM.C121_self_junk_false",
    "Verif.AliasM.C121_self_all_partial",
    "Verif.AliasM.C121_view_partial",
    "Verif.AliasM.C121_view_transpose_partial",
    "Verif.AliasM.C121_view_transpose_false",
    "Verif.AliasM.C121_dot_partial",
    "Verif.AliasM.C121_transpose_false",
    "Verif.AliasM.C121_transpose_throws_false",
    "Verif.AliasM.C121_transpose_mixes_false"
   ],
   "note": "Proved for parts of other arrays, for expressions over parts of the same array assigned to a view, and for products. False for a = a[i] (undefined, or whatever the new block contains), for a[i] = transpose(a[i]) (the lower triangle is mirrored, with assertions or not; proved right for two different parts) and for a = transpose(a) (throws after the shape has been replaced; without assertions the elements are mixed up)."
  },
  {
   "property": "C122",
   "status": "partial",
   "theorems": [
    "Verif.HeldM.C122_false",
    "Verif.HeldM.C122_copy_partial",
    "Verif.HeldM.C122_copy_false",
    "Verif.HeldM.C122_subscript_partial",
    "Verif.HeldM.C122_get_partial",
    "Verif.HeldM.C122_loop_partial",
    "Verif.HeldM.C122_loop_false"
   ],
   "note": "Subscripts proved for all shapes but VectorShape; copies and loops proved for expressions whose temporary views start at the beginning of their arrays. False for expressions over a[i] with i > 0: the copy, and the copy inside the loop iterator, reads from the start of a."
  },
  {
   "property": "C123",
   "status": "partial",
   "theorems": [
    "Verif.PyM.C123_false",
    "Verif.PyM.C123_bin_partial",
    "Verif.PyM.C123_mismatch_partial",
    "Verif.PyM.C123_div_false",
    "Verif.PyM.C123_aug_adds",
    "Verif.PyM.C123_aug_partial",
    "Verif.PyM.C123_view_moves",
    "Verif.PyM.C123_get_partial",
    "Verif.PyM.C123_set_partial",
    "Verif.PyM.C123_item_moves",
    "Verif.PyM.C123_item_false",
    "Verif.PyM.C123_item_partial",
    "Verif.PyM.C123_for_partial"
   ],
   "note": "Proved for +, - and *, for subscripts, subscripted assignments and loops, for += of arrays and of x[0]. False for -=, *= (they add), / and /= (TypeError: __div__ is not a Python 3 method), x[i] += r with i > 0 (row i becomes row 0) and v += r for a view v (v is moved to the start of the array)."
  },
  {
   "property": "C124",
   "status": "partial",
   "theorems": [
    "Verif.PyM.C124_false",
    "Verif.PyM.C124_safe_partial",
    "Verif.PyM.C124_origin_partial"
   ],
   "note": "Proved in all states without a view of a destroyed array, and that such a view arises only when the last name of an array is bound anew or deleted; x += y does that too, as it binds x to a copy. False otherwise: views hold no reference to their array (no keep_alive)."
  },
  {
   "property": "C125",
   "status": "partial",
   "theorems": [
    "Verif.PyArray.C125_false",
    "Verif.PyArray.C125_keywords_partial",
    "Verif.PyArray.C125_reject_partial",
    "Verif.PyArray.C125_positional_partial",
    "Verif.PyArray.C125_shape_loop_partial",
    "Verif.PyArray.C125_shape_get_partial"
   ],
   "note": "Proved for keyword arguments and for shapes. False for positional arguments: the first is taken as data although the documentation calls it shape; more than three are ignored."
  },
  {
   "property": "C126",
   "status": "partial",
   "theorems": [
    "Verif.ClConfig.C126_false",
    "Verif.ClConfig.C126_partial",
    "Verif.ClConfig.C126_end_of_input",
    "Verif.ClConfig.C126_no_devices",
    "Verif.ClConfig.C126_not_a_number",
    "Verif.ClConfig.C126_too_large"
   ],
   "note": "Proved if every answer before the right one is a number of 64 bits, of any number of wrong answers. False otherwise: an answer that is not a number picks device 0, and the loop never ends at the end of the input, after a number above 2^63 - 1 and if there are no devices."
  },
  {
   "property": "C127",
   "status": "partial",
   "theorems": [
    "Verif.ClConfig.C127_false",
    "Verif.ClConfig.C127_first_partial",
    "Verif.ClConfig.C127_never_again",
    "Verif.ClConfig.C127_broken",
    "Verif.ClConfig.C127_ready_partial",
    "Verif.ClConfig.C127_verbose_race",
    "Verif.ClConfig.C127_devices"
   ],
   "note": "Proved for the first configuration, and that with assertions a configured OpenCL has a compiled program. False: a configuration that got as far as compiling can never be repeated (the kernel files are added again and every kernel is defined twice), a second call without assertions destroys the program, and verbose = true has a data race."
  },
  {
   "property": "C128",
   "status": "partial",
   "theorems": [
    "Verif.LogM.C128_assert",
    "Verif.LogM.C128_error_raw",
    "Verif.LogM.C128_error_false",
    "Verif.LogM.C128_error_partial",
    "Verif.LogM.C128_assert_box",
    "Verif.LogM.C128_status_box",
    "Verif.LogM.C128_warning_is_status",
    "Verif.LogM.C128_kind_false",
    "Verif.LogM.C128_content_partial",
    "Verif.LogM.C128_assert_content",
    "Verif.LogM.C128_braces",
    "Verif.LogM.C128_single_brace"
   ],
   "note": "Proved for assertions, for errors without values, and for the printed boxes. False for errors with values (the exception has the unformatted message) and for the kind (warnings and errors are headed STATUS)."
  },
  {
   "property": "C129",
   "status": "partial",
   "theorems": [
    "Verif.PyShape.C129_false",
    "Verif.PyShape.C129_partial",
    "Verif.PyShape.C129_too_many",
    "Verif.PyShape.C129_wraps",
    "Verif.PyShape.C129_negative",
    "Verif.PyShape.C129_unchecked",
    "Verif.PyShape.C129_text_partial"
   ],
   "note": "Proved for all programs with assertions on, at most 16 dimensions, and arguments of subshape of 16 bits. False otherwise: more than 16 values are written beyond the object, numbers of dimensions are taken modulo 2^16, negative ones are accepted, and without assertions no subscript is checked."
  },
  {
   "property": "C130",
   "status": "partial",
   "theorems": [
    "Verif.TypeName.C130_false",
    "Verif.TypeName.C130_gcc",
    "Verif.TypeName.C130_clang",
    "Verif.TypeName.C130_msvc",
    "Verif.TypeName.C130_injective_partial"
   ],
   "note": "Proved for GCC and Clang; false for MSVC, whose names all begin with brapid::detail::typeNameArray<. Different types have different names with all three. The text of the enclosing function is each compiler's own and is assumed."
  },
  {
   "property": "C131",
   "status": "partial",
   "theorems": [
    "Verif.Threads.C131_false",
    "Verif.Threads.C131_sequential",
    "Verif.Threads.C131_partial",
    "Verif.Threads.C131_fill_all_cores",
    "Verif.Threads.C131_fill_at_start",
    "Verif.Threads.C131_transpose_undefined_iff",
    "Verif.Threads.C131_zero"
   ],
   "note": "Proved without OpenMP; with it for fewer than 2^31 threads and programs without random fills, or with OpenBLAS and the number set first. False otherwise: a fill takes all cores, numbers that are 0 or negative as an int are passed to OpenMP. The threads of BLAS libraries and pocketfft are not modelled."
  },
  {
   "property": "C132",
   "status": "partial",
   "theorems": [
    "Verif.IntSqrt.C132_false",
    "Verif.IntSqrt.C132_partial",
    "Verif.IntSqrt.C132_int32",
    "Verif.IntSqrt.C132_iff_partial",
    "Verif.IntSqrt.C132_first",
    "Verif.IntSqrt.C132_close",
    "Verif.IntSqrt.C132_squares",
    "Verif.IntSqrt.C132_negative"
   ],
   "note": "Proved for all elements below 2^52+2^27 and so for all types of up to 32 bits; false at 2^52+2^27 for 64 bits; exactly characterised up to 2^53; never more than one too large up to 2^64. Negative elements are undefined. The SIMD square root of packets of narrow integers is not modelled."
  },
  {
   "property": "C133",
   "status": "partial",
   "theorems": [
    "Verif.ClTypes.C133_false",
    "Verif.ClTypes.C133_partial",
    "Verif.ClTypes.C133_uniform_partial",
    "Verif.ClTypes.C133_undefined_iff",
    "Verif.ClTypes.C133_narrow",
    "Verif.ClTypes.C133_double_literal",
    "Verif.ClTypes.C133_int_as_float",
    "Verif.ClTypes.C133_packed",
    "Verif.ClTypes.C133_conversions"
   ],
   "note": "Proved for expressions of any depth whose operands and destination have the representation of each operator (the same type, or integers of one width). False: a * 2.0 for a float array reads past its end; exactly characterised when the evaluation is undefined; integers are read as floats, narrow results are packed into wide destinations."
  },
  {
   "property": "C134",
   "status": "partial",
   "theorems": [
    "Verif.ClTypes.C134_false",
    "Verif.ClTypes.C134_gemv_partial",
    "Verif.ClTypes.C134_gemv_undefined_iff",
    "Verif.ClTypes.C134_narrow",
    "Verif.ClTypes.C134_transpose_false",
    "Verif.ClTypes.C134_transpose_partial",
    "Verif.ClTypes.C134_transpose_unsigned",
    "Verif.ClTypes.C134_transpose_kernels"
   ],
   "note": "Products proved when matrix, vector and destination have the representation of the product; undefined exactly when the type of the product is wider than one of them, so always for 8- and 16-bit integers. Transposes proved for the six types with a kernel; unsigned matrices have none. Products of two matrices and clBLAST are not modelled here."
  },
  {
   "property": "C135",
   "status": "partial",
   "theorems": [
    "Verif.VendorM.C135_false",
    "Verif.VendorM.C135_gemm_partial",
    "Verif.VendorM.C135_gemv_partial",
    "Verif.VendorM.C135_opencl_transposed",
    "Verif.VendorM.C135_complex",
    "Verif.VendorM.C135_mixed"
   ],
   "note": "Relative to the documented contracts of cuBLASLt and CLBlast. Proved for one real element type and all extents above 0, on OpenCL for transposed matrix times vector only when square. False: complex products on CUDA are always refused, and on OpenCL a transposed matrix that is not square times a vector throws, or without assertions leaves the result as it was."
  },
  {
   "property": "C136",
   "status": "partial",
   "theorems": [
    "Verif.VendorM.C136_false",
    "Verif.VendorM.C136_partial",
    "Verif.VendorM.C136_transposed"
   ],
   "note": "Relative to the documented contract of cublas<t>geam. Proved for untransposed matrices and for square ones. False: with a transposed matrix that is not square the call throws or leaves the arrays, always."
  },
  {
   "property": "C137",
   "status": "partial",
   "theorems": [
    "Verif.CudaTypes.C137_false",
    "Verif.CudaTypes.C137_packets_false",
    "Verif.CudaTypes.C137_iff",
    "Verif.CudaTypes.C137_stored",
    "Verif.CudaTypes.C137_partial",
    "Verif.CudaTypes.C137_same_partial",
    "Verif.CudaTypes.C137_default_partial",
    "Verif.CudaTypes.C137_throws",
    "Verif.CudaTypes.C137_three"
   ],
   "note": "Proved, for packet widths other than three, for all expressions unless float and double packets would be mixed or a unary function at the root changes the type. False: exactly then (C137_iff): mixing packets throws because the kernel does not compile, and a unary function is not converted to its own type before it is stored. With packets of three, sums are undefined for sizes that are multiples of 32 but not of 3."
  },
  {
   "property": "C138",
   "status": "partial",
   "theorems": [
    "Verif.VendorM.C138_false",
    "Verif.VendorM.C138_partial",
    "Verif.VendorM.C138_iff",
    "Verif.VendorM.C138_tall",
    "Verif.VendorM.C138_other",
    "Verif.VendorM.C138_self"
   ],
   "note": "Proved, against the contract of cublas<t>geam, for float, double and their complex types and matrices with no more rows than columns. False: exactly otherwise (C138_iff). More rows than columns always throws, because the matrix is also passed untransposed, times 0, with a leading dimension that is too small for its rows; halves and integers are not implemented."
  },
  {
   "property": "C139",
   "status": "partial",
   "theorems": [
    "Verif.CudaFill.C139_false",
    "Verif.CudaFill.C139_repeats",
    "Verif.CudaFill.C139_consecutive_false",
    "Verif.CudaFill.C139_history_false",
    "Verif.CudaFill.C139_seeded_partial",
    "Verif.CudaFill.C139_continues_partial"
   ],
   "note": "Proved: reproducible if each fill is first called before any host number is drawn; consecutive pieces once no seed is waiting. False: fillRandom reads global::reseed but never resets it, so after setSeed every fill gives the same numbers until a number is drawn on the host, and once one is drawn, generators that exist already are not seeded at all."
  },
  {
   "property": "C140",
   "status": "partial",
   "theorems": [
    "Verif.Vec.C140_componentwise_partial",
    "Verif.Vec.C140_dims_iff",
    "Verif.Vec.C140_generic",
    "Verif.Vec.C140_false"
   ],
   "note": "Proved for operands of one dimension and scalars; for any dimensions in storage without packets. False for different dimensions with packets: the operand that already has the common type is read past its end if it has fewer packets, and components one operand lacks are uninitialised memory."
  },
  {
   "property": "C141",
   "status": "partial",
   "theorems": [
    "Verif.SeedFill.C141_seeded_partial",
    "Verif.SeedFill.C141_first",
    "Verif.SeedFill.C141_seeds",
    "Verif.SeedFill.C141_second_false",
    "Verif.SeedFill.C141_host_false",
    "Verif.SeedFill.C141_false"
   ],
   "note": "Proved: reproducible if each instantiation of fillRandom is first called immediately after setting the seed; which numbers the seeds are, and that drawing them is exact and defined. False otherwise: the first number drawn resets global::reseed, so of several instantiations (element types, shapes, bounds) only the first gets new seeds, and none if a host number was drawn first."
  },
  {
   "property": "C142",
   "status": "partial",
   "theorems": [
    "Verif.Gpu.C142_equal_partial",
    "Verif.Gpu.C142_opencl_larger",
    "Verif.Gpu.C142_opencl_smaller_false",
    "Verif.Gpu.C142_cuda_sizes",
    "Verif.Gpu.C142_cuda_smaller_false",
    "Verif.Gpu.C142_empty_false",
    "Verif.Gpu.C142_false"
   ],
   "note": "Proved for arrays of equal sizes, also the same array, under every schedule. Elements of a larger destination keep their values. False for smaller destinations: OpenCL writes past the end; CUDA ignores the rest of the source, or writes past the end if the destination has more than 512 elements and does not fill its last block. Empty arrays are refused with assertions."
  },
  {
   "property": "C143",
   "status": "partial",
   "theorems": [
    "Verif.MpPrec.C143_integers",
    "Verif.MpPrec.C143_relative",
    "Verif.MpPrec.C143_partial",
    "Verif.MpPrec.C143_nines",
    "Verif.MpPrec.C143_false",
    "Verif.MpPrec.C143_one_digit",
    "Verif.MpPrec.C143_asked",
    "Verif.MpPrec.C143_least"
   ],
   "note": "Whole numbers up to 10^d are exact, with the least number of bits for which this holds; the relative error is at most 10^-d; numbers of at most d-1 digits are told apart and can be read back. False for numbers of d digits, for every d: there is a power of ten such that d nines times it and the next power of ten are stored as one number. The number of digits counts modulo 2^32; zero and negative ones stop the program."
  },
  {
   "property": "C144",
   "status": "partial",
   "theorems": [
    "Verif.MpFormat.C144_partial",
    "Verif.MpFormat.C144_decimal",
    "Verif.MpFormat.C144_bases",
    "Verif.MpFormat.C144_false"
   ],
   "note": "Proved for the empty specification. With decimal specifications the texts agree exactly if the width is not larger than the number needs and no plus or space is asked for a number that is not negative; with binary, octal and hexadecimal ones of no width exactly for numbers of one digit. False otherwise: the specification is parsed and ignored."
  },
  {
   "property": "C145",
   "status": "partial",
   "theorems": [
    "Verif.MpLog.C145_accuracy",
    "Verif.MpLog.C145_nearest",
    "Verif.MpLog.C145_partial",
    "Verif.MpLog.C145_thousand",
    "Verif.MpLog.C145_false"
   ],
   "note": "For every precision from 3 bits the relative error is at most four units, the nearest whole number to the logarithm of a power is its exponent (below 2^(p-3)), and exponents that are powers of two are exact. False for other exponents: with 53 bits log(1000, 10) is 3 - 2^-51."
  },
  {
   "property": "C146",
   "status": "partial",
   "theorems": [
    "Verif.StorageOom.C146_partial",
    "Verif.StorageOom.C146_no_copy_assignment",
    "Verif.StorageOom.C146_released",
    "Verif.StorageOom.C146_unchanged",
    "Verif.StorageOom.C146_assign_fails",
    "Verif.StorageOom.C146_assign_fails_empty",
    "Verif.StorageOom.C146_noassert",
    "Verif.StorageOom.C146_wrap",
    "Verif.StorageOom.C146_false",
    "Verif.StorageOom.C146_noassert_false",
    "Verif.StorageOom.C146_size_false"
   ],
   "note": "With assertions, for storages that own their memory, sizes in bytes within size_t and any pattern of failing allocations: no undefined behaviour, nothing lost, and a command that throws has changed nothing, provided copy assignments that need memory get it. False of copy assignment, which releases the old memory first: the target keeps a pointer to it and its destructor releases it again. False without assertions (a failed allocation is undefined) and for sizes whose number of bytes overflows (the constructor writes behind its memory)."
  },
  {
   "property": "C147",
   "status": "partial",
   "theorems": [
    "Verif.RandomDist.C147_random",
    "Verif.RandomDist.C147_randint_partial",
    "Verif.RandomDist.C147_random_int",
    "Verif.RandomDist.C147_passes",
    "Verif.RandomDist.C147_gaussian",
    "Verif.RandomDist.C147_model",
    "Verif.RandomDist.C147_randint_zero",
    "Verif.RandomDist.C147_randint_other",
    "Verif.RandomDist.C147_randint_above",
    "Verif.RandomDist.C147_false"
   ],
   "note": "In real arithmetic. Proved of random, of randomGaussian (two calls return two independent standard normal numbers, and return with probability one) and of randint with a lower limit that is not negative. False of randint with a negative lower limit, whose exact probabilities are given: zero is twice as likely as the others, and for two negative limits the number above the range is as likely as those in it."
  },
  {
   "property": "C148",
   "status": "partial",
   "theorems": [
    "Verif.MpFormat.C148_partial",
    "Verif.MpFormat.C148_mpq_partial",
    "Verif.MpFormat.C148_mpq_false",
    "Verif.MpFormat.C148_zero_false",
    "Verif.MpFormat.C148_width_false",
    "Verif.MpFormat.C148_sign_false",
    "Verif.MpFormat.C148_expr_false",
    "Verif.MpFormat.C148_false"
   ],
   "note": "Proved of mpf and mpfr from one decimal on; of mpq and of expressions, which are formatted as the mpf made of them, up to the error of that mpf. False of the later decimals of an mpq (a third, whatever the precision), of the precision 0, which is taken for none, of widths and signs, which are ignored; an expression over integers is written with a decimal point."
  },
  {
   "property": "C149",
   "status": "partial",
   "theorems": [
    "Verif.MpScan.C149_partial",
    "Verif.MpScan.C149_roundtrip",
    "Verif.MpScan.C149_empty",
    "Verif.MpScan.C149_mpq",
    "Verif.MpScan.C149_mpq_whole",
    "Verif.MpScan.C149_octal_false",
    "Verif.MpScan.C149_throws_false",
    "Verif.MpScan.C149_mpq_false",
    "Verif.MpScan.C149_false"
   ],
   "note": "Proved: digits without a leading zero, with a minus sign or without, are read as the number they denote, what the formatter writes is read back, fractions and whole numbers in place of fractions are read as they are written, and text without characters is an error. False: digits after a leading zero are read in base eight or throw, a plus sign or a letter throws instead of giving an error, and a fraction that is not reduced is not equal to the reduced one."
  },
  {
   "property": "C150",
   "status": "partial",
   "theorems": [
    "Verif.ScalarM.C150_smooth_partial",
    "Verif.ScalarM.C150_map_partial",
    "Verif.ScalarM.C150_smooth_false",
    "Verif.ScalarM.C150_map_false",
    "Verif.ScalarM.C150_false"
   ],
   "note": "Proved for every format of ten bits or more: smoothStep is exact outside the edges, not negative and within 128 roundings of the documented function; map takes start to start and is monotone. False: smoothStep of the last double before 1 is 1 + 6*2^-52, and map misses the end or goes beyond it."
  },
  {
   "property": "C151",
   "status": "partial",
   "theorems": [
    "Verif.RandomDist.C151_in_sphere",
    "Verif.RandomDist.C151_value",
    "Verif.RandomDist.C151_on_sphere_partial",
    "Verif.RandomDist.C151_numbers",
    "Verif.RandomDist.C151_whole_partial",
    "Verif.RandomDist.C151_padding",
    "Verif.RandomDist.C151_false"
   ],
   "note": "In real arithmetic. Proved of randomPointInSphere for all sets, and of randomPointOnSphere, from the draws to the point, for vectors that fill their packets. False of the default Vector<float, 3> in packets of four: norm divides by a length that includes the lane that was never set, and if it is not zero every point is inside the sphere."
  },
  {
   "property": "C152",
   "status": "partial",
   "theorems": [
    "Verif.Vec.C152_partial",
    "Verif.Vec.C152_small",
    "Verif.Vec.C152_large",
    "Verif.Vec.C152_false"
   ],
   "note": "Proved with overflow and underflow for vectors that fill their packets and whose squared length is between n 2^-1022 and 2^1023. Outside it is false: if all components are below 2^-538 the length is 0 and norm gives NaN and infinities, from a squared length of 2^1025 on the length is infinite and norm gives the zero vector."
  },
  {
   "property": "C153",
   "status": "partial",
   "theorems": [
    "Verif.ScalarM.C153_order_partial",
    "Verif.ScalarM.C153_odd",
    "Verif.ScalarM.C153_halfEven_order",
    "Verif.ScalarM.C153_near_partial",
    "Verif.ScalarM.C153_decimal_partial",
    "Verif.ScalarM.C153_twice_partial",
    "Verif.ScalarM.C153_decimal",
    "Verif.ScalarM.C153_false"
   ],
   "note": "Proved: except in HALF_EVEN the order is kept for every digit count and floating format; with 1 to 22 digits other than 7 the result is within 3 roundings (14 from 8 digits on) of a nearest number with d decimals, of the number itself if it has d decimals, and rounding twice is rounding once. False: round(0.3, 1) is 3 * 0.1, which is not 0.3; HALF_EVEN rounds 1.5 to 2 and 1.75 to 1."
  },
  {
   "property": "C154",
   "status": "proved",
   "theorems": [
    "Verif.Blas.C154_trsv",
    "Verif.Blas.C154_nearby"
   ],
   "note": "The generic code. The exponent has no upper limit in the model: the theorems are about solves in which nothing overflows; what is lost below the normal range is accounted for. The order of the sums is that of the source; fused operations are not modelled."
  },
  {
   "property": "C155",
   "status": "proved",
   "theorems": [
    "Verif.Blas.C155_nrm2",
    "Verif.Blas.C155_finite",
    "Verif.Blas.C155_pos",
    "Verif.Blas.C155_cnrm2"
   ],
   "note": "The generic code; for one complex number it calls std::abs, which is not modelled, and the bound for complex vectors is 16n + 3 roundings. std::pow(t, 2.0) is any function that is within two roundings of the square for quotients from 0 to 1 (the correctly rounded square is one); sqrt is correctly rounded."
  },
  {
   "property": "C156",
   "status": "partial",
   "theorems": [
    "Verif.Blas.C156_nan",
    "Verif.Blas.C156_one_partial",
    "Verif.Blas.C156_two",
    "Verif.Blas.C156_false"
   ],
   "note": "False as stated: two infinities give the quotient of infinities and so NaN (C156_two, C156_false). NaN elements always show, and one infinity gives infinity."
  },
  {
   "property": "C157",
   "status": "partial",
   "theorems": [
    "Verif.Blas.C157_partial",
    "Verif.Blas.C157_zero",
    "Verif.Blas.C157_tiny",
    "Verif.Blas.C157_huge",
    "Verif.Blas.C157_false"
   ],
   "note": "Proved for lengths from 2^-1021 and |a| + |b| up to 2^1023. False outside: for the least number twice, c = s = 1 (C157_tiny); where |a| + |b| overflows all results are NaN although the length is a double (C157_huge). The value left in b is modelled, nothing is claimed about it (C73). Fused operations are not modelled."
  },
  {
   "property": "C158",
   "status": "partial",
   "theorems": [
    "Verif.ScalarM.C158_fmod",
    "Verif.ScalarM.C158_roundTo_partial",
    "Verif.ScalarM.C158_roundUpTo_partial",
    "Verif.ScalarM.C158_grid",
    "Verif.ScalarM.C158_order",
    "Verif.ScalarM.C158_twice",
    "Verif.ScalarM.C158_below",
    "Verif.ScalarM.C158_upTwice",
    "Verif.ScalarM.C158_least",
    "Verif.ScalarM.C158_false"
   ],
   "note": "Proved for every format: the error relative to the nearest (least upper) multiple is at most four roundings; rounding down gives the nearest double; no error at all on a grid of powers of two within the precision. False in full: roundTo(0.05, 0.1) > roundTo(0.06, 0.1), roundTo(roundTo(0.05, 0.1), 0.1) differs from roundTo(0.05, 0.1), roundUpTo(2, 0.01) < 2, roundUpTo(0.3, 0.1) is not 0.3 and is rounded up to 0.4 the next time. Overflow of x + v is not modelled."
  },
  {
   "property": "C159",
   "status": "partial",
   "theorems": [
    "Verif.DualM.C159_value",
    "Verif.DualM.C159_poly_partial",
    "Verif.DualM.C159_div_partial",
    "Verif.DualM.C159_sDiv_partial",
    "Verif.DualM.C159_square",
    "Verif.DualM.C159_false"
   ],
   "note": "Proved for every format and every expression in +, -, * (between duals and with scalars) whose products do not underflow: the value is that of plain arithmetic, value and derivative are within (1+u)^cost - 1 of the polynomial and its derivative relative to the polynomial with absolute values; single quotients likewise when the square of the divisor does not underflow. False in full: x / 2^-600 divides by a square that is rounded to zero, so the derivative is infinite instead of 2^600 (C159_square), while dividing by the scalar 2^-600 is right. Overflow and fused operations are not modelled."
  },
  {
   "property": "C160",
   "status": "partial",
   "theorems": [
    "Verif.Blas.C160_trsm",
    "Verif.Blas.C160_residual",
    "Verif.Blas.C160_scaleLast",
    "Verif.Blas.C160_false"
   ],
   "note": "Proved for every format: trsm leaves alpha V, each element rounded once, for a V that solves the unscaled system with a residual of at most (1+u)^(n+1) - 1 times the sum of the magnitudes of the terms plus what is lost below the normal range (C160_trsm); hence one more rounding for the scaled system (C160_residual). False in full: the right-hand side is scaled after the solution, so 2^600 x = 2^600 * 2^-600 gives 0 instead of 2^-600 (C160_scaleLast); scaling first is exact. Overflow and fused operations are not modelled."
  },
  {
   "property": "C161",
   "status": "partial",
   "theorems": [
    "Verif.ScalarM.C161_near_partial",
    "Verif.ScalarM.C161_decimal_partial",
    "Verif.ScalarM.C161_decimal",
    "Verif.ScalarM.C161_tiny",
    "Verif.ScalarM.C161_false"
   ],
   "note": "Proved for 1 to 22 figures other than 8 and magnitudes from 10^-299 on outside 10^7 - 1 to 10^8 + 1: the result is within two roundings for each decimal place of k * 10^e where k has figs digits and is nearest to the argument up to one rounding for each place (C161_near_partial); a number with at most 12 figures keeps them (C161_decimal_partial). False in full: roundSigFig(0.3, 1) is the double above 0.3 (C161_decimal), and the two smallest positive doubles become zero for every number of figures because pow10(-324) underflows (C161_tiny). Overflow is not modelled."
  },
  {
   "property": "C162",
   "status": "partial",
   "theorems": [
    "Verif.ScalarM.C162_order_partial",
    "Verif.ScalarM.C162_same_partial",
    "Verif.ScalarM.C162_near_partial",
    "Verif.ScalarM.C162_finite",
    "Verif.ScalarM.C162_same",
    "Verif.ScalarM.C162_order",
    "Verif.ScalarM.C162_overflow",
    "Verif.ScalarM.C162_false"
   ],
   "note": "Proved in every rounding arithmetic: the order is kept for t from 0 on, and for all t unless both ends are positive; equal ends likewise; between 0 and 1 the result is within 6 roundings of the documented one relative to the ends, in every binary format. Between 0 and 1 this carries over to doubles with overflow whenever upper - lower does not overflow across zero (C162_finite). False in full: the test for the first formula reads t <= 0 where std::lerp of libstdc++ has lower <= 0. So lerp(-2^-53, 1, 1) is not 1 and the result descends (C162_same, C162_order), and for ends of opposite signs whose difference overflows lerp is the upper end for every t between 0 and 1 (C162_overflow)."
  },
  {
   "property": "C163",
   "status": "partial",
   "theorems": [
    "Verif.Num.C163_clamp_partial",
    "Verif.Num.C163_clamp_sign",
    "Verif.Num.C163_clamp_narrow",
    "Verif.Num.C163_clamp_float",
    "Verif.Num.C163_lerp_partial",
    "Verif.Num.C163_lerp_unsigned_partial",
    "Verif.Num.C163_lerp_float",
    "Verif.Num.C163_lerp_overflow",
    "Verif.Num.C163_smooth",
    "Verif.Num.C163_false",
    "Verif.ScalarM.C163_mixed_partial",
    "Verif.ScalarM.C163_mixed_end"
   ],
   "note": "Proved: clamp for arguments of one group (no negative integers; signed types; floating-point numbers) whose limits the first type can hold; lerp of signed integers when nothing overflows, of unsigned integers of 32 bits or more whenever the result can be held, and with a double t and integer limits its order, lower end and accuracy. False in full, because the result has the type of the first argument: clamp(-1, 0u, 10u) is 10, clamp(int8_t(5), 300, 400) is 44, clamp(0, 0.5, 2.5) is 0, lerp(1, 0.25, 0.75) is 0, and smoothStep of integers is 0 below the upper edge and 1 from it on (C163_smooth). With a double t and integer limits the upper end is not exact (C163_mixed_end)."
  },
  {
   "property": "C164",
   "status": "partial",
   "theorems": [
    "Verif.Blas.C164_trmv",
    "Verif.Blas.C164_trmm",
    "Verif.Blas.C164_error",
    "Verif.Blas.C164_scaleLast",
    "Verif.Blas.C164_false"
   ],
   "note": "Proved for every format: trmv within (1+u)^n - 1 times the sum of the magnitudes of the terms plus what is lost below the normal range (C164_trmv); trmm leaves alpha V, each element rounded once, with V as accurate (C164_trmm); hence one more rounding for the scaled product (C164_error). False in full: the product is scaled last, so alpha multiplies what was lost to underflow; 2^600 * (2^-600 * 2^-600) gives 0 instead of 2^-600 (C164_scaleLast). Overflow and fused operations are not modelled."
  },
  {
   "property": "C165",
   "status": "partial",
   "theorems": [
    "Verif.ScalarM.C165_named",
    "Verif.ScalarM.C165_named_order",
    "Verif.ScalarM.C165_named_even",
    "Verif.ScalarM.C165_named_saturates",
    "Verif.ScalarM.C165_call_partial",
    "Verif.ScalarM.C165_call",
    "Verif.ScalarM.C165_false"
   ],
   "note": "False of calls: the specialisation for mpfr is one for T = const mpfr &, but a call deduces T = mpfr and gets the general function, which computes in double: round(2^53 + 1) is 2^53 at every precision (C165_call). Proved of calls: the result is nearest up to roundings to 53 bits (C165_call_partial, digit counts as in C153). Proved of the specialisation named explicitly: nearest at the precision of the argument for every format, number and digit count (C165_named), order kept (C165_named_order), ties to even below 2^64 (C165_named_even); above, all ties go up, because the conversion to uint64_t saturates (C165_named_saturates)."
  },
  {
   "property": "C166",
   "status": "proved",
   "theorems": [
    "Verif.Blas.C166_gecrsmv",
    "Verif.Blas.C166_gecrsmm",
    "Verif.Blas.C166_sycrsmv",
    "Verif.Blas.C166_sycrsmm",
    "Verif.Blas.C166_same",
    "Verif.Blas.C166_order"
   ],
   "note": "The bound counts the entries of each row: (1+u)^(2+N) - 1 times the sum of the magnitudes of the terms, for N stored entries (C166_gecrsmv, C166_gecrsmm, C166_sycrsmv, C166_sycrsmm). alpha multiplies the entry before the element of x does, so what is lost when it underflows counts |x_j| times. Column storage and the Hermitian routines on reals are the same routine (C166_same). The result depends on the order of storage (C166_order). Overflow, fused operations and the calls into an external BLAS are not modelled."
  },
  {
   "property": "C167",
   "status": "proved",
   "theorems": [
    "Verif.Blas.C167_axpy",
    "Verif.Blas.C167_axpy_self",
    "Verif.Blas.C167_scal",
    "Verif.Blas.C167_rot",
    "Verif.Blas.C167_rot_length",
    "Verif.Blas.C167_dot",
    "Verif.Blas.C167_asum",
    "Verif.Blas.C167_ger",
    "Verif.Blas.C167_direction",
    "Verif.Blas.C167_ger_symmetric"
   ],
   "note": "Besides: axpy with factor 1 or -1 rounds once, subtracting a vector from itself gives zeros, scal keeps the order of the elements, dot does not depend on the order of its arguments. What exact arithmetic hides: dot depends on the direction in which the vectors are read (C167_direction); ger multiplies alpha with x for row-major and with y for column-major matrices, so the bits depend on the storage and ger with x on both sides does not keep a matrix symmetric (C167_ger_symmetric). Overflow, fused operations and the calls into an external BLAS are not modelled."
  },
  {
   "property": "C168",
   "status": "proved",
   "theorems": [
    "Verif.Blas.C168_gemv",
    "Verif.Blas.C168_gemm",
    "Verif.Blas.C168_storage",
    "Verif.Blas.C168_column"
   ],
   "note": "The generic code of C74 and C82 run on rounded real numbers. Unlike ger (C167) the bits do not depend on the storage order: gemm scales the inner product by alpha last. The matrices read must not overlap the one written. Overflow, fused operations and the calls into an external BLAS are not modelled."
  },
  {
   "property": "C169",
   "status": "proved",
   "theorems": [
    "Verif.Blas.C169_symv",
    "Verif.Blas.C169_syr",
    "Verif.Blas.C169_syr2",
    "Verif.Blas.C169_ger",
    "Verif.Blas.C169_symv_triangle",
    "Verif.Blas.C169_syr_triangle"
   ],
   "note": "The generic code of C75 and C76 run on rounded numbers. What exact arithmetic hides: symv adds two inner products to each element, first the part in the stored row, so which triangle of the same matrix is read decides the bits (C169_symv_triangle); the same holds of the triangle that syr updates (C169_syr_triangle). Overflow, fused operations and the calls into an external BLAS are not modelled."
  },
  {
   "property": "C170",
   "status": "proved",
   "theorems": [
    "Verif.Blas.C170_syrk",
    "Verif.Blas.C170_syr2k",
    "Verif.Blas.C170_symm",
    "Verif.Blas.C170_gemm"
   ],
   "note": "The generic code of C83 and C84 run on rounded numbers. syrk adds each product to the matrix by itself while gemm adds the finished inner product, so the two give different bits for the same update, and small terms are lost in syrk (C170_gemm). Overflow, fused operations and the calls into an external BLAS are not modelled."
  },
  {
   "property": "C171",
   "status": "proved",
   "theorems": [
    "Verif.Blas.C171_spr",
    "Verif.Blas.C171_spr2",
    "Verif.Blas.C171_gbmv"
   ],
   "note": "The generic code of C78 and C80 run on rounded numbers. Overflow, fused operations and the calls into an external BLAS are not modelled."
  },
  {
   "property": "C172",
   "status": "partial",
   "theorems": [
    "Verif.Blas.C172_spr_syr_partial",
    "Verif.Blas.C172_spr2_syr2_partial",
    "Verif.Blas.C172_spr2_syr2_false",
    "Verif.Blas.C172_gbmv_gemv_partial",
    "Verif.Blas.C172_gbmv_gemv_false"
   ],
   "note": "True for spr and syr, for spr2 and syr2 of row-major matrices, and for gbmv where it takes inner products (A x row-major, A^T x column-major). False for spr2 and syr2 of column-major matrices, where syr2 exchanges x and y and spr2 does not, and for A^T x with a row-major banded matrix, where gbmv adds the products to y one by one and gemv adds their sum."
  },
  {
   "property": "C173",
   "status": "proved",
   "theorems": [
    "Verif.Blas.C173_spmv",
    "Verif.Blas.C173_sbmv",
    "Verif.Blas.C173_symv"
   ],
   "note": "The generic code of C79 run on rounded numbers. spmv and symv give different bits for the same matrix (C173_symv): spmv adds the terms before the diagonal first and one by one. Overflow, fused operations and the calls into an external BLAS are not modelled."
  },
  {
   "property": "C174",
   "status": "proved",
   "theorems": [
    "Verif.Blas.C174_tpsv",
    "Verif.Blas.C174_tbsv"
   ],
   "note": "The generic code of C81 run on rounded numbers, whether it takes inner products or subtracts the products one by one. Overflow and fused operations are not modelled."
  },
  {
   "property": "C175",
   "status": "partial",
   "theorems": [
    "Verif.Blas.C175_tpsv_trsv_partial",
    "Verif.Blas.C175_tbsv_trsv_partial",
    "Verif.Blas.C175_tpsv_trsv_false"
   ],
   "note": "True for T x = b with row-major and the transposed system with column-major matrices, where all three take inner products (for tbsv with n > 0). False in the other cases (C175_tpsv_trsv_false): there tpsv and tbsv subtract the products one by one and trsv subtracts their sum. Signed zeros are not distinguished."
  },
  {
   "property": "C176",
   "status": "proved",
   "theorems": [
    "Verif.Blas.C176_tpmv",
    "Verif.Blas.C176_tbmv"
   ],
   "note": "The generic code of C81 run on rounded numbers, whether it takes inner products or adds multiples of the rows. Overflow and fused operations are not modelled."
  },
  {
   "property": "C177",
   "status": "partial",
   "theorems": [
    "Verif.Blas.C177_tpmv_trmv_partial",
    "Verif.Blas.C177_tbmv_trmv_partial",
    "Verif.Blas.C177_tpmv_trmv_false"
   ],
   "note": "True for T x with row-major and the transposed product with column-major matrices, where all three take inner products (for tbmv with n > 0). False in the other cases (C177_tpmv_trmv_false): there tpmv and tbmv begin with the term of the diagonal, where trmv ends with it. Signed zeros are not distinguished."
  }
 ]
}