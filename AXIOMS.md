# Axioms of the property theorems

Generated from `#print axioms` on every theorem named in MANIFEST.json. All three axioms are part of Lean itself;
the development declares none.

`p` = `propext`, `c` = `Classical.choice`, `q` = `Quot.sound`; `-` = no axiom.

* `Verif.SetM.C01_set_history`: p c q
* `Verif.SetM.C02_contains`: p c q
* `Verif.SetM.C03_union_inter_diff`: p c q
* `Verif.SetM.C03_wellformed`: p c q
* `Verif.SetM.C04_symmetric_difference_false`: p c q
* `Verif.SetM.C04_symmetric_difference_partial`: p c q
* `Verif.SetM.C04_same_maximum_partial`: p c q
* `Verif.SetM.C05_equality`: p c q
* `Verif.SetM.C05_histories`: p c q
* `Verif.SetM.C05_ordering`: p
* `Verif.SetM.C05_remove`: p c q
* `Verif.BitSetM.C06_writes`: p c q
* `Verif.BitSetM.C06_default`: p q
* `Verif.BitSetM.C07_range_set_false`: p c q
* `Verif.BitSetM.C07_range_set_partial`: p c q
* `Verif.BitSetM.C07_range_set_aligned_partial`: p c q
* `Verif.BitSetM.C08_false`: p c q
* `Verif.BitSetM.C08_any_false`: p c q
* `Verif.BitSetM.C08_all_false`: p c q
* `Verif.BitSetM.C08_partial`: p c q
* `Verif.BitSetM.C09_last_false`: p q
* `Verif.BitSetM.C09_partial`: p c q
* `Verif.BitSetM.C10_false`: p q
* `Verif.BitSetM.C10_partial`: p c q
* `Verif.BitSetM.C10_clean`: p c q
* `Verif.BitSetM.C11_false`: p q
* `Verif.BitSetM.C11_word_shift_false`: p q
* `Verif.BitSetM.C11_long_shift_false`: p q
* `Verif.BitSetM.C11_stray_bits_false`: p q
* `Verif.BitSetM.C11_partial`: p c q
* `Verif.BitSetM.C12_false`: p c q
* `Verif.BitSetM.C12_partial`: p c q
* `Verif.BitSetM.C13_false`: p c q
* `Verif.BitSetM.C13_partial`: p c q
* `Verif.BitSetM.C13_string_constructor`: p c q
* `Verif.BitSetM.C13_invalid_character`: p c q
* `Verif.ShapeM.C14_false`: p
* `Verif.ShapeM.C14_matrix_size_false`: -
* `Verif.ShapeM.C14_shape_size_false`: -
* `Verif.ShapeM.C14_vector_subshape_false`: -
* `Verif.ShapeM.C14_negative_start_false`: -
* `Verif.ShapeM.C14_matrix_end_false`: -
* `Verif.ShapeM.C14_size_partial`: p
* `Verif.ShapeM.C14_small_size_partial`: p q
* `Verif.ShapeM.C14_subshape_partial`: p q
* `Verif.ShapeM.C14_subshape_end_partial`: p q
* `Verif.ShapeM.C14_subshape_reject_partial`: p c q
* `Verif.ShapeM.C14_construct`: p q
* `Verif.ShapeM.C14_construct_classes`: p c q
* `Verif.ShapeM.C14_convert`: p c q
* `Verif.ShapeM.C15_compare`: p c q
* `Verif.ShapeM.C15_match_false`: p
* `Verif.ShapeM.C15_match_partial`: p c q
* `Verif.ShapeM.C15_match_same_partial`: p c q
* `Verif.ShapeM.C15_match_two_partial`: p c q
* `Verif.ViewM.C16_access`: p c q
* `Verif.ViewM.C16_bijection`: p c q
* `Verif.ViewM.C16_reject`: p c q
* `Verif.ViewM.C17_false`: p q
* `Verif.ViewM.C17_vector_false`: p
* `Verif.ViewM.C17_large_false`: p
* `Verif.ViewM.C17_chain_partial`: p c q
* `Verif.ViewM.C17_reject_partial`: p c q
* `Verif.ViewM.C18_empty_false`: p c q
* `Verif.ViewM.C18_flat_partial`: p c q
* `Verif.ViewM.C18_eval_partial`: p c q
* `Verif.ViewM.C19_false`: p
* `Verif.ViewM.C19_write_false`: p
* `Verif.ViewM.C19_partial`: p c q
* `Verif.ViewM.C20_empty_false`: p c q
* `Verif.ViewM.C20_reject`: p c q
* `Verif.ViewM.C20_assign_partial`: p c q
* `Verif.ViewM.C20_compound_partial`: p c q
* `Verif.ViewM.C20_view_to_view_partial`: p c q
* `Verif.ExprM.C21_empty_false`: p q
* `Verif.ExprM.C21_partial`: p c q
* `Verif.ExprM.C22_false`: p c q
* `Verif.ExprM.C22_fixed_nothing`: p c q
* `Verif.ExprM.C22_partial`: p c q
* `Verif.ExprM.C23_shapes`: p c q
* `Verif.ExprM.C23_empty_false`: p q
* `Verif.ExprM.C23_value_partial`: p c q
* `Verif.Named.C24_false`: p c q
* `Verif.Named.C24_wrong_false`: p c q
* `Verif.Named.C24_partial`: p c q
* `Verif.Named.means_unique`: p c q
* `Verif.StorageM.C25_zero_false`: p q
* `Verif.StorageM.C25_moved_false`: p q
* `Verif.StorageM.C25_partial`: p q
* `Verif.StorageM.C26_no_double_free`: p q
* `Verif.StorageM.C26_independent`: p q
* `Verif.StorageM.C27_false`: p q
* `Verif.StorageM.C27_moved_false`: p
* `Verif.StorageM.C27_partial`: p q
* `Verif.StorageM.C28_empty_false`: p q
* `Verif.StorageM.C28_moved_throws`: p q
* `Verif.StorageM.C28_moved_null`: p
* `Verif.StorageM.C28_partial`: p q
* `Verif.StorageM.C28_copies`: p q
* `Verif.StorageM.C28_fixed`: -
* `Verif.StorageM.C28_fixed_copy_false`: p
* `Verif.ContM.C29_false`: p q
* `Verif.ContM.C29_default_false`: p
* `Verif.ContM.C29_default_throws`: p
* `Verif.ContM.C29_empty_false`: p
* `Verif.ContM.C29_moved_false`: p
* `Verif.ContM.C29_resize_false`: p
* `Verif.ContM.C29_fixed_false`: -
* `Verif.ContM.C29_partial`: p q
* `Verif.ContM.C29_safe`: p q
* `Verif.ContM.C29_assign`: p q
* `Verif.ContM.C27_array_copy_leaks`: p
* `Verif.FromDataM.C30_false`: p c q
* `Verif.FromDataM.C30_empty_false`: p c q
* `Verif.FromDataM.C30_partial`: p c q
* `Verif.FromDataM.C30_items`: p c q
* `Verif.FromDataM.C30_reject`: p c q
* `Verif.FromDataM.C30_matrix`: p c q
* `Verif.FromDataM.C30_matrix_reject`: p c q
* `Verif.PseudoM.C31_ordered`: p c q
* `Verif.PseudoM.C31_filled`: p c q
* `Verif.PseudoM.C31_arange_false`: p c q
* `Verif.PseudoM.C31_arange_partial`: p c q
* `Verif.PseudoM.C31_arange_divides`: p c q
* `Verif.PseudoM.C31_arange_reject`: p q
* `Verif.PseudoM.C31_arange2`: p c q
* `Verif.PseudoM.C31_arange1`: p c q
* `Verif.PseudoM.C31_arange_int_false`: p c q
* `Verif.PseudoM.C31_arange_int_partial`: p c q
* `Verif.PseudoM.C31_linspace_partial`: p c q
* `Verif.PseudoM.C31_linspace_one_false`: p c q
* `Verif.PseudoM.C31_linspace_reject`: p q
* `Verif.FromDataM.C32`: p c q
* `Verif.FromDataM.C32_reject`: p c q
* `Verif.TransM.C33`: p c q
* `Verif.TransM.C33_twice`: p c q
* `Verif.TransM.C33_in_place`: p q
* `Verif.TransM.C34_false`: p c q
* `Verif.TransM.C34_bounds_false`: p q
* `Verif.TransM.C34_scale_false`: p q
* `Verif.TransM.C34_avx2_double_false`: p q
* `Verif.TransM.C34_avx2_double_align_false`: p q
* `Verif.TransM.C34_exact`: p c q
* `Verif.TransM.C34_partial`: p c q
* `Verif.TransM.C35_false`: p c q
* `Verif.TransM.C35_class_false`: p c q
* `Verif.TransM.C35_ignored`: p q
* `Verif.TransM.C35_not_implemented`: p q
* `Verif.TransM.C35_partial`: p c q
* `Verif.MulM.C36`: p c q
* `Verif.MulM.C37_order`: p c q
* `Verif.MulM.C37_value`: p c q
* `Verif.MulM.C37_reject_partial`: p c q
* `Verif.MulM.C37_reject_false`: p c q
* `Verif.MulM.C38_partial`: p c q
* `Verif.MulM.C38_order`: p c q
* `Verif.MulM.C38_false`: p c q
* `Verif.MulM.C38_transposed_false`: p c q
* `Verif.MulM.C38_empty_false`: p c q
* `Verif.MulM.C38_large_false`: p c q
* `Verif.MulM.C38_row_rejected`: p c q
* `Verif.MulM.C38_dot_rejected`: p
* `Verif.GeamM.C39_exact`: p c q
* `Verif.GeamM.C39_partial`: p c q
* `Verif.GeamM.C39_false`: p c q
* `Verif.GeamM.C39_reject`: p q
* `Verif.ScalarM.C40_false`: p c q
* `Verif.ScalarM.C40_math_partial`: p c q
* `Verif.ScalarM.C40_down_partial`: p c q
* `Verif.ScalarM.C40_up_is_math`: p c q
* `Verif.ScalarM.C40_up_partial`: p c q
* `Verif.ScalarM.C40_halfEven_partial`: p c q
* `Verif.ScalarM.C40_halfEven_ub`: p c q
* `Verif.ScalarM.C40_digits_false`: p c q
* `Verif.ScalarM.C40_double_false`: p c q
* `Verif.ScalarM.C40_double`: p c q
* `Verif.ScalarM.C40_double_nearest`: p c q
* `Verif.ScalarM.C41_false`: p c q
* `Verif.ScalarM.C41_roundTo_partial`: p c q
* `Verif.ScalarM.C41_roundUpTo_partial`: p c q
* `Verif.ScalarM.C41_roundToI_partial`: p c q
* `Verif.ScalarM.C41_roundUpToI_partial`: p c q
* `Verif.ScalarM.C41_unit_false`: p q
* `Verif.ScalarM.C41_double_false`: p c q
* `Verif.ScalarM.C42_false`: p c q
* `Verif.ScalarM.C42_clamp_limits`: p c q
* `Verif.ScalarM.C42_clamp_partial`: p c q
* `Verif.ScalarM.C42_lerp`: p c q
* `Verif.ScalarM.C42_lerp_ends`: p c q
* `Verif.ScalarM.C42_lerp_between`: p c q
* `Verif.ScalarM.C42_map`: p c q
* `Verif.ScalarM.C42_smoothStep`: p c q
* `Verif.ScalarM.C42_isClose`: p c q
* `Verif.ScalarM.C42_unsigned_false`: p c q
* `Verif.RandomM.C43_false`: p c q
* `Verif.RandomM.C43_random`: p c q
* `Verif.RandomM.C43_random_end`: p c q
* `Verif.RandomM.C43_random_int`: p c q
* `Verif.RandomM.C43_negative_false`: p c q
* `Verif.RandomM.C43_zero_false`: p c q
* `Verif.RandomM.C43_rounding_false`: p c q
* `Verif.RandomM.C43_randint_exact_partial`: p c q
* `Verif.RandomM.C43_randint_zero_partial`: p c q
* `Verif.RandomM.C43_randint_machine_partial`: p c q
* `Verif.RandomM.C44_false`: p c q
* `Verif.RandomM.C44_instances_false`: p c q
* `Verif.RandomM.C44_gaussian_false`: p c q
* `Verif.RandomM.C44_partial`: p c q
* `Verif.DualM.C45_false`: p c q
* `Verif.DualM.C45_zero_base`: p c q
* `Verif.DualM.C45_dual_derivative_partial`: p c q
* `Verif.DualM.C45_one_variable_partial`: p c q
* `Verif.DualM.C46_mulAssign_iff`: p q
* `Verif.DualM.C46_divAssign_iff`: p c q
* `Verif.DualM.C46_false`: p c q
* `Verif.DualM.C46_compound_partial`: p c q
* `Verif.HalfM.C47_exact`: p c q
* `Verif.HalfM.C47_false`: p c q
* `Verif.HalfM.C47_roundTrip_partial`: p c q
* `Verif.HalfM.C47_roundTrip_x86_partial`: p c q
* `Verif.HalfM.C48_undefined_iff`: p c q
* `Verif.HalfM.C48_too_big`: p c q
* `Verif.HalfM.C48_false`: p c q
* `Verif.HalfM.C48_nearest_partial`: p c q
* `Verif.HalfM.C48_small_partial`: p c q
* `Verif.HalfM.C49_false`: p c q
* `Verif.HalfM.C49_compare_partial`: p c q
* `Verif.HalfM.C49_neg`: p c q
* `Verif.HalfM.C49_constants_partial`: p c q
* `Verif.HalfM.C49_limits_partial`: p c q
* `Verif.HalfM.C49_e_pi_partial`: p c q
* `Verif.HalfM.C50_false`: p c q
* `Verif.HalfM.C50_postfix`: p
* `Verif.HalfM.C50_prefix_partial`: p c q
* `Verif.HalfM.C50_count`: p c q
* `Verif.Cx.C51_binary_partial`: p c q
* `Verif.Cx.C51_false`: p c q
* `Verif.Cx.C51_alias`: p c q
* `Verif.Cx.C51_inplace_partial`: p c q
* `Verif.Cx.C51_integer_false`: p
* `Verif.Cx.C51_eq`: p c q
* `Verif.Cx.C52_simple`: p c q
* `Verif.Cx.C52_tanh`: p c q
* `Verif.Cx.C52_tan`: p c q
* `Verif.Cx.C52_tan_rat`: p c q
* `Verif.Cx.C52_sqrt_partial`: p c q
* `Verif.Cx.C52_sqrt_rounded_partial`: p c q
* `Verif.Cx.C52_false`: p c q
* `Verif.Cx.C52_sqrt_double_partial`: p c q
* `Verif.Cx.C52_parts`: p c q
* `Verif.Cx.C52_reciprocals`: p c q
* `Verif.Ser.C53_deserialize`: p q
* `Verif.Ser.C53_round_trip`: p q
* `Verif.Ser.C53_false`: p q
* `Verif.Ser.C53_partial`: p q
* `Verif.Ser.C53_same_size_partial`: p q
* `Verif.Vec.C54_componentwise_partial`: p c q
* `Verif.Vec.C54_reductions`: p c q
* `Verif.Vec.C54_reductions_partial`: p c q
* `Verif.Vec.C54_iff`: p c q
* `Verif.Vec.C54_false`: p c q
* `Verif.Vec.C54_mixed_iff`: p c q
* `Verif.Vec.C54_mixed_false`: p c q
* `Verif.Vec.C54_cast_partial`: p q
* `Verif.Vec.C54_construct`: p q
* `Verif.Vec.C54_default_false`: p
* `Verif.Vec.C54_access`: p c q
* `Verif.Vec.C54_cross`: p c q
* `Verif.Vec.C54_cross_dims`: p c q
* `Verif.Vec.C54_norm_partial`: p c q
* `Verif.Vec.C54_norm_false`: p c q
* `Verif.Vec.C54_polar`: p c q
* `Verif.Vec.C54_sphere`: p c q
* `Verif.Print.C55_print_partial`: p c q
* `Verif.Print.C55_aligned_partial`: p c q
* `Verif.Print.C55_view`: p c q
* `Verif.Print.C55_other_aligned_false`: p q
* `Verif.Print.C55_zero_dim`: p q
* `Verif.Print.C55_spec_iff`: -
* `Verif.ScalarM.C56_false`: p c q
* `Verif.ScalarM.C56_partial`: p c q
* `Verif.Mpf.C57_mpf_text`: p c q
* `Verif.Time.C58_rounded`: p c q
* `Verif.Time.C58_exact_partial`: p c q
* `Verif.Time.C58_double_partial`: p c q
* `Verif.Time.C58_false`: p c q
* `Verif.Sigmoid.C59_exact_partial`: p c q
* `Verif.Sigmoid.C59_rounded_partial`: p c q
* `Verif.Sigmoid.C59_false`: p c q
* `Verif.Gpu.C60_gemv`: p c q
* `Verif.Gpu.C60_gemv_ends`: p c q
* `Verif.Gpu.C60_gemv_items`: -
* `Verif.Gpu.C60_gemv_no_columns_false`: p q
* `Verif.Gpu.C60_transpose`: p c q
* `Verif.Gpu.C60_transpose_ends`: p c q
* `Verif.Gpu.C60_transpose_grid`: p q
* `Verif.Gpu.C60_gemm_value`: p c q
* `Verif.Gpu.C60_gemm_ends`: p c q
* `Verif.Gpu.C60_gemm_tiles`: p q
* `Verif.Gpu.C60_gemm_partial`: p c q
* `Verif.Gpu.C60_gemm_outside`: p q
* `Verif.Gpu.C60_gemm_false`: p c q
* `Verif.Gpu.C60_gemm_value_false`: p c q
* `Verif.MapM.C61_map`: p q
* `Verif.MapM.C61_str`: p q
* `Verif.MapM.C61_unordered`: p c q
* `Verif.StorageM.C62_list`: p q
* `Verif.StorageM.C62_fill`: p q
* `Verif.StorageM.C62_write`: p q
* `Verif.StorageM.C62_bounds`: p q
* `Verif.StorageM.C62_move`: p q
* `Verif.HalfM.C63_undefined_iff`: p c q
* `Verif.HalfM.C63_nearest_partial`: p c q
* `Verif.HalfM.C63_overflow`: p c q
* `Verif.HalfM.C63_nonfinite`: p c q
* `Verif.HalfM.C63_false`: p c q
* `Verif.HalfM.C63_sub_nearest_partial`: p c q
* `Verif.Ser.C64_partial`: p c q
* `Verif.Ser.C64_full_device`: p c q
* `Verif.Ser.C64_text`: p c q
* `Verif.Ser.C64_false`: p c q
* `Verif.Ser.C64_false_writable`: p c q
* `Verif.Ser.C64_crash`: p c q
* `Verif.Cx.C65_acos_partial`: p c q
* `Verif.Cx.C65_acos_cos_partial`: p c q
* `Verif.Cx.C65_acosh_partial`: p c q
* `Verif.Cx.C65_acosh_cosh_partial`: p c q
* `Verif.Cx.C65_asinh_partial`: p c q
* `Verif.Cx.C65_asinh_sinh_partial`: p c q
* `Verif.Cx.C65_asin_partial`: p c q
* `Verif.Cx.C65_asin_sin_partial`: p c q
* `Verif.Cx.C65_atanh_partial`: p c q
* `Verif.Cx.C65_atan_partial`: p c q
* `Verif.Cx.C65_log_partial`: p c q
* `Verif.Cx.C65_log_far_partial`: p c q
* `Verif.Cx.C65_log_zero`: p c q
* `Verif.Cx.C65_exp_log_partial`: p c q
* `Verif.Cx.C65_pow`: p c q
* `Verif.Cx.C65_pow_partial`: p c q
* `Verif.Cx.C65_pow_zero`: p c q
* `Verif.Cx.C65_pow_false`: p c q
* `Verif.Cx.C65_log_base`: p c q
* `Verif.Cx.C65_spow`: p c q
* `Verif.Cx.C65_exp2`: p c q
* `Verif.Cx.C65_cbrt_partial`: p c q
* `Verif.Cx.C65_log_infinite_false`: p c q
* `Verif.Gpu.C66_kernel`: p c q
* `Verif.Gpu.C66_kernel_in_place`: p c q
* `Verif.Gpu.C66_kernel_ends`: p c q
* `Verif.Gpu.C66_assign`: p c q
* `Verif.Gpu.C66_assign_ends`: p c q
* `Verif.Gpu.C66_backends_agree`: p c q
* `Verif.Gpu.C66_opencl_limit`: p c q
* `Verif.Gpu.C66_cuda_limit`: p c q
* `Verif.Gpu.C66_destination_too_small`: p c q
* `Verif.Gpu.C66_false`: p c q
* `Verif.Gpu.C66_dual`: p c q
* `Verif.Gpu.C66_dual_false`: p c q
* `Verif.Gpu.C66_packets`: p c q
* `Verif.Gpu.C66_packets_false`: -
* `Verif.Gpu.C66_kernels`: p
* `Verif.Gpu.C66_missing_kernel_silent`: p
* `Verif.Gpu.C67_partial`: p c q
* `Verif.Gpu.C67_small`: p q
* `Verif.Gpu.C67_repeats`: p c q
* `Verif.Gpu.C67_other_order`: p c q
* `Verif.Gpu.C67_false`: p c q
* `Verif.Gpu.C67_range_partial`: p c q
* `Verif.Gpu.C67_range_top`: p c q
* `Verif.Gpu.C67_range_top_false`: p c q
* `Verif.Gpu.C67_float_false`: p c q
* `Verif.Gpu.C68_loop`: p c q
* `Verif.Gpu.C68_period`: p c q
* `Verif.Gpu.C68_false`: p
* `Verif.GpuSt.C69_partial`: p c q
* `Verif.GpuSt.C69_disjoint_partial`: p c q
* `Verif.GpuSt.C69_false`: p
* `Verif.GpuSt.C69_assign_empty_false`: p q
* `Verif.GpuSt.C69_double_free_false`: p c q
* `Verif.GpuSt.C69_double_alloc_false`: p c q
* `Verif.GpuSt.C69_copy_ctor_false`: p q
* `Verif.GpuSt.C69_moved_throw_false`: p q
* `Verif.GpuSt.C69_moved_lost_false`: p q
* `Verif.GpuSt.C69_moved_cuda_false`: p q
* `Verif.GpuSt.C69_leak_false`: p c q
* `Verif.GpuSt.C69_default_false`: p q
* `Verif.ViewM.C70_one_level_partial`: p c q
* `Verif.ViewM.C70_nested_partial`: p c q
* `Verif.ViewM.C70_one_dim_partial`: p c q
* `Verif.ViewM.C70_false`: p q
* `Verif.Blas.C71_copy`: p c q
* `Verif.Blas.C71_ccopy`: p c q
* `Verif.Blas.C71_axpy`: p c q
* `Verif.Blas.C71_acxpy`: p c q
* `Verif.Blas.C71_raxpy`: p c q
* `Verif.Blas.C71_scal`: p c q
* `Verif.Blas.C71_axpby`: p c q
* `Verif.Blas.C71_swap`: p c q
* `Verif.Blas.C71_rot`: p c q
* `Verif.Blas.C71_crot`: p c q
* `Verif.Blas.C72_dot`: p c q
* `Verif.Blas.C72_asum`: p c q
* `Verif.Blas.C72_iamax`: p c q
* `Verif.Blas.C72_nrm2`: p c q
* `Verif.Blas.C72_cnrm2`: p c q
* `Verif.Blas.C72_nrm2_range`: p c q
* `Verif.Blas.C73_rotg`: p c q
* `Verif.Blas.C73_crotg`: p c q
* `Verif.Blas.C73_restore_false`: p c q
* `Verif.Blas.C73_restore_partial`: p c q
* `Verif.Blas.C74_gemv`: p c q
* `Verif.Blas.C74_gemv_empty`: p
* `Verif.Blas.C75_geru`: p c q
* `Verif.Blas.C75_gerc`: p c q
* `Verif.Blas.C75_syr`: p c q
* `Verif.Blas.C75_syr2`: p c q
* `Verif.Blas.C75_her`: p c q
* `Verif.Blas.C75_her2`: p c q
* `Verif.Blas.C76_symv`: p c q
* `Verif.Blas.C76_hemv`: p c q
* `Verif.Blas.C77_trmv`: p c q
* `Verif.Blas.C77_trsv`: p c q
* `Verif.Blas.C77_inverse`: p c q
* `Verif.Blas.C78_gbmv`: p c q
* `Verif.Blas.C78_gbmv_empty`: p
* `Verif.Blas.C79_sbmv`: p c q
* `Verif.Blas.C79_hbmv`: p c q
* `Verif.Blas.C79_spmv`: p c q
* `Verif.Blas.C79_hpmv`: p c q
* `Verif.Blas.C80_spr`: p c q
* `Verif.Blas.C80_spr2`: p c q
* `Verif.Blas.C80_hpr`: p c q
* `Verif.Blas.C80_hpr2`: p c q
* `Verif.Blas.C81_tbmv`: p c q
* `Verif.Blas.C81_tpmv`: p c q
* `Verif.Blas.C81_tbsv`: p c q
* `Verif.Blas.C81_tpsv`: p c q
* `Verif.Blas.C81_band_inverse`: p c q
* `Verif.Blas.C81_pack_inverse`: p c q
* `Verif.Blas.C82_gemm_partial`: p c q
* `Verif.Blas.C82_gemm_wrong`: p c q
* `Verif.Blas.C82_gemm_real`: p c q
* `Verif.Blas.C82_false`: p c q
* `Verif.Blas.C83_symm`: p c q
* `Verif.Blas.C83_hemm`: p c q
* `Verif.Blas.C84_syrk`: p c q
* `Verif.Blas.C84_syr2k`: p c q
* `Verif.Blas.C84_herk_partial`: p c q
* `Verif.Blas.C84_her2k_partial`: p c q
* `Verif.Blas.C84_herk_assert`: p c q
* `Verif.Blas.C84_false`: p c q
* `Verif.Blas.C85_trmm`: p c q
* `Verif.Blas.C85_trsm`: p c q
* `Verif.Blas.C85_inverse`: p c q
* `Verif.Blas.C86_gbmm_left`: p c q
* `Verif.Blas.C86_gbmm_right`: p c q
* `Verif.Blas.C86_gbmm_empty`: p
* `Verif.Blas.C86_sbmm`: p c q
* `Verif.Blas.C86_hbmm`: p c q
* `Verif.Blas.C86_tbmm_partial`: p c q
* `Verif.Blas.C86_false`: p c q
* `Verif.ErrFree.C87_addX2`: p c q
* `Verif.ErrFree.C87_addSmallX2`: p c q
* `Verif.ErrFree.C87_sqrX2`: p c q
* `Verif.ErrFree.C87_sqrX2_double`: p c q
* `Verif.ErrFree.C87_sqrX2_float`: p c q
* `Verif.ErrFree.C87_false`: p c q
* `Verif.ErrFree.C88_normMinusOne`: p c q
* `Verif.ErrFree.C88_double`: p c q
* `Verif.ErrFree.C88_logP1`: p c q
* `Verif.ErrFree.C88_false`: p c q
* `Verif.ScalarM.C89_partial`: p c q
* `Verif.ScalarM.C89_zero`: p c q
* `Verif.ScalarM.C89_assert`: p c q
* `Verif.ScalarM.C89_ends`: p c q
* `Verif.ScalarM.C89_wrong`: p c q
* `Verif.ScalarM.C89_figs_wrong`: p c q
* `Verif.ScalarM.C89_double_false`: p c q
* `Verif.ScalarM.C89_false`: p c q
* `Verif.RandomM.C90_pair`: p c q
* `Verif.RandomM.C90_radius`: p c q
* `Verif.Blas.C91_gecopy`: p c q
* `Verif.Blas.C91_geaxpy`: p c q
* `Verif.Blas.C91_geaxpby`: p c q
* `Verif.Blas.C91_geraxpy`: p c q
* `Verif.Blas.C91_geraxpy_assert`: p q
* `Verif.Blas.C91_gerscal`: p c q
* `Verif.Blas.C91_geswap_partial`: p c q
* `Verif.Blas.C91_geswap_wrong`: p c q
* `Verif.Blas.C91_false`: p c q
* `Verif.Blas.C92_traxpy`: p c q
* `Verif.Blas.C92_traxpby`: p c q
* `Verif.Blas.C92_unit_assert`: p
* `Verif.Blas.C92_trcopy_copied`: p c q
* `Verif.Blas.C92_trcopy_partial`: p c q
* `Verif.Blas.C92_false`: p
* `Verif.Blas.C92_trscal_row`: p c q
* `Verif.Blas.C92_trscal_col`: p c q
* `Verif.Blas.C92_trscal_partial`: p c q
* `Verif.Blas.C92_trscal_false`: p c q
* `Verif.Blas.C93_gbcopy_partial`: p c q
* `Verif.Blas.C93_gbaxpy_partial`: p c q
* `Verif.Blas.C93_gbaxpby_partial`: p c q
* `Verif.Blas.C93_gbscal`: p c q
* `Verif.Blas.C93_false`: p
* `Verif.Blas.C94_tpcopy_partial`: p c q
* `Verif.Blas.C94_tpcopy_assert`: p
* `Verif.Blas.C94_tpaxpy_partial`: p c q
* `Verif.Blas.C94_tpaxpy_assert`: p
* `Verif.Blas.C94_tpaxpby_partial`: p c q
* `Verif.Blas.C94_false`: p c q
* `Verif.Blas.C94_tpscal_partial`: p c q
* `Verif.Blas.C94_tpscal_false`: p c q
* `Verif.Blas.C95_gecotr`: p c q
* `Verif.Blas.C95_gecotr_assert`: p
* `Verif.Blas.C95_involution`: p c q
* `Verif.Blas.C95_gbcotr`: p c q
* `Verif.Blas.C95_gbcotr_assert`: p
* `Verif.Blas.C96_gecrsmv`: p c q
* `Verif.Blas.C96_gecrsmm`: p c q
* `Verif.Blas.C97_sycrsmv`: p c q
* `Verif.Blas.C97_syccsmv`: p c q
* `Verif.Blas.C97_hecrsmv`: p c q
* `Verif.Blas.C97_heccsmv`: p c q
* `Verif.Blas.C97_sycrsmm`: p c q
* `Verif.Blas.C97_syccsmm`: p c q
* `Verif.Blas.C97_hecrsmm`: p c q
* `Verif.Blas.C97_heccsmm`: p c q
* `Verif.Blas.C97_order_needed`: p c q
* `Verif.Blas.C98_copy_partial`: p c q
* `Verif.Blas.C98_copy_false`: p q
* `Verif.Blas.C98_axpy`: p c q
* `Verif.Blas.C98_axpby`: p c q
* `Verif.Blas.C98_scal_partial`: p c q
* `Verif.Blas.C98_scal_false`: p q
* `Verif.Blas.C98_gecopy_partial`: p c q
* `Verif.Blas.C98_gecopy_column_partial`: p c q
* `Verif.Blas.C98_gecopy_assert`: p
* `Verif.Blas.C98_gecopy_false`: p q
* `Verif.Blas.C98_geaxpy`: p c q
* `Verif.Blas.C98_gescal`: p c q
* `Verif.Blas.C98_gemv_partial`: p c q
* `Verif.Blas.C98_gemv_false`: p c q
* `Verif.Timer.C99_elapsed_partial`: p c q
* `Verif.Timer.C99_exact_partial`: p c q
* `Verif.Timer.C99_accuracy_partial`: p c q
* `Verif.Timer.C99_false`: p c q
* `Verif.Timer.C99_machine_false`: p c q
* `Verif.Timer.C100_iters`: p c q
* `Verif.Timer.C100_loop`: p c q
* `Verif.Timer.C100_loop_ends`: p c q
* `Verif.Timer.C100_average_partial`: p c q
* `Verif.Timer.C100_false`: p c q
* `Verif.Timer.C100_start_false`: p c q
* `Verif.Timer.C100_start_partial`: p c q
* `Verif.Timer.C101_sleep`: p c q
* `Verif.Timer.C101_sleep_ends`: p c q
* `Verif.Timer.C101_accuracy`: p c q
* `Verif.Timer.C101_exact`: p c q
* `Verif.GpuSetup.C102_load_partial`: p c q
* `Verif.GpuSetup.C102_false`: p
* `Verif.GpuSetup.C102_read_false`: p
* `Verif.GpuSetup.C102_missing`: p q
* `Verif.GpuSetup.C102_missing_cached`: p c q
* `Verif.GpuSetup.C103_fastest_partial`: p c q
* `Verif.GpuSetup.C103_gpu`: p q
* `Verif.GpuSetup.C103_false`: p q
* `Verif.GpuSetup.C103_empty`: -
* `Verif.GpuSetup.C103_mono_false`: p
* `Verif.GpuSetup.C103_mono_partial`: p q
* `Verif.HalfM.C104_undefined_iff`: p c q
* `Verif.HalfM.C104_nearest_partial`: p c q
* `Verif.HalfM.C104_carry`: p c q
* `Verif.HalfM.C104_carry_least`: p c q
* `Verif.HalfM.C104_overflow`: p c q
* `Verif.HalfM.C104_nan`: p c q
* `Verif.HalfM.C104_inf`: p c q
* `Verif.HalfM.C104_subnormal_partial`: p c q
* `Verif.HalfM.C104_subnormal_large`: p c q
* `Verif.HalfM.C104_tiny`: p c q
* `Verif.HalfM.C104_zero_partial`: p c q
* `Verif.HalfM.C104_subnormal_x86`: p c q
* `Verif.HalfM.C104_subnormal_one`: p c q
* `Verif.HalfM.C104_false`: p c q
* `Verif.HalfM.C105_undefined_iff`: p c q
* `Verif.HalfM.C105_nearest_partial`: p c q
* `Verif.HalfM.C105_overflow`: p c q
* `Verif.HalfM.C105_small_partial`: p c q
* `Verif.HalfM.C105_special`: p c q
* `Verif.HalfM.C105_zero_x86`: p c q
* `Verif.HalfM.C105_false`: p c q
* `Verif.HalfM.C106_accuracy_partial`: p c q
* `Verif.HalfM.C106_integer_partial`: p c q
* `Verif.HalfM.C106_false`: p c q
* `Verif.MulM.C107_gemm`: p c q
* `Verif.MulM.C107_product`: p c q
* `Verif.MulM.C107_gemv`: p c q
* `Verif.MulM.C107_any_order`: p c q
* `Verif.MulM.C107_constant`: p c q
* `Verif.MulM.C107_reproducible`: p c q
* `Verif.MulM.C107_integers`: p c q
* `Verif.MulM.C107_partial_sums`: p c q
* `Verif.PseudoM.C108_linspace_partial`: p c q
* `Verif.PseudoM.C108_end_partial`: p c q
* `Verif.PseudoM.C108_end_false`: p c q
* `Verif.PseudoM.C108_arange_partial`: p c q
* `Verif.PseudoM.C108_arange_false`: p c q
* `Verif.PseudoM.C109_logspace`: p c q
* `Verif.PseudoM.C109_nan`: p c q
* `Verif.PseudoM.C109_zero`: p c q
* `Verif.Cx.C110_add`: p c q
* `Verif.Cx.C110_mul`: p c q
* `Verif.Cx.C110_div_partial`: p c q
* `Verif.Cx.C110_scalar`: p c q
* `Verif.Cx.C110_div_false`: p c q
* `Verif.Cx.C110_component_false`: p c q
* `Verif.Vec.C111_reductions_partial`: p c q
* `Verif.Vec.C111_cross`: p c q
* `Verif.Vec.C111_orthogonal_false`: p c q
* `Verif.BitSetM.Heap.C112_false`: p q
* `Verif.BitSetM.Heap.C112_value_partial`: p c q
* `Verif.BitSetM.Heap.C112_no_leak_partial`: p q
* `Verif.BitSetM.Heap.C112_assign_false`: p c q
* `Verif.BitSetM.Heap.C112_alias_false`: p q
* `Verif.BitSetM.Heap.C112_assign_leak_false`: p q
* `Verif.BitSetM.Heap.C112_move_false`: p c q
* `Verif.BitSetM.Heap.C112_return_false`: p q
* `Verif.BitSetM.Heap.C112_throw_leak_false`: p q
* `Verif.Num.C113_copySign_float`: p c q
* `Verif.Num.C113_fraction_false`: p c q
* `Verif.Num.C113_fraction_lost_false`: p c q
* `Verif.Num.C113_wide_false`: p c q
* `Verif.Num.C113_copySign_int_partial`: p c q
* `Verif.Num.C113_generic`: p c q
* `Verif.Num.C113_generic_false`: p c q
* `Verif.Num.C113_copySign_mp`: p c q
* `Verif.Num.C113_signBit`: p c q
* `Verif.Num.C113_signBit_mp`: p c q
* `Verif.Num.C113_signBit_false`: p q
* `Verif.Num.C113_ldexp_partial`: p c q
* `Verif.Num.C113_ldexp_exact`: p c q
* `Verif.Num.C113_ldexp_wrap_false`: p c q
* `Verif.Num.C113_ldexp_big_false`: p c q
* `Verif.Num.C113_ldexp_false`: p c q
* `Verif.Num.C113_ldexp_int_partial`: p c q
* `Verif.Num.C113_ldexp_mp`: p c q
* `Verif.Num.C114_false`: p c q
* `Verif.Num.C114_max_false`: p c q
* `Verif.Num.C114_nan_false`: p c q
* `Verif.Num.C114_min_partial`: p c q
* `Verif.Num.C114_max_partial`: p c q
* `Verif.Num.C114_abs_partial`: p c q
* `Verif.Num.C114_abs_false`: p
* `Verif.Num.C114_abs_float_partial`: p c q
* `Verif.Num.C114_abs_zero_false`: p c q
* `Verif.Num.C114_mod_partial`: p c q
* `Verif.Num.C114_mod_false`: p
* `Verif.Num.C114_floor_partial`: p c q
* `Verif.Num.C114_floor_false`: p c q
* `Verif.Constants.C115_pi`: p c q
* `Verif.Constants.C115_tau`: p c q
* `Verif.Constants.C115_halfPi`: p c q
* `Verif.Constants.C115_degToRad`: p c q
* `Verif.Constants.C115_radToDeg`: p c q
* `Verif.Constants.C115_piSquaredOnSix`: p c q
* `Verif.Constants.C115_sqrtPi`: p c q
* `Verif.Constants.C115_sqrt`: p c q
* `Verif.Constants.C115_goldenRatio`: p c q
* `Verif.Constants.C115_cbrt`: p c q
* `Verif.Constants.C115_e`: p c q
* `Verif.Constants.C115_sqrtE`: p c q
* `Verif.Constants.C115_log`: p c q
* `Verif.Constants.C115_eToPi`: p c q
* `Verif.Constants.C115_piOnLn2`: p c q
* `Verif.Constants.C115_twoToRoot2`: p c q
* `Verif.Constants.C115_parabolic2`: p c q
* `Verif.Constants.C115_goldenAngle`: p c q
* `Verif.Constants.C115_plasticNumber`: p c q
* `Verif.Constants.C115_wallisConstant`: p c q
* `Verif.Constants.C115_zeta3`: p c q
* `Verif.Constants.C115_eulerMascheroni`: p c q
* `Verif.Constants.C115_gaussConstant`: p c q
* `Verif.Constants.C115_recipFib`: p c q
* `Verif.Constants.C115_cahenConstant`: p c q
* `Verif.Constants.C115_lochConstant`: p c q
* `Verif.Constants.C115_dottieNumber`: p c q
* `Verif.Constants.C115_laplaceLimit`: p c q
* `Verif.Constants.C115_quadRecurrence`: p c q
* `Verif.Constants.C115_nivenConstant`: p c q
* `Verif.Constants.C115_twinPrimes`: p c q
* `Verif.Constants.C115_fellerTornier`: p c q
* `Verif.Constants.C115_gieseking`: p c q
* `Verif.Constants.C115_lightSpeed`: p c q
* `Verif.Constants.C115_earthGravity`: p c q
* `Verif.Constants.C115_minimum_partial`: p c q
* `Verif.Constants.C115_minimum_false`: p c q
* `Verif.Rfft.C116_rfft_partial`: p c q
* `Verif.Rfft.C116_empty`: p c q
* `Verif.Rfft.C116_conjugate`: p c q
* `Verif.Rfft.C116_injective`: p c q
* `Verif.Rfft.C116_size_false`: p c q
* `Verif.Rfft.C116_refused`: p c q
* `Verif.Rfft.C116_matrix_false`: p c q
* `Verif.Rfft.C116_undefined_false`: p c q
* `Verif.Rfft.C116_false`: p c q
* `Verif.MpConv.C117_false`: p c q
* `Verif.MpConv.C117_trunc`: p c q
* `Verif.MpConv.C117_mpfr_mpz`: p c q
* `Verif.MpConv.C117_mpf`: p c q
* `Verif.MpConv.C117_from_mpfr_partial`: p c q
* `Verif.MpConv.C117_integers_partial`: p c q
* `Verif.MpConv.C117_error_partial`: p c q
* `Verif.MpConv.C117_error_bits_partial`: p c q
* `Verif.MpConv.C117_small_false`: p c q
* `Verif.MpConv.C117_small_exists_false`: p c q
* `Verif.MpConv.C117_wide_false`: p c q
* `Verif.MpConv.C117_round_false`: p c q
* `Verif.MpConv.C117_to_mpfr_partial`: p c q
* `Verif.MpConv.C117_to_mpfr_error_partial`: p c q
* `Verif.MpConv.C117_digits_false`: p c q
* `Verif.FillRandom.C118_false`: p c q
* `Verif.FillRandom.C118_sequential_partial`: p q
* `Verif.FillRandom.C118_reproducible_partial`: p q
* `Verif.FillRandom.C118_range_partial`: p c q
* `Verif.FillRandom.C118_race`: p
* `Verif.FillRandom.C118_duplicate`: p q
* `Verif.FillRandom.C118_when`: p
* `Verif.FillRandom.C118_float_end`: p c q
* `Verif.CxInf.C119_false`: p c q
* `Verif.CxInf.C119_sqrt`: p c q
* `Verif.CxInf.C119_sqrt_nan`: p c q
* `Verif.CxInf.C119_acos`: p c q
* `Verif.CxInf.C119_asinh`: p c q
* `Verif.CxInf.C119_asin`: p c q
* `Verif.CxInf.C119_atanh`: p c q
* `Verif.CxInf.C119_atan`: p c q
* `Verif.CxInf.C119_proj_abs_arg`: p c q
* `Verif.CxInf.C119_exp`: p c q
* `Verif.CxInf.C119_cosh_sinh_partial`: p c q
* `Verif.CxInf.C119_cosh_sinh_false`: p c q
* `Verif.CxInf.C119_log_false`: p c q
* `Verif.CxInf.C119_log_im_partial`: p c q
* `Verif.CxInf.C119_pow_false`: p c q
* `Verif.CxInf.C119_acosh_partial`: p c q
* `Verif.CxInf.C119_acosh_false`: p c q
* `Verif.CxInf.C119_tanh_partial`: p c q
* `Verif.CxInf.C119_tanh_false`: p c q
* `Verif.CxInf.C119_nan`: p c q
* `Verif.CxInf.C120_false`: p c q
* `Verif.CxInf.C120_mul_partial`: p c q
* `Verif.CxInf.C120_mul_both_partial`: p c q
* `Verif.CxInf.C120_mul_false`: p c q
* `Verif.CxInf.C120_div_zero_false`: p c q
* `Verif.CxInf.C120_div_inf_partial`: p c q
* `Verif.CxInf.C120_div_inf_false`: p c q
* `Verif.CxInf.C120_inf_div_partial`: p c q
* `Verif.CxInf.C120_inf_div_false`: p c q
* `Verif.CxInf.C120_scalar_false`: p c q
* `Verif.CxInf.C120_scalar_partial`: p c q
* `Verif.AliasM.C121_false`: p c q
* `Verif.AliasM.C121_part_partial`: p c q
* `Verif.AliasM.C121_self_ub_false`: p c q
* `Verif.AliasM.C121_self_junk_false`: p c q
* `Verif.AliasM.C121_self_all_partial`: p c q
* `Verif.AliasM.C121_view_partial`: p c q
* `Verif.AliasM.C121_view_transpose_partial`: p c q
* `Verif.AliasM.C121_view_transpose_false`: p c q
* `Verif.AliasM.C121_dot_partial`: p c q
* `Verif.AliasM.C121_transpose_false`: p c q
* `Verif.AliasM.C121_transpose_throws_false`: p c q
* `Verif.AliasM.C121_transpose_mixes_false`: p c q
* `Verif.HeldM.C122_false`: p c q
* `Verif.HeldM.C122_copy_partial`: p
* `Verif.HeldM.C122_copy_false`: p c q
* `Verif.HeldM.C122_subscript_partial`: p c q
* `Verif.HeldM.C122_get_partial`: p c q
* `Verif.HeldM.C122_loop_partial`: p c q
* `Verif.HeldM.C122_loop_false`: p c q
* `Verif.PyM.C123_false`: p c q
* `Verif.PyM.C123_bin_partial`: p c q
* `Verif.PyM.C123_mismatch_partial`: p c q
* `Verif.PyM.C123_div_false`: p c q
* `Verif.PyM.C123_aug_adds`: p c q
* `Verif.PyM.C123_aug_partial`: p c q
* `Verif.PyM.C123_view_moves`: p c q
* `Verif.PyM.C123_get_partial`: p c q
* `Verif.PyM.C123_set_partial`: p c q
* `Verif.PyM.C123_item_moves`: p c q
* `Verif.PyM.C123_item_false`: p c q
* `Verif.PyM.C123_item_partial`: p c q
* `Verif.PyM.C123_for_partial`: p c q
* `Verif.PyM.C124_false`: p c q
* `Verif.PyM.C124_safe_partial`: p c q
* `Verif.PyM.C124_origin_partial`: p c q
* `Verif.PyArray.C125_false`: p
* `Verif.PyArray.C125_keywords_partial`: p c q
* `Verif.PyArray.C125_reject_partial`: p c q
* `Verif.PyArray.C125_positional_partial`: p
* `Verif.PyArray.C125_shape_loop_partial`: p q
* `Verif.PyArray.C125_shape_get_partial`: p q
* `Verif.ClConfig.C126_false`: p c q
* `Verif.ClConfig.C126_partial`: p q
* `Verif.ClConfig.C126_end_of_input`: p q
* `Verif.ClConfig.C126_no_devices`: p q
* `Verif.ClConfig.C126_not_a_number`: p q
* `Verif.ClConfig.C126_too_large`: p q
* `Verif.ClConfig.C127_false`: p q
* `Verif.ClConfig.C127_first_partial`: p c q
* `Verif.ClConfig.C127_never_again`: p q
* `Verif.ClConfig.C127_broken`: p c q
* `Verif.ClConfig.C127_ready_partial`: p q
* `Verif.ClConfig.C127_verbose_race`: p q
* `Verif.ClConfig.C127_devices`: p q
* `Verif.LogM.C128_assert`: p c q
* `Verif.LogM.C128_error_raw`: p c q
* `Verif.LogM.C128_error_false`: p c q
* `Verif.LogM.C128_error_partial`: p c q
* `Verif.LogM.C128_assert_box`: p c q
* `Verif.LogM.C128_status_box`: p c q
* `Verif.LogM.C128_warning_is_status`: p c q
* `Verif.LogM.C128_kind_false`: p c q
* `Verif.LogM.C128_content_partial`: p c q
* `Verif.LogM.C128_assert_content`: p c q
* `Verif.LogM.C128_braces`: p c q
* `Verif.LogM.C128_single_brace`: p c q
* `Verif.PyShape.C129_false`: p c q
* `Verif.PyShape.C129_partial`: p c q
* `Verif.PyShape.C129_too_many`: p c q
* `Verif.PyShape.C129_wraps`: p c q
* `Verif.PyShape.C129_negative`: p c q
* `Verif.PyShape.C129_unchecked`: p c q
* `Verif.PyShape.C129_text_partial`: p c q
* `Verif.TypeName.C130_false`: p c q
* `Verif.TypeName.C130_gcc`: p c q
* `Verif.TypeName.C130_clang`: p c q
* `Verif.TypeName.C130_msvc`: p c q
* `Verif.TypeName.C130_injective_partial`: p c q
* `Verif.Threads.C131_false`: p q
* `Verif.Threads.C131_sequential`: p q
* `Verif.Threads.C131_partial`: p q
* `Verif.Threads.C131_fill_all_cores`: p q
* `Verif.Threads.C131_fill_at_start`: p q
* `Verif.Threads.C131_transpose_undefined_iff`: p q
* `Verif.Threads.C131_zero`: p q
* `Verif.IntSqrt.C132_false`: p c q
* `Verif.IntSqrt.C132_partial`: p c q
* `Verif.IntSqrt.C132_int32`: p c q
* `Verif.IntSqrt.C132_iff_partial`: p c q
* `Verif.IntSqrt.C132_first`: p c q
* `Verif.IntSqrt.C132_close`: p c q
* `Verif.IntSqrt.C132_squares`: p c q
* `Verif.IntSqrt.C132_negative`: p c q
* `Verif.ClTypes.C133_false`: p c q
* `Verif.ClTypes.C133_partial`: p c q
* `Verif.ClTypes.C133_uniform_partial`: p c q
* `Verif.ClTypes.C133_undefined_iff`: p c q
* `Verif.ClTypes.C133_narrow`: p c q
* `Verif.ClTypes.C133_double_literal`: p c q
* `Verif.ClTypes.C133_int_as_float`: p
* `Verif.ClTypes.C133_packed`: p
* `Verif.ClTypes.C133_conversions`: p
* `Verif.ClTypes.C134_false`: p c q
* `Verif.ClTypes.C134_gemv_partial`: p c q
* `Verif.ClTypes.C134_gemv_undefined_iff`: p c q
* `Verif.ClTypes.C134_narrow`: p c q
* `Verif.ClTypes.C134_transpose_false`: p c q
* `Verif.ClTypes.C134_transpose_partial`: p c q
* `Verif.ClTypes.C134_transpose_unsigned`: p
* `Verif.ClTypes.C134_transpose_kernels`: p
* `Verif.VendorM.C135_false`: p c q
* `Verif.VendorM.C135_gemm_partial`: p c q
* `Verif.VendorM.C135_gemv_partial`: p c q
* `Verif.VendorM.C135_opencl_transposed`: p c q
* `Verif.VendorM.C135_complex`: p
* `Verif.VendorM.C135_mixed`: p
* `Verif.VendorM.C136_false`: p c q
* `Verif.VendorM.C136_partial`: p c q
* `Verif.VendorM.C136_transposed`: p c q
* `Verif.CudaTypes.C137_false`: p c q
* `Verif.CudaTypes.C137_packets_false`: p c q
* `Verif.CudaTypes.C137_iff`: p c q
* `Verif.CudaTypes.C137_stored`: p c q
* `Verif.CudaTypes.C137_partial`: p c q
* `Verif.CudaTypes.C137_same_partial`: p c q
* `Verif.CudaTypes.C137_default_partial`: p c q
* `Verif.CudaTypes.C137_throws`: p c q
* `Verif.CudaTypes.C137_three`: p c q
* `Verif.VendorM.C138_false`: p c q
* `Verif.VendorM.C138_partial`: p c q
* `Verif.VendorM.C138_iff`: p c q
* `Verif.VendorM.C138_tall`: p q
* `Verif.VendorM.C138_other`: p q
* `Verif.VendorM.C138_self`: p q
* `Verif.CudaFill.C139_false`: p c q
* `Verif.CudaFill.C139_repeats`: p c q
* `Verif.CudaFill.C139_consecutive_false`: p c q
* `Verif.CudaFill.C139_history_false`: p c q
* `Verif.CudaFill.C139_seeded_partial`: p c q
* `Verif.CudaFill.C139_continues_partial`: p c q
* `Verif.Vec.C140_componentwise_partial`: p c q
* `Verif.Vec.C140_dims_iff`: p c q
* `Verif.Vec.C140_generic`: p c q
* `Verif.Vec.C140_false`: p c q
* `Verif.SeedFill.C141_seeded_partial`: p c q
* `Verif.SeedFill.C141_first`: p c q
* `Verif.SeedFill.C141_seeds`: p c q
* `Verif.SeedFill.C141_second_false`: p c q
* `Verif.SeedFill.C141_host_false`: p c q
* `Verif.SeedFill.C141_false`: p c q
* `Verif.Gpu.C142_equal_partial`: p c q
* `Verif.Gpu.C142_opencl_larger`: p c q
* `Verif.Gpu.C142_opencl_smaller_false`: p c q
* `Verif.Gpu.C142_cuda_sizes`: p c q
* `Verif.Gpu.C142_cuda_smaller_false`: p c q
* `Verif.Gpu.C142_empty_false`: -
* `Verif.Gpu.C142_false`: p c q
* `Verif.MpPrec.C143_integers`: p c q
* `Verif.MpPrec.C143_relative`: p c q
* `Verif.MpPrec.C143_partial`: p c q
* `Verif.MpPrec.C143_nines`: p c q
* `Verif.MpPrec.C143_false`: p c q
* `Verif.MpPrec.C143_one_digit`: p c q
* `Verif.MpPrec.C143_asked`: p q
* `Verif.MpPrec.C143_least`: p c q
* `Verif.MpFormat.C144_partial`: p c q
* `Verif.MpFormat.C144_decimal`: p c q
* `Verif.MpFormat.C144_bases`: p c q
* `Verif.MpFormat.C144_false`: p c q
* `Verif.MpLog.C145_accuracy`: p c q
* `Verif.MpLog.C145_nearest`: p c q
* `Verif.MpLog.C145_partial`: p c q
* `Verif.MpLog.C145_thousand`: p c q
* `Verif.MpLog.C145_false`: p c q
* `Verif.StorageOom.C146_partial`: p c q
* `Verif.StorageOom.C146_no_copy_assignment`: p c q
* `Verif.StorageOom.C146_released`: p c q
* `Verif.StorageOom.C146_unchanged`: p c q
* `Verif.StorageOom.C146_assign_fails`: p c q
* `Verif.StorageOom.C146_assign_fails_empty`: p c q
* `Verif.StorageOom.C146_noassert`: p
* `Verif.StorageOom.C146_wrap`: p q
* `Verif.StorageOom.C146_false`: p
* `Verif.StorageOom.C146_noassert_false`: p
* `Verif.StorageOom.C146_size_false`: p q
* `Verif.RandomDist.C147_random`: p c q
* `Verif.RandomDist.C147_randint_partial`: p c q
* `Verif.RandomDist.C147_random_int`: p c q
* `Verif.RandomDist.C147_passes`: p c q
* `Verif.RandomDist.C147_gaussian`: p c q
* `Verif.RandomDist.C147_model`: p c q
* `Verif.RandomDist.C147_randint_zero`: p c q
* `Verif.RandomDist.C147_randint_other`: p c q
* `Verif.RandomDist.C147_randint_above`: p c q
* `Verif.RandomDist.C147_false`: p c q
* `Verif.MpFormat.C148_partial`: p c q
* `Verif.MpFormat.C148_mpq_partial`: p c q
* `Verif.MpFormat.C148_mpq_false`: p c q
* `Verif.MpFormat.C148_zero_false`: p c q
* `Verif.MpFormat.C148_width_false`: p c q
* `Verif.MpFormat.C148_sign_false`: p c q
* `Verif.MpFormat.C148_expr_false`: p c q
* `Verif.MpFormat.C148_false`: p c q
* `Verif.MpScan.C149_partial`: p c q
* `Verif.MpScan.C149_roundtrip`: p c q
* `Verif.MpScan.C149_empty`: p q
* `Verif.MpScan.C149_mpq`: p c q
* `Verif.MpScan.C149_mpq_whole`: p c q
* `Verif.MpScan.C149_octal_false`: p c q
* `Verif.MpScan.C149_throws_false`: p q
* `Verif.MpScan.C149_mpq_false`: p c q
* `Verif.MpScan.C149_false`: p c q
* `Verif.ScalarM.C150_smooth_partial`: p c q
* `Verif.ScalarM.C150_map_partial`: p c q
* `Verif.ScalarM.C150_smooth_false`: p c q
* `Verif.ScalarM.C150_map_false`: p c q
* `Verif.ScalarM.C150_false`: p c q
* `Verif.RandomDist.C151_in_sphere`: p c q
* `Verif.RandomDist.C151_value`: p c q
* `Verif.RandomDist.C151_on_sphere_partial`: p c q
* `Verif.RandomDist.C151_numbers`: p c q
* `Verif.RandomDist.C151_whole_partial`: p c q
* `Verif.RandomDist.C151_padding`: p c q
* `Verif.RandomDist.C151_false`: p c q
* `Verif.Vec.C152_partial`: p c q
* `Verif.Vec.C152_small`: p c q
* `Verif.Vec.C152_large`: p c q
* `Verif.Vec.C152_false`: p c q
* `Verif.ScalarM.C153_order_partial`: p c q
* `Verif.ScalarM.C153_odd`: p c q
* `Verif.ScalarM.C153_halfEven_order`: p c q
* `Verif.ScalarM.C153_near_partial`: p c q
* `Verif.ScalarM.C153_decimal_partial`: p c q
* `Verif.ScalarM.C153_twice_partial`: p c q
* `Verif.ScalarM.C153_decimal`: p c q
* `Verif.ScalarM.C153_false`: p c q
* `Verif.Blas.C154_trsv`: p c q
* `Verif.Blas.C154_nearby`: p c q
* `Verif.Blas.C155_nrm2`: p c q
* `Verif.Blas.C155_finite`: p c q
* `Verif.Blas.C155_pos`: p c q
* `Verif.Blas.C155_cnrm2`: p c q
* `Verif.Blas.C156_nan`: p c q
* `Verif.Blas.C156_one_partial`: p c q
* `Verif.Blas.C156_two`: p c q
* `Verif.Blas.C156_false`: p c q
* `Verif.Blas.C157_partial`: p c q
* `Verif.Blas.C157_zero`: p c q
* `Verif.Blas.C157_tiny`: p c q
* `Verif.Blas.C157_huge`: p c q
* `Verif.Blas.C157_false`: p c q
* `Verif.ScalarM.C158_fmod`: p c q
* `Verif.ScalarM.C158_roundTo_partial`: p c q
* `Verif.ScalarM.C158_roundUpTo_partial`: p c q
* `Verif.ScalarM.C158_grid`: p c q
* `Verif.ScalarM.C158_order`: p c q
* `Verif.ScalarM.C158_twice`: p c q
* `Verif.ScalarM.C158_below`: p c q
* `Verif.ScalarM.C158_upTwice`: p c q
* `Verif.ScalarM.C158_least`: p c q
* `Verif.ScalarM.C158_false`: p c q
* `Verif.DualM.C159_value`: p
* `Verif.DualM.C159_poly_partial`: p c q
* `Verif.DualM.C159_div_partial`: p c q
* `Verif.DualM.C159_sDiv_partial`: p c q
* `Verif.DualM.C159_square`: p c q
* `Verif.DualM.C159_false`: p c q
* `Verif.Blas.C160_trsm`: p c q
* `Verif.Blas.C160_residual`: p c q
* `Verif.Blas.C160_scaleLast`: p c q
* `Verif.Blas.C160_false`: p c q
* `Verif.ScalarM.C161_near_partial`: p c q
* `Verif.ScalarM.C161_decimal_partial`: p c q
* `Verif.ScalarM.C161_decimal`: p c q
* `Verif.ScalarM.C161_tiny`: p c q
* `Verif.ScalarM.C161_false`: p c q
* `Verif.ScalarM.C162_order_partial`: p c q
* `Verif.ScalarM.C162_same_partial`: p c q
* `Verif.ScalarM.C162_near_partial`: p c q
* `Verif.ScalarM.C162_finite`: p c q
* `Verif.ScalarM.C162_same`: p c q
* `Verif.ScalarM.C162_order`: p c q
* `Verif.ScalarM.C162_overflow`: p c q
* `Verif.ScalarM.C162_false`: p c q
* `Verif.Num.C163_clamp_partial`: p c q
* `Verif.Num.C163_clamp_sign`: p c q
* `Verif.Num.C163_clamp_narrow`: p c q
* `Verif.Num.C163_clamp_float`: p c q
* `Verif.Num.C163_lerp_partial`: p c q
* `Verif.Num.C163_lerp_unsigned_partial`: p c q
* `Verif.Num.C163_lerp_float`: p c q
* `Verif.Num.C163_lerp_overflow`: p c q
* `Verif.Num.C163_smooth`: p c q
* `Verif.Num.C163_false`: p c q
* `Verif.ScalarM.C163_mixed_partial`: p c q
* `Verif.ScalarM.C163_mixed_end`: p c q
* `Verif.Blas.C164_trmv`: p c q
* `Verif.Blas.C164_trmm`: p c q
* `Verif.Blas.C164_error`: p c q
* `Verif.Blas.C164_scaleLast`: p c q
* `Verif.Blas.C164_false`: p c q
* `Verif.ScalarM.C165_named`: p c q
* `Verif.ScalarM.C165_named_order`: p c q
* `Verif.ScalarM.C165_named_even`: p c q
* `Verif.ScalarM.C165_named_saturates`: p c q
* `Verif.ScalarM.C165_call_partial`: p c q
* `Verif.ScalarM.C165_call`: p c q
* `Verif.ScalarM.C165_false`: p c q
* `Verif.Blas.C166_gecrsmv`: p c q
* `Verif.Blas.C166_gecrsmm`: p c q
* `Verif.Blas.C166_sycrsmv`: p c q
* `Verif.Blas.C166_sycrsmm`: p c q
* `Verif.Blas.C166_same`: p c q
* `Verif.Blas.C166_order`: p c q
* `Verif.Blas.C167_axpy`: p c q
* `Verif.Blas.C167_axpy_self`: p c q
* `Verif.Blas.C167_scal`: p c q
* `Verif.Blas.C167_rot`: p c q
* `Verif.Blas.C167_rot_length`: p c q
* `Verif.Blas.C167_dot`: p c q
* `Verif.Blas.C167_asum`: p c q
* `Verif.Blas.C167_ger`: p c q
* `Verif.Blas.C167_direction`: p c q
* `Verif.Blas.C167_ger_symmetric`: p c q
* `Verif.Blas.C168_gemv`: p c q
* `Verif.Blas.C168_gemm`: p c q
* `Verif.Blas.C168_storage`: p c q
* `Verif.Blas.C168_column`: p c q
* `Verif.Blas.C169_symv`: p c q
* `Verif.Blas.C169_syr`: p c q
* `Verif.Blas.C169_syr2`: p c q
* `Verif.Blas.C169_ger`: p c q
* `Verif.Blas.C169_symv_triangle`: p c q
* `Verif.Blas.C169_syr_triangle`: p c q
* `Verif.Blas.C170_syrk`: p c q
* `Verif.Blas.C170_syr2k`: p c q
* `Verif.Blas.C170_symm`: p c q
* `Verif.Blas.C170_gemm`: p c q
* `Verif.Blas.C171_spr`: p c q
* `Verif.Blas.C171_spr2`: p c q
* `Verif.Blas.C171_gbmv`: p c q
* `Verif.Blas.C172_spr_syr_partial`: p c q
* `Verif.Blas.C172_spr2_syr2_partial`: p c q
* `Verif.Blas.C172_spr2_syr2_false`: p c q
* `Verif.Blas.C172_gbmv_gemv_partial`: p c q
* `Verif.Blas.C172_gbmv_gemv_false`: p c q
* `Verif.Blas.C173_spmv`: p c q
* `Verif.Blas.C173_sbmv`: p c q
* `Verif.Blas.C173_symv`: p c q
* `Verif.Blas.C174_tpsv`: p c q
* `Verif.Blas.C174_tbsv`: p c q
* `Verif.Blas.C175_tpsv_trsv_partial`: p c q
* `Verif.Blas.C175_tbsv_trsv_partial`: p c q
* `Verif.Blas.C175_tpsv_trsv_false`: p c q
* `Verif.Blas.C176_tpmv`: p c q
* `Verif.Blas.C176_tbmv`: p c q
* `Verif.Blas.C177_tpmv_trmv_partial`: p c q
* `Verif.Blas.C177_tbmv_trmv_partial`: p c q
* `Verif.Blas.C177_tpmv_trmv_false`: p c q
