Verif.Props.C35_linear	Classical.choice, Quot.sound, propext
Verif.Props.C36_empty	Classical.choice, Quot.sound, propext
Verif.Props.C26_center	Quot.sound, propext
Verif.Props.C84_same_row_violation	Classical.choice, Quot.sound, propext
Verif.Props.C63_half_partial	Classical.choice, Quot.sound, propext
Verif.Props.C42_exactly	Classical.choice, Quot.sound, propext
Verif.Props.C147_pca_columns_partial	Classical.choice, Quot.sound, propext
Verif.Props.C46_statistics	Classical.choice, Quot.sound, propext
Verif.Props.C58_library_kernels	Classical.choice, Quot.sound, propext
Verif.Props.C139_history_free_partial	Quot.sound, propext
Verif.Props.C96_square	Classical.choice, Quot.sound, propext
Verif.Props.C51_unknown	Classical.choice, Quot.sound, propext
Verif.Props.C160_responses	Classical.choice, Quot.sound, propext
Verif.Props.C103_dipls_predict	Classical.choice, Quot.sound, propext
Verif.Props.C06_concatRows	Quot.sound, propext
Verif.Props.C139_order_violation	Classical.choice, Quot.sound, propext
Verif.Props.C10_clip_one_sided	Quot.sound, propext
Verif.Props.C102_one_orthogonal_partial	Classical.choice, Quot.sound, propext
Verif.Props.C99_units	Classical.choice, Quot.sound, propext
Verif.Props.C150_standardize_partial	Classical.choice, Quot.sound, propext
Verif.Props.C143_single	Classical.choice, Quot.sound, propext
Verif.Props.C150_log_refuses	Classical.choice, Quot.sound, propext
Verif.Props.C35_constants	Classical.choice, Quot.sound, propext
Verif.Props.C145_simpls	Classical.choice, Quot.sound, propext
Verif.Props.C107_column_idempotent	Classical.choice, Quot.sound, propext
Verif.Props.C140_fast_ica_reconstruct	Classical.choice, Quot.sound, propext
Verif.Props.C43_validation	Quot.sound, propext
Verif.Props.C34_inverse_configures	Quot.sound, propext
Verif.Props.C10_clip	Quot.sound, propext
Verif.Props.C114_nipals	Classical.choice, Quot.sound, propext
Verif.Props.C108_multi	Classical.choice, Quot.sound, propext
Verif.Props.C54_single_partial	Classical.choice, Quot.sound, propext
Verif.Props.C34_configuration_matrix	Classical.choice, Quot.sound, propext
Verif.Props.C43_linear	Classical.choice, Quot.sound, propext
Verif.Props.C48_cca_violation	Classical.choice, Quot.sound, propext
Verif.Props.C48_dipls_violation	Classical.choice, Quot.sound, propext
Verif.Props.C149_pls1_standardize_partial	Classical.choice, Quot.sound, propext
Verif.Props.C143_pls	Classical.choice, Quot.sound, propext
Verif.Props.C147_dipls_violation	Classical.choice, Quot.sound, propext
Verif.Props.C143_kernels	Classical.choice, Quot.sound, propext
Verif.Props.C47_flag	Classical.choice, Quot.sound, propext
Verif.Props.C133_half_limits	Classical.choice, Quot.sound, propext
Verif.Props.C69_failed_save_violation	Classical.choice, Quot.sound, propext
Verif.Props.C134_epo	Classical.choice, Quot.sound, propext
Verif.Props.C11_containsNaN_partial	Quot.sound, propext
Verif.Props.C43_between	Classical.choice, Quot.sound, propext
Verif.Props.C04_deleteCols	Classical.choice, Quot.sound, propext
Verif.Props.C17_str_surrogate	Quot.sound, propext
Verif.Props.C88_symmetric	Classical.choice, Quot.sound, propext
Verif.Props.C154_equidistance	Classical.choice, Quot.sound, propext
Verif.Props.C19_state_partial	propext
Verif.Props.C163_rowNorm	Classical.choice, Quot.sound, propext
Verif.Props.C153_symmetric	Classical.choice, Quot.sound, propext
Verif.Props.C108_sparse	Classical.choice, Quot.sound, propext
Verif.Props.C59_semisupervised_partial	Classical.choice, Quot.sound, propext
Verif.Props.C64_pairing_violation	Classical.choice, Quot.sound, propext
Verif.Props.C17_round_trip	Classical.choice, Quot.sound, propext
Verif.Props.C45_accepts	Classical.choice, Quot.sound, propext
Verif.Props.C01_createSpectrum	Quot.sound, propext
Verif.Props.C33_left_ignored_violation	Classical.choice, Quot.sound, propext
Verif.Props.C130_shift	Classical.choice, Quot.sound, propext
Verif.Props.C103_pca	Classical.choice, Quot.sound, propext
Verif.Props.C42_zero_step	Quot.sound, propext
Verif.Props.C77_violation	Classical.choice, Quot.sound, propext
Verif.Props.C53_never_violation	Classical.choice, Quot.sound, propext
Verif.Props.C124_square_violation	Classical.choice, Quot.sound, propext
Verif.Props.C134_glsw	Classical.choice, Quot.sound, propext
Verif.Props.C70_log_layout_violation	Classical.choice, Quot.sound, propext
Verif.Props.C162_transformations	Classical.choice, Quot.sound, propext
Verif.Props.C56_slim	Classical.choice, Quot.sound, propext
Verif.Props.C147_dipls_columns	Classical.choice, Quot.sound, propext
Verif.Props.C18_decode	Classical.choice, Quot.sound, propext
Verif.Props.C154_table	Classical.choice, Quot.sound, propext
Verif.Props.C147_opls_columns	Quot.sound, propext
Verif.Props.C134_cca	Classical.choice, Quot.sound, propext
Verif.Props.C111_initialize	Classical.choice, Quot.sound, propext
Verif.Props.C121_simpls	Classical.choice, Quot.sound, propext
Verif.Props.C149_pls1_none	Classical.choice, Quot.sound, propext
Verif.Props.C78_weights	Classical.choice, Quot.sound, propext
Verif.Props.C162_standardize_violation	Classical.choice, Quot.sound, propext
Verif.Props.C31_too_few_points	Classical.choice, Quot.sound, propext
Verif.Props.C57_base_error_violation	Classical.choice, Quot.sound, propext
Verif.Props.C02_set	Classical.choice, Quot.sound, propext
Verif.Props.C22_plain_partial	Classical.choice, Quot.sound, propext
Verif.Props.C52_standardize_partial	Classical.choice, Quot.sound, propext
Verif.Props.C103_glsw	Quot.sound, propext
Verif.Props.C157_sparse_order_violation	Classical.choice, Quot.sound, propext
Verif.Props.C43_endpoints	Classical.choice, Quot.sound, propext
Verif.Props.C86_constant_violation	Classical.choice, Quot.sound, propext
Verif.Props.C117_covariance	Classical.choice, Quot.sound, propext
Verif.Props.C44_order	Classical.choice, Quot.sound, propext
Verif.Props.C61_support	Classical.choice, Quot.sound, propext
Verif.Props.C156_simpls	Classical.choice, Quot.sound, propext
Verif.Props.C13_sorted_partial	Classical.choice, Quot.sound, propext
Verif.Props.C59_semisupervised_violation	Classical.choice, Quot.sound, propext
Verif.Props.C141_index	Classical.choice, Quot.sound, propext
Verif.Props.C148_pls1_trains	Classical.choice, Quot.sound, propext
Verif.Props.C27_center	Classical.choice, Quot.sound, propext
Verif.Props.C143_simpls	Classical.choice, Quot.sound, propext
Verif.Props.C113_vcpls	Classical.choice, Quot.sound, propext
Verif.Props.C60_loop_violation	Classical.choice, Quot.sound, propext
Verif.Props.C143_sparse_nipals	Classical.choice, Quot.sound, propext
Verif.Props.C103_sparse_transform_violation	Classical.choice, Quot.sound, propext
Verif.Props.C139_memoryless_log	Quot.sound
Verif.Props.C50_pls1_monotone	Classical.choice, Quot.sound, propext
Verif.Props.C113_dipls_unsupervised	Classical.choice, Quot.sound, propext
Verif.Props.C11_which_sorted	Quot.sound, propext
Verif.Props.C140_savitzky_golay	Classical.choice, Quot.sound, propext
Verif.Props.C61_median_violation	Classical.choice, Quot.sound, propext
Verif.Props.C107_rowNorm_idempotent	Classical.choice, Quot.sound, propext
Verif.Props.C01_like	Quot.sound, propext
Verif.Props.C84_do_transform_partial	Classical.choice, Quot.sound, propext
Verif.Props.C113_prm_transform	Classical.choice, Quot.sound, propext
Verif.Props.C34_no_reference	Quot.sound, propext
Verif.Props.C23_nan_violation	Classical.choice, Quot.sound, propext
Verif.Props.C124_correlation	Classical.choice, Quot.sound, propext
Verif.Props.C156_dipls_supervised	Classical.choice, Quot.sound, propext
Verif.Props.C87_wide_violation	Classical.choice, Quot.sound, propext
Verif.Props.C35_formula	Classical.choice, Quot.sound, propext
Verif.Props.C28_standardize	Classical.choice, Quot.sound, propext
Verif.Props.C66_untrained	Classical.choice, Quot.sound, propext
Verif.Props.C163_center	Classical.choice, Quot.sound, propext
Verif.Props.C113_kernel_poly	Classical.choice, Quot.sound, propext
Verif.Props.C10_clip_idem	Classical.choice, Quot.sound, propext
Verif.Props.C135_simpls	Classical.choice, Quot.sound, propext
Verif.Props.C146_bad_sample	Classical.choice, Quot.sound, propext
Verif.Props.C113_dipls_supervised	Classical.choice, Quot.sound, propext
Verif.Props.C93_axis	Classical.choice, Quot.sound, propext
Verif.Props.C64_identity_partial	Classical.choice, Quot.sound, propext
Verif.Props.C46_debug	Classical.choice, Quot.sound, propext
Verif.Props.C48_dipls_stale	Classical.choice, Quot.sound, propext
Verif.Props.C44_first_error	
Verif.Props.C154_mixture	Classical.choice, Quot.sound, propext
Verif.Props.C45_constructible	Classical.choice, Quot.sound, propext
Verif.Props.C64_downweights_partial	Classical.choice, Quot.sound, propext
Verif.Props.C139_reset_violation	Classical.choice, Quot.sound, propext
Verif.Props.C95_sqrt	Classical.choice, Quot.sound, propext
Verif.Props.C162_linear_kernel	Classical.choice, Quot.sound, propext
Verif.Props.C107_msc_idempotent	Classical.choice, Quot.sound, propext
Verif.Props.C109_example	Classical.choice, Quot.sound, propext
Verif.Props.C103_savitzkyGolay2	Classical.choice, Quot.sound, propext
Verif.Props.C81_low	Classical.choice, Quot.sound, propext
Verif.Props.C145_nipals	Classical.choice, Quot.sound, propext
Verif.Props.C138_back	Classical.choice, Quot.sound, propext
Verif.Props.C122_pls1	Classical.choice, Quot.sound, propext
Verif.Props.C83_batch_violation	Classical.choice, Quot.sound, propext
Verif.Props.C40_self	Classical.choice, Quot.sound, propext
Verif.Props.C90_cauchy_schwarz	Classical.choice, Quot.sound, propext
Verif.Props.C62_loadings_violation	Classical.choice, Quot.sound, propext
Verif.Props.C29_inverse_violation	Classical.choice, Quot.sound, propext
Verif.Props.C108_prm	Classical.choice, Quot.sound, propext
Verif.Props.C140_scatter_correction_plain	Classical.choice, Quot.sound, propext
Verif.Props.C05_transpose_mul	Classical.choice, Quot.sound, propext
Verif.Props.C145_pca	Classical.choice, Quot.sound, propext
Verif.Props.C40_value	Classical.choice, Quot.sound, propext
Verif.Props.C45_valid	Classical.choice, Quot.sound, propext
Verif.Props.C12_eq_shape	Quot.sound
Verif.Props.C142_euclidean_violation	
Verif.Props.C95_pow	Classical.choice, Quot.sound, propext
Verif.Props.C134_sparse_example	Classical.choice, Quot.sound, propext
Verif.Props.C140_getter_limits	Classical.choice, Quot.sound, propext
Verif.Props.C57_filtered_partial	Classical.choice, Quot.sound, propext
Verif.Props.C92_train	Classical.choice, Quot.sound, propext
Verif.Props.C155_units_violation	Classical.choice, Quot.sound, propext
Verif.Props.C106_poly	Classical.choice, Quot.sound, propext
Verif.Props.C39_single	Classical.choice, Quot.sound, propext
Verif.Props.C21_file_in_the_way	Classical.choice, Quot.sound, propext
Verif.Props.C103_nipals_transform	Classical.choice, Quot.sound, propext
Verif.Props.C26_log	Quot.sound, propext
Verif.Props.C135_opls	Classical.choice, Quot.sound, propext
Verif.Props.C145_single_predict	Classical.choice, Quot.sound, propext
Verif.Props.C103_stacked	Quot.sound, propext
Verif.Props.C121_pca	Classical.choice, Quot.sound, propext
Verif.Props.C64_weights_partial	Classical.choice, Quot.sound, propext
Verif.Props.C107_msc	Classical.choice, Quot.sound, propext
Verif.Props.C111_limits	Classical.choice, Quot.sound, propext
Verif.Props.C147_prm_columns	Classical.choice, Quot.sound, propext
Verif.Props.C29_transform_partial	Classical.choice, Quot.sound, propext
Verif.Props.C149_simpls_none	Classical.choice, Quot.sound, propext
Verif.Props.C91_max	Classical.choice, Quot.sound, propext
Verif.Props.C145_dipls	Classical.choice, Quot.sound, propext
Verif.Props.C106_linear	Classical.choice, Quot.sound, propext
Verif.Props.C124_uncorrelated	Classical.choice, Quot.sound, propext
Verif.Props.C145_opls	Classical.choice, Quot.sound, propext
Verif.Props.C54_fixed_point_violation	Classical.choice, Quot.sound, propext
Verif.Props.C123_training	Classical.choice, Quot.sound, propext
Verif.Props.C161_alpha_limits	Classical.choice, Quot.sound, propext
Verif.Props.C46_prm_violation	Classical.choice, Quot.sound, propext
Verif.Props.C131_simpls	Classical.choice, Quot.sound, propext
Verif.Props.C113_opls_base	Classical.choice, Quot.sound, propext
Verif.Props.C47_check_message	Classical.choice, Quot.sound, propext
Verif.Props.C140_fast_ica_transform	Classical.choice, Quot.sound, propext
Verif.Props.C50_pls1	Classical.choice, Quot.sound, propext
Verif.Props.C147_kernel_rows	Classical.choice, Quot.sound, propext
Verif.Props.C01_zeros_no_rows_violation	Quot.sound
Verif.Props.C20_one_byte_violation	Classical.choice, Quot.sound, propext
Verif.Props.C147_kernel_columns	Classical.choice, Quot.sound, propext
Verif.Props.C04_select_all	Quot.sound, propext
Verif.Props.C139_first_spectrum	Quot.sound, propext
Verif.Props.C140_fast_ica_sources_limits	Classical.choice, Quot.sound, propext
Verif.Props.C68_randn_range_violation	Classical.choice, Quot.sound, propext
Verif.Props.C145_cca	Classical.choice, Quot.sound, propext
Verif.Props.C92_sign	Classical.choice, Quot.sound, propext
Verif.Props.C145_multi_predict	Classical.choice, Quot.sound, propext
Verif.Props.C157_sparse_partial	Classical.choice, Quot.sound, propext
Verif.Props.C155_units_partial	Classical.choice, Quot.sound, propext
Verif.Props.C49_transform	Classical.choice, Quot.sound, propext
Verif.Props.C147_ygradient_columns	Classical.choice, Quot.sound, propext
Verif.Props.C06_concatRows_assoc	Quot.sound, propext
Verif.Props.C103_pls1_predict	Classical.choice, Quot.sound, propext
Verif.Props.C112_nipals	Classical.choice, Quot.sound, propext
Verif.Props.C72_modes	Classical.choice, Quot.sound, propext
Verif.Props.C64_errors	Classical.choice, Quot.sound, propext
Verif.Props.C75_linear_partial	Classical.choice, Quot.sound, propext
Verif.Props.C12_helperEqual_partial	Quot.sound, propext
Verif.Props.C39_agree	Classical.choice, Quot.sound, propext
Verif.Props.C162_residual_weights	Classical.choice, Quot.sound, propext
Verif.Props.C113_get_matrix_limits	Classical.choice, Quot.sound, propext
Verif.Props.C28_single_row_violation	Classical.choice, Quot.sound, propext
Verif.Props.C87_cross_violation	Classical.choice, Quot.sound, propext
Verif.Props.C149_kernel_rbf	Classical.choice, Quot.sound, propext
Verif.Props.C52_none	Classical.choice, Quot.sound, propext
Verif.Props.C135_nipals	Classical.choice, Quot.sound, propext
Verif.Props.C100_supervised	Classical.choice, Quot.sound, propext
Verif.Props.C31_derivative_too_high	Classical.choice, Quot.sound, propext
Verif.Props.C21_save_partial	Classical.choice, Quot.sound, propext
Verif.Props.C145_standardize	Classical.choice, Quot.sound, propext
Verif.Props.C32_linear	Classical.choice, Quot.sound, propext
Verif.Props.C14_set_effect	Classical.choice, Quot.sound, propext
Verif.Props.C25_max_index_violation	Quot.sound, propext
Verif.Props.C147_sparse_rows	Quot.sound, propext
Verif.Props.C18_injective	Classical.choice, Quot.sound, propext
Verif.Props.C103_fast_ica_violation	Classical.choice, Quot.sound, propext
Verif.Props.C86_epo_filter	Classical.choice, Quot.sound, propext
Verif.Props.C134_nipals_example	Classical.choice, Quot.sound, propext
Verif.Props.C80_hull	Classical.choice, Quot.sound, propext
Verif.Props.C154_calibration_pls1	Classical.choice, Quot.sound, propext
Verif.Props.C59_messages	Classical.choice, Quot.sound, propext
Verif.Props.C63_validation	Classical.choice, Quot.sound, propext
Verif.Props.C131_kernel_rbf	Classical.choice, Quot.sound, propext
Verif.Props.C58_scores	Classical.choice, Quot.sound, propext
Verif.Props.C26_passThrough	
Verif.Props.C143_kernelPls	Classical.choice, Quot.sound, propext
Verif.Props.C107_savitzkyGolay	Classical.choice, Quot.sound, propext
Verif.Props.C45_nan	Classical.choice, Quot.sound, propext
Verif.Props.C94_vector_to_diagonal	Quot.sound, propext
Verif.Props.C161_glsw_partial	Classical.choice, Quot.sound, propext
Verif.Props.C162_leverage_weights	Classical.choice, Quot.sound, propext
Verif.Props.C15_svd_violation	Classical.choice, Quot.sound, propext
Verif.Props.C24_least_squares	Classical.choice, Quot.sound, propext
Verif.Props.C143_multi	Classical.choice, Quot.sound, propext
Verif.Props.C83_single_row_violation	Classical.choice, Quot.sound, propext
Verif.Props.C113_simpls	Classical.choice, Quot.sound, propext
Verif.Props.C28_constant_column_violation	Classical.choice, Quot.sound, propext
Verif.Props.C58_centred	Classical.choice, Quot.sound, propext
Verif.Props.C137_features	Classical.choice, Quot.sound, propext
Verif.Props.C61_norm_violation	Classical.choice, Quot.sound, propext
Verif.Props.C159_order	Classical.choice, Quot.sound, propext
Verif.Props.C11_whereVector	Quot.sound, propext
Verif.Props.C90_norm2_eye	Classical.choice, Quot.sound, propext
Verif.Props.C38_fresh_partial	propext
Verif.Props.C134_vcpls_example	Classical.choice, Quot.sound, propext
Verif.Props.C139_no_samples_violation	Classical.choice, Quot.sound, propext
Verif.Props.C96_rectangular	Classical.choice, Quot.sound, propext
Verif.Props.C156_dipls_unsupervised	Classical.choice, Quot.sound, propext
Verif.Props.C46_simpls_violation	Classical.choice, Quot.sound, propext
Verif.Props.C143_dipls	Classical.choice, Quot.sound, propext
Verif.Props.C141_rows	Classical.choice, Quot.sound, propext
Verif.Props.C64_nonorthogonal_violation	Classical.choice, Quot.sound, propext
Verif.Props.C145_mixture	Classical.choice, Quot.sound, propext
Verif.Props.C48_pca	Classical.choice, Quot.sound, propext
Verif.Props.C16_dominant	Classical.choice, Quot.sound, propext
Verif.Props.C131_pls1	Classical.choice, Quot.sound, propext
Verif.Props.C46_refuses	Classical.choice, Quot.sound, propext
Verif.Props.C120_answers	Classical.choice, Quot.sound, propext
Verif.Props.C96_singular	Classical.choice, Quot.sound, propext
Verif.Props.C49_scores	Classical.choice, Quot.sound, propext
Verif.Props.C103_equidistance	Classical.choice, Quot.sound, propext
Verif.Props.C06_concatColumns	Classical.choice, Quot.sound, propext
Verif.Props.C108_kernel	Classical.choice, Quot.sound, propext
Verif.Props.C147_opls_rows	Quot.sound, propext
Verif.Props.C159_units_centred	Classical.choice, Quot.sound, propext
Verif.Props.C131_kernel	Classical.choice, Quot.sound, propext
Verif.Props.C88_parallel_violation	Classical.choice, Quot.sound, propext
Verif.Props.C57_base_data	Classical.choice, Quot.sound, propext
Verif.Props.C102_two_orthogonal_violation	Classical.choice, Quot.sound, propext
Verif.Props.C13_eigenpairs_partial	Quot.sound, propext
Verif.Props.C04_getSubMatrix_error	Classical.choice, Quot.sound, propext
Verif.Props.C85_values	Classical.choice, Quot.sound, propext
Verif.Props.C54_result	Classical.choice, Quot.sound, propext
Verif.Props.C98_rotation	Classical.choice, Quot.sound, propext
Verif.Props.C150_center_local	Classical.choice, Quot.sound, propext
Verif.Props.C48_kernel_partial	Classical.choice, Quot.sound, propext
Verif.Props.C110_nan_violation	Classical.choice, Quot.sound, propext
Verif.Props.C29_stale_violation	Classical.choice, Quot.sound, propext
Verif.Props.C108_pca	Classical.choice, Quot.sound, propext
Verif.Props.C114_kernel	Classical.choice, Quot.sound, propext
Verif.Props.C75_transform	Classical.choice, Quot.sound, propext
Verif.Props.C95_tanh	Classical.choice, Quot.sound, propext
Verif.Props.C113_nipals_transform_response	Classical.choice, Quot.sound, propext
Verif.Props.C124_violation	Classical.choice, Quot.sound, propext
Verif.Props.C141_median_laws	Classical.choice, Quot.sound, propext
Verif.Props.C113_pls1_transform	Classical.choice, Quot.sound, propext
Verif.Props.C82_nipals	Classical.choice, Quot.sound, propext
Verif.Props.C147_pls1_rows	Classical.choice, Quot.sound, propext
Verif.Props.C53_multi_violation	Classical.choice, Quot.sound, propext
Verif.Props.C109_coefficients	Classical.choice, Quot.sound, propext
Verif.Props.C13_svd	Quot.sound, propext
Verif.Props.C159_routines	Classical.choice, Quot.sound, propext
Verif.Props.C94_fill_diagonal	Classical.choice, Quot.sound, propext
Verif.Props.C66_plain_partial	Classical.choice, Quot.sound, propext
Verif.Props.C113_kernel_linear	Classical.choice, Quot.sound, propext
Verif.Props.C57_orthogonal	Classical.choice, Quot.sound, propext
Verif.Props.C89_exponential	Classical.choice, Quot.sound, propext
Verif.Props.C89_cube	Classical.choice, Quot.sound, propext
Verif.Props.C07_scalar	Quot.sound, propext
Verif.Props.C125_approximation	Classical.choice, Quot.sound, propext
Verif.Props.C42_start_too_small	Classical.choice, Quot.sound, propext
Verif.Props.C03_setRow_error	Classical.choice, Quot.sound, propext
Verif.Props.C04_getSubMatrix	Classical.choice, Quot.sound, propext
Verif.Props.C136_pls1	Classical.choice, Quot.sound, propext
Verif.Props.C12_helperEqual_ext	Classical.choice, Quot.sound, propext
Verif.Props.C38_quantile_violation	propext
Verif.Props.C140_standardize	Classical.choice, Quot.sound, propext
Verif.Props.C101_linear_kernel	Classical.choice, Quot.sound, propext
Verif.Props.C46_fastica	Classical.choice, Quot.sound, propext
Verif.Props.C143_nipals_partial	Classical.choice, Quot.sound, propext
Verif.Props.C148_pls1	Classical.choice, Quot.sound, propext
Verif.Props.C60_leverage_partial	Classical.choice, Quot.sound, propext
Verif.Props.C108_pls1	Classical.choice, Quot.sound, propext
Verif.Props.C113_sparse_transform	Classical.choice, Quot.sound, propext
Verif.Props.C78_fit	Classical.choice, Quot.sound, propext
Verif.Props.C134_yGlsw	Classical.choice, Quot.sound, propext
Verif.Props.C14_inplace_local	Quot.sound, propext
Verif.Props.C140_pass_through_violation	Classical.choice, Quot.sound, propext
Verif.Props.C39_symmetric	Classical.choice, Quot.sound, propext
Verif.Props.C93_zero_column_violation	Classical.choice, Quot.sound, propext
Verif.Props.C34_short_spectrum	Classical.choice, Quot.sound, propext
Verif.Props.C19_always_empty_violation	propext
Verif.Props.C87_white_partial	Classical.choice, Quot.sound, propext
Verif.Props.C108_single	Classical.choice, Quot.sound, propext
Verif.Props.C108_cca	Classical.choice, Quot.sound, propext
Verif.Props.C157_pca	Classical.choice, Quot.sound, propext
Verif.Props.C141_single_limits	Classical.choice, Quot.sound, propext
Verif.Props.C34_total	Classical.choice, Quot.sound, propext
Verif.Props.C05_raw_copies	Classical.choice, Quot.sound, propext
Verif.Props.C71_unconfigured	propext
Verif.Props.C103_downsample	Quot.sound, propext
Verif.Props.C03_setColumn_error	Classical.choice, Quot.sound, propext
Verif.Props.C23_plain_violation	Quot.sound, propext
Verif.Props.C115_shrinks	Classical.choice, Quot.sound, propext
Verif.Props.C113_prm	Classical.choice, Quot.sound, propext
Verif.Props.C31_single_point_violation	Classical.choice, Quot.sound, propext
Verif.Props.C134_vcpls	Classical.choice, Quot.sound, propext
Verif.Props.C153_coefficients	Classical.choice, Quot.sound, propext
Verif.Props.C160_poly	Classical.choice, Quot.sound, propext
Verif.Props.C143_sparse	Classical.choice, Quot.sound, propext
Verif.Props.C44_empty	
Verif.Props.C80_violation	Classical.choice, Quot.sound, propext
Verif.Props.C138_savgol	Classical.choice, Quot.sound, propext
Verif.Props.C140_pca_configure	Classical.choice, Quot.sound, propext
Verif.Props.C103_cca_transform	Classical.choice, Quot.sound, propext
Verif.Props.C30_domain	Classical.choice, Quot.sound, propext
Verif.Props.C158_new_partial	Classical.choice, Quot.sound, propext
Verif.Props.C39_entries	Classical.choice, Quot.sound, propext
Verif.Props.C81_order_violation	Classical.choice, Quot.sound, propext
Verif.Props.C11_containsNaN_violation	Quot.sound, propext
Verif.Props.C103_selection	Quot.sound
Verif.Props.C41_forms_agree	Classical.choice, Quot.sound, propext
Verif.Props.C103_prm_predict	Quot.sound, propext
Verif.Props.C20_full_top_byte_violation	Classical.choice, Quot.sound, propext
Verif.Props.C14_shared_violation	Quot.sound, propext
Verif.Props.C149_simpls_center	Classical.choice, Quot.sound, propext
Verif.Props.C107_standardize	Classical.choice, Quot.sound, propext
Verif.Props.C34_reference	Classical.choice, Quot.sound, propext
Verif.Props.C114_krylov	Classical.choice, Quot.sound, propext
Verif.Props.C147_simpls_rows	Quot.sound, propext
Verif.Props.C53_single_partial	Classical.choice, Quot.sound, propext
Verif.Props.C147_scaling	Classical.choice, Quot.sound, propext
Verif.Props.C129_roundtrip	Classical.choice, Quot.sound, propext
Verif.Props.C121_kernel	Classical.choice, Quot.sound, propext
Verif.Props.C82_trained	Classical.choice, Quot.sound, propext
Verif.Props.C67_no_columns_violation	Classical.choice, Quot.sound, propext
Verif.Props.C91_shape_predicates	Classical.choice, Quot.sound, propext
Verif.Props.C143_opls	Classical.choice, Quot.sound, propext
Verif.Props.C42_negative_step	Classical.choice, Quot.sound, propext
Verif.Props.C157_glsw_alpha	Classical.choice, Quot.sound, propext
Verif.Props.C115_growth	Classical.choice, Quot.sound, propext
Verif.Props.C47_refuses	Classical.choice, Quot.sound, propext
Verif.Props.C140_pass_through_weak	Quot.sound
Verif.Props.C103_center	Classical.choice, Quot.sound, propext
Verif.Props.C21_no_directory_violation	Quot.sound, propext
Verif.Props.C01_zeros_square	Quot.sound, propext
Verif.Props.C51_standardize_value	Classical.choice, Quot.sound, propext
Verif.Props.C91_trace	Classical.choice, Quot.sound, propext
Verif.Props.C154_log_limits	Classical.choice, Quot.sound, propext
Verif.Props.C39_errors	Quot.sound, propext
Verif.Props.C73_same_scores	Classical.choice, Quot.sound, propext
Verif.Props.C151_simpls	Classical.choice, Quot.sound, propext
Verif.Props.C135_limits	Classical.choice, Quot.sound, propext
Verif.Props.C134_cca_options	Classical.choice, Quot.sound, propext
Verif.Props.C71_standardize_state	Classical.choice, Quot.sound, propext
Verif.Props.C130_gain	Classical.choice, Quot.sound, propext
Verif.Props.C163_standardize	Classical.choice, Quot.sound, propext
Verif.Props.C67_padding	Classical.choice, Quot.sound, propext
Verif.Props.C17_int_range	Classical.choice, Quot.sound, propext
Verif.Props.C61_direction_partial	Classical.choice, Quot.sound, propext
Verif.Props.C145_read_off	Classical.choice, Quot.sound, propext
Verif.Props.C34_constant_reference_violation	Classical.choice, Quot.sound, propext
Verif.Props.C74_same_predictions	Classical.choice, Quot.sound, propext
Verif.Props.C35_ramp	Classical.choice, Quot.sound, propext
Verif.Props.C31_scale_violation	Classical.choice, Quot.sound, propext
Verif.Props.C134_opls_example	Classical.choice, Quot.sound, propext
Verif.Props.C45_raises	Classical.choice, Quot.sound, propext
Verif.Props.C52_center_partial	Classical.choice, Quot.sound, propext
Verif.Props.C162_opls_pls1	Classical.choice, Quot.sound, propext
Verif.Props.C35_rejected	Classical.choice, Quot.sound, propext
Verif.Props.C152_center_violation	Classical.choice, Quot.sound, propext
Verif.Props.C91_trace_value	Classical.choice, Quot.sound, propext
Verif.Props.C09_mean	Classical.choice, Quot.sound, propext
Verif.Props.C135_scores	Classical.choice, Quot.sound, propext
Verif.Props.C120_forgotten	Classical.choice, Quot.sound, propext
Verif.Props.C138_downsample_linear	Classical.choice, Quot.sound, propext
Verif.Props.C39_rbf	Classical.choice, Quot.sound, propext
Verif.Props.C01_filled	Quot.sound, propext
Verif.Props.C01_filled_negative	Quot.sound
Verif.Props.C86_errors	Classical.choice, Quot.sound, propext
Verif.Props.C103_pls1_transform	Classical.choice, Quot.sound, propext
Verif.Props.C57_filtered_violation	Classical.choice, Quot.sound, propext
Verif.Props.C122_nipals	Classical.choice, Quot.sound, propext
Verif.Props.C143_opls_transform	Classical.choice, Quot.sound, propext
Verif.Props.C148_sum	Classical.choice, Quot.sound, propext
Verif.Props.C69_failed_save_partial	Classical.choice, Quot.sound, propext
Verif.Props.C120_pls1_partial	Classical.choice, Quot.sound, propext
Verif.Props.C47_refit	Classical.choice, Quot.sound, propext
Verif.Props.C67_roundtrip_partial	Classical.choice, Quot.sound, propext
Verif.Props.C135_pls1	Classical.choice, Quot.sound, propext
Verif.Props.C157_sg_order	Classical.choice, Quot.sound, propext
Verif.Props.C162_glsw_partial	Classical.choice, Quot.sound, propext
Verif.Props.C146_more_than_predictors	Classical.choice, Quot.sound, propext
Verif.Props.C100_unsupervised	Classical.choice, Quot.sound, propext
Verif.Props.C104_partial	Classical.choice, Quot.sound, propext
Verif.Props.C92_ridge	Classical.choice, Quot.sound, propext
Verif.Props.C01_fromColumn_partial	Quot.sound, propext
Verif.Props.C60_residuals_violation	Classical.choice, Quot.sound, propext
Verif.Props.C93_invariant	Classical.choice, Quot.sound, propext
Verif.Props.C38_defaults	Quot.sound, propext
Verif.Props.C148_preprocessing	Classical.choice, Quot.sound, propext
Verif.Props.C97_all_components	Classical.choice, Quot.sound, propext
Verif.Props.C60_predict	Classical.choice, Quot.sound, propext
Verif.Props.C163_log_inverse	Classical.choice, Quot.sound, propext
Verif.Props.C146_regular	Classical.choice, Quot.sound, propext
Verif.Props.C128_simpls	Classical.choice, Quot.sound, propext
Verif.Props.C41_violation	Classical.choice, Quot.sound, propext
Verif.Props.C145_linear_kernel	Classical.choice, Quot.sound, propext
Verif.Props.C110_infinities	Classical.choice, Quot.sound, propext
Verif.Props.C71_standardize_overflow	Classical.choice, Quot.sound, propext
Verif.Props.C150_standardize_local	Classical.choice, Quot.sound, propext
Verif.Props.C48_ica_components_violation	Classical.choice, Quot.sound, propext
Verif.Props.C134_yEpo	Classical.choice, Quot.sound, propext
Verif.Props.C134_sparse	Classical.choice, Quot.sound, propext
Verif.Props.C103_selected	Quot.sound
Verif.Props.C146_prep_few_samples	Classical.choice, Quot.sound, propext
Verif.Props.C12_eq_inf_violation	Quot.sound, propext
Verif.Props.C151_evenly	Classical.choice, Quot.sound, propext
Verif.Props.C143_pls1	Classical.choice, Quot.sound, propext
Verif.Props.C134_kernel	Classical.choice, Quot.sound, propext
Verif.Props.C145_sparse	Classical.choice, Quot.sound, propext
Verif.Props.C28_inverse_partial	Classical.choice, Quot.sound, propext
Verif.Props.C90_norm2	Classical.choice, Quot.sound, propext
Verif.Props.C56_count_violation	Classical.choice, Quot.sound, propext
Verif.Props.C55_least_squares	Classical.choice, Quot.sound, propext
Verif.Props.C01_fromColumn_empty_violation	Quot.sound
Verif.Props.C162_opls	Classical.choice, Quot.sound, propext
Verif.Props.C90_submultiplicative_violation	Classical.choice, Quot.sound, propext
Verif.Props.C162_median	Classical.choice, Quot.sound, propext
Verif.Props.C121_opls	Classical.choice, Quot.sound, propext
Verif.Props.C162_simpls	Classical.choice, Quot.sound, propext
Verif.Props.C147_sparse_columns	Classical.choice, Quot.sound, propext
Verif.Props.C79_partial	Classical.choice, Quot.sound, propext
Verif.Props.C52_center_value	Classical.choice, Quot.sound, propext
Verif.Props.C146_training_ends	Classical.choice, Quot.sound, propext
Verif.Props.C51_none	Classical.choice, Quot.sound, propext
Verif.Props.C140_filters	Classical.choice, Quot.sound, propext
Verif.Props.C60_weights_partial	Classical.choice, Quot.sound, propext
Verif.Props.C50_least_squares	Classical.choice, Quot.sound, propext
Verif.Props.C40_range	Classical.choice, Quot.sound, propext
Verif.Props.C156_dipls_limits	Classical.choice, Quot.sound, propext
Verif.Props.C128_simpls_scaled	Classical.choice, Quot.sound, propext
Verif.Props.C120_opls_partial	Classical.choice, Quot.sound, propext
Verif.Props.C90_norm2_value	Classical.choice, Quot.sound, propext
Verif.Props.C32_values	Classical.choice, Quot.sound, propext
Verif.Props.C108_pls	Classical.choice, Quot.sound, propext
Verif.Props.C139_center_nan_violation	Classical.choice, Quot.sound, propext
Verif.Props.C24_constant_nan	Classical.choice, Quot.sound, propext
Verif.Props.C152_kernelPls	Classical.choice, Quot.sound, propext
Verif.Props.C02_get	Classical.choice, Quot.sound, propext
Verif.Props.C158_again_violation	Quot.sound, propext
Verif.Props.C03_setRow	Classical.choice, Quot.sound, propext
Verif.Props.C61_predict	Classical.choice, Quot.sound, propext
Verif.Props.C150_center	Classical.choice, Quot.sound, propext
Verif.Props.C51_center_value	Classical.choice, Quot.sound, propext
Verif.Props.C39_mismatch	Quot.sound
Verif.Props.C37_misaligned_violation	Classical.choice, Quot.sound, propext
Verif.Props.C129_str	Classical.choice, Quot.sound, propext
Verif.Props.C46_pca	Classical.choice, Quot.sound, propext
Verif.Props.C134_opls	Classical.choice, Quot.sound, propext
Verif.Props.C89_logCosH	Classical.choice, Quot.sound, propext
Verif.Props.C81_symmetric_partial	Classical.choice, Quot.sound, propext
Verif.Props.C08_scaleByColumnVector_partial	Classical.choice, Quot.sound, propext
Verif.Props.C20_big_int_partial	Classical.choice, Quot.sound, propext
Verif.Props.C151_pls1	Classical.choice, Quot.sound, propext
Verif.Props.C113_two_models	Quot.sound, propext
Verif.Props.C162_geometric_median	Classical.choice, Quot.sound, propext
Verif.Props.C152_center_partial	Classical.choice, Quot.sound, propext
Verif.Props.C108_opls	Classical.choice, Quot.sound, propext
Verif.Props.C162_nipals	Classical.choice, Quot.sound, propext
Verif.Props.C109_predictions	Classical.choice, Quot.sound, propext
Verif.Props.C129_shape	Classical.choice, Quot.sound, propext
Verif.Props.C150_standardize_violation	Classical.choice, Quot.sound, propext
Verif.Props.C152_kernelPls_scores	Classical.choice, Quot.sound, propext
Verif.Props.C81_partial	Classical.choice, Quot.sound, propext
Verif.Props.C103_fft_violation	Classical.choice, Quot.sound, propext
Verif.Props.C88_step_partial	Classical.choice, Quot.sound, propext
Verif.Props.C103_cca_transform_response	Classical.choice, Quot.sound, propext
Verif.Props.C95_sqrt_negative	Classical.choice, Quot.sound, propext
Verif.Props.C109_selected	Classical.choice, Quot.sound, propext
Verif.Props.C60_case_weights	Classical.choice, Quot.sound, propext
Verif.Props.C103_poly_kernel	Quot.sound, propext
Verif.Props.C118_least_squares	Classical.choice, Quot.sound, propext
Verif.Props.C28_unit_variance	Classical.choice, Quot.sound, propext
Verif.Props.C97_exhausted	Classical.choice, Quot.sound, propext
Verif.Props.C156_opls_pls1	Classical.choice, Quot.sound, propext
Verif.Props.C67_to_string	Classical.choice, Quot.sound, propext
Verif.Props.C43_identity	Classical.choice, Quot.sound, propext
Verif.Props.C110_to_string_defaults	Classical.choice, Quot.sound, propext
Verif.Props.C13_singular_values_partial	Quot.sound, propext
Verif.Props.C23_sort_sorted_partial	Classical.choice, Quot.sound, propext
Verif.Props.C26_rowNorm_violation	Classical.choice, Quot.sound, propext
Verif.Props.C121_nipals	Classical.choice, Quot.sound, propext
Verif.Props.C138_refine	Classical.choice, Quot.sound, propext
Verif.Props.C30_inverse_first	Classical.choice, Quot.sound, propext
Verif.Props.C114_simpls	Classical.choice, Quot.sound, propext
Verif.Props.C103_nipals_transform_response	Classical.choice, Quot.sound, propext
Verif.Props.C137_kernel	Classical.choice, Quot.sound, propext
Verif.Props.C96_solve_errors	Classical.choice, Quot.sound, propext
Verif.Props.C127_contracts	Classical.choice, Quot.sound, propext
Verif.Props.C96_one_sided	Classical.choice, Quot.sound, propext
Verif.Props.C103_pca_transform_violation	Classical.choice, Quot.sound, propext
Verif.Props.C47_pls1_response	Classical.choice, Quot.sound, propext
Verif.Props.C33_savitzkyGolay	Classical.choice, Quot.sound, propext
Verif.Props.C118_least_noise	Classical.choice, Quot.sound, propext
Verif.Props.C147_nipals_violation	Classical.choice, Quot.sound, propext
Verif.Props.C22_sort_perm	Classical.choice, Quot.sound, propext
Verif.Props.C68_rand_reproducible	Classical.choice, Quot.sound, propext
Verif.Props.C146_constant_response	Classical.choice, Quot.sound, propext
Verif.Props.C45_invalid	Classical.choice, Quot.sound, propext
Verif.Props.C50_monotone	Classical.choice, Quot.sound, propext
Verif.Props.C137_interpolates	Classical.choice, Quot.sound, propext
Verif.Props.C138_back_downsample	Classical.choice, Quot.sound, propext
Verif.Props.C119_optimal	Classical.choice, Quot.sound, propext
Verif.Props.C153_interpolation	Classical.choice, Quot.sound, propext
Verif.Props.C47_ccafilter_violation	Classical.choice, Quot.sound, propext
Verif.Props.C108_nipals	Classical.choice, Quot.sound, propext
Verif.Props.C97_reaches	Classical.choice, Quot.sound, propext
Verif.Props.C103_opls_predict	Classical.choice, Quot.sound, propext
Verif.Props.C113_sparse	Classical.choice, Quot.sound, propext
Verif.Props.C38_assignments	Classical.choice, Quot.sound, propext
Verif.Props.C01_fromRow	Quot.sound, propext
Verif.Props.C140_multi_filter_weak	Quot.sound, propext
Verif.Props.C36_round_trip	Classical.choice, Quot.sound, propext
Verif.Props.C90_norm1	Classical.choice, Quot.sound, propext
Verif.Props.C06_concat_axis	Quot.sound, propext
Verif.Props.C148_product	Classical.choice, Quot.sound, propext
Verif.Props.C31_exact_on_polynomials	Classical.choice, Quot.sound, propext
Verif.Props.C46_unknown_name	Classical.choice, Quot.sound, propext
Verif.Props.C145_pls1_transform	Classical.choice, Quot.sound, propext
Verif.Props.C60_weights_violation	Classical.choice, Quot.sound, propext
Verif.Props.C145_rbf_limits	Classical.choice, Quot.sound, propext
Verif.Props.C49_pls1	Classical.choice, Quot.sound, propext
Verif.Props.C145_center	Classical.choice, Quot.sound, propext
Verif.Props.C162_pca	Classical.choice, Quot.sound, propext
Verif.Props.C62_components_partial	Classical.choice, Quot.sound, propext
Verif.Props.C03_setColumn	Classical.choice, Quot.sound, propext
Verif.Props.C113_dipls_semisupervised	Classical.choice, Quot.sound, propext
Verif.Props.C120_sparse_violation	Classical.choice, Quot.sound, propext
Verif.Props.C140_glsw	Classical.choice, Quot.sound, propext
Verif.Props.C106_rbf	Classical.choice, Quot.sound, propext
Verif.Props.C103_multiFilter	Classical.choice, Quot.sound, propext
Verif.Props.C141_mean_stdev	Classical.choice, Quot.sound, propext
Verif.Props.C34_no_inverse	Classical.choice, Quot.sound, propext
Verif.Props.C108_sparse_nipals	Classical.choice, Quot.sound, propext
Verif.Props.C48_cca_stale	Classical.choice, Quot.sound, propext
Verif.Props.C10_sign_abs_ext	Classical.choice, Quot.sound, propext
Verif.Props.C151_pls1_center	Classical.choice, Quot.sound, propext
Verif.Props.C40_symmetric	Classical.choice, Quot.sound, propext
Verif.Props.C46_status	Classical.choice, Quot.sound, propext
Verif.Props.C160_degree_one	Classical.choice, Quot.sound, propext
Verif.Props.C120_dipls_violation	Classical.choice, Quot.sound, propext
Verif.Props.C68_randn_partial	Classical.choice, Quot.sound, propext
Verif.Props.C78_scores	Classical.choice, Quot.sound, propext
Verif.Props.C103_kernel_predict	Classical.choice, Quot.sound, propext
Verif.Props.C68_rand_errors	Quot.sound, propext
Verif.Props.C146_prep_exhausted	Classical.choice, Quot.sound, propext
Verif.Props.C108_dipls	Classical.choice, Quot.sound, propext
Verif.Props.C42_columns	Classical.choice, Quot.sound, propext
Verif.Props.C147_glsw_rows	Classical.choice, Quot.sound, propext
Verif.Props.C143_constant_violation	Classical.choice, Quot.sound, propext
Verif.Props.C161_ygrad_fit	Classical.choice, Quot.sound, propext
Verif.Props.C48_retrain_partial	Classical.choice, Quot.sound, propext
Verif.Props.C103_center_inverse	Classical.choice, Quot.sound, propext
Verif.Props.C06_multiConcat_axis	Quot.sound, propext
Verif.Props.C147_pca_violation	Classical.choice, Quot.sound, propext
Verif.Props.C60_single_pass_violation	Classical.choice, Quot.sound, propext
Verif.Props.C103_linear_kernel	Quot.sound, propext
Verif.Props.C154_pipeline	Classical.choice, Quot.sound, propext
Verif.Props.C45_always_legal	Classical.choice, Quot.sound, propext
Verif.Props.C40_mismatch	Classical.choice, Quot.sound, propext
Verif.Props.C68_like_partial	Classical.choice, Quot.sound, propext
Verif.Props.C25_max_index_partial	Quot.sound, propext
Verif.Props.C35_gradient_sign_violation	Classical.choice, Quot.sound, propext
Verif.Props.C132_supervised_partial	Classical.choice, Quot.sound, propext
Verif.Props.C27_center_zero_means	Classical.choice, Quot.sound, propext
Verif.Props.C146_prep_training_ends	Classical.choice, Quot.sound, propext
Verif.Props.C144_partition_int	Classical.choice, Quot.sound, propext
Verif.Props.C147_prm_rows	Classical.choice, Quot.sound, propext
Verif.Props.C85_derivative_partial	Classical.choice, Quot.sound, propext
Verif.Props.C95_apply	Quot.sound
Verif.Props.C66_white_partial	Classical.choice, Quot.sound, propext
Verif.Props.C140_pass_through_not_safe_violation	Classical.choice, Quot.sound, propext
Verif.Props.C120_kernel_violation	Classical.choice, Quot.sound, propext
Verif.Props.C163_equidistance	Classical.choice, Quot.sound, propext
Verif.Props.C159_rotation	Classical.choice, Quot.sound, propext
Verif.Props.C140_center	Classical.choice, Quot.sound, propext
Verif.Props.C31_coefficients	Classical.choice, Quot.sound, propext
Verif.Props.C47_missing_violation	Classical.choice, Quot.sound, propext
Verif.Props.C12_eq_partial	Quot.sound, propext
Verif.Props.C145_prm	Classical.choice, Quot.sound, propext
Verif.Props.C86_weights_violation	Classical.choice, Quot.sound, propext
Verif.Props.C107_rowNorm	Classical.choice, Quot.sound, propext
Verif.Props.C140_ygradient_glsw	Classical.choice, Quot.sound, propext
Verif.Props.C124_predictions	Classical.choice, Quot.sound, propext
Verif.Props.C157_sparse_small_violation	Classical.choice, Quot.sound, propext
Verif.Props.C108_glsw	Classical.choice, Quot.sound, propext
Verif.Props.C161_epo	Classical.choice, Quot.sound, propext
Verif.Props.C146_prep_bad_training	Classical.choice, Quot.sound, propext
Verif.Props.C116_principal_components	Classical.choice, Quot.sound, propext
Verif.Props.C13_singular_values_violation	Quot.sound, propext
Verif.Props.C85_sign_violation	Classical.choice, Quot.sound, propext
Verif.Props.C59_unsupervised	Classical.choice, Quot.sound, propext
Verif.Props.C59_supervised	Classical.choice, Quot.sound, propext
Verif.Props.C159_units	Classical.choice, Quot.sound, propext
Verif.Props.C103_savitzkyGolay	Classical.choice, Quot.sound, propext
Verif.Props.C06_concatRows_split	Classical.choice, Quot.sound, propext
Verif.Props.C44_append	
Verif.Props.C113_overwritten	Classical.choice, Quot.sound, propext
Verif.Props.C120_supported	Classical.choice, Quot.sound, propext
Verif.Props.C123_loop	Classical.choice, Quot.sound, propext
Verif.Props.C66_reconstruct_violation	Classical.choice, Quot.sound, propext
Verif.Props.C113_kernel_rbf	Classical.choice, Quot.sound, propext
Verif.Props.C04_getRow_getColumn	Classical.choice, Quot.sound, propext
Verif.Props.C46_constructor	Classical.choice, Quot.sound, propext
Verif.Props.C146_exhausted	Classical.choice, Quot.sound, propext
Verif.Props.C62_constant_violation	Classical.choice, Quot.sound, propext
Verif.Props.C133_bounded	Classical.choice, Quot.sound, propext
Verif.Props.C147_cca_rows	Classical.choice, Quot.sound, propext
Verif.Props.C150_log	Quot.sound, propext
Verif.Props.C55_width	Classical.choice, Quot.sound, propext
Verif.Props.C113_nipals	Classical.choice, Quot.sound, propext
Verif.Props.C103_sparse_predict	Classical.choice, Quot.sound, propext
Verif.Props.C138_equidistance	Classical.choice, Quot.sound, propext
Verif.Props.C94_get_from_vector	Classical.choice, Quot.sound, propext
Verif.Props.C40_decreasing	Classical.choice, Quot.sound, propext
Verif.Props.C06_multiConcat_columns	Classical.choice, Quot.sound, propext
Verif.Props.C67_errors	Quot.sound, propext
Verif.Props.C129_empty_violation	Quot.sound, propext
Verif.Props.C85_errors	Classical.choice, Quot.sound, propext
Verif.Props.C111_construct	Classical.choice, Quot.sound, propext
Verif.Props.C149_standardize_violation	Classical.choice, Quot.sound, propext
Verif.Props.C01_diag_partial	Quot.sound, propext
Verif.Props.C162_dipls_limits	Classical.choice, Quot.sound, propext
Verif.Props.C123_pass	Classical.choice, Quot.sound, propext
Verif.Props.C12_eq_nan	Quot.sound, propext
Verif.Props.C75_violation	Classical.choice, Quot.sound, propext
Verif.Props.C136_simpls	Classical.choice, Quot.sound, propext
Verif.Props.C38_robust_violation	Quot.sound, propext
Verif.Props.C147_glsw_columns	Classical.choice, Quot.sound, propext
Verif.Props.C128_repeat_center	Classical.choice, Quot.sound, propext
Verif.Props.C67_table_partial	Classical.choice, Quot.sound, propext
Verif.Props.C46_known_name	Classical.choice, Quot.sound, propext
Verif.Props.C153_superfluous_order	Classical.choice, Quot.sound, propext
Verif.Props.C157_downsample	Classical.choice, Quot.sound, propext
Verif.Props.C84_refit_violation	Classical.choice, Quot.sound, propext
Verif.Props.C99_column_units_differ	Classical.choice, Quot.sound, propext
Verif.Props.C131_pls1_center	Classical.choice, Quot.sound, propext
Verif.Props.C162_epo	Classical.choice, Quot.sound, propext
Verif.Props.C50_width	Classical.choice, Quot.sound, propext
Verif.Props.C48_ica_violation	Classical.choice, Quot.sound, propext
Verif.Props.C134_simpls	Classical.choice, Quot.sound, propext
Verif.Props.C127_order	Classical.choice, Quot.sound, propext
Verif.Props.C08_scaleByColumnVector_violation	Classical.choice, Quot.sound, propext
Verif.Props.C156_center	Classical.choice, Quot.sound, propext
Verif.Props.C30_values	Classical.choice, Quot.sound, propext
Verif.Props.C128_repeat	Classical.choice, Quot.sound, propext
Verif.Props.C41_same_width_partial	Classical.choice, Quot.sound, propext
Verif.Props.C46_works	Classical.choice, Quot.sound, propext
Verif.Props.C133_model	Classical.choice, Quot.sound, propext
Verif.Props.C139_memoryless	Quot.sound, propext
Verif.Props.C11_any_all	Quot.sound, propext
Verif.Props.C14_independent_partial	Quot.sound, propext
Verif.Props.C48_pls1_object	Classical.choice, Quot.sound, propext
Verif.Props.C51_center_partial	Classical.choice, Quot.sound, propext
Verif.Props.C01_eye_square	Quot.sound, propext
Verif.Props.C145_pls1_predict	Classical.choice, Quot.sound, propext
Verif.Props.C07_mul_assoc	Classical.choice, Quot.sound, propext
Verif.Props.C34_overlap_violation	Classical.choice, Quot.sound, propext
Verif.Props.C45_unvalidated_violation	Classical.choice, Quot.sound, propext
Verif.Props.C45_ranges_all	Classical.choice, Quot.sound, propext
Verif.Props.C02_set_set	Quot.sound, propext
Verif.Props.C67_separator_violation	Classical.choice, Quot.sound, propext
Verif.Props.C113_opls	Classical.choice, Quot.sound, propext
Verif.Props.C37_single_row_partial	Classical.choice, Quot.sound, propext
Verif.Props.C157_prm_C	Classical.choice, Quot.sound, propext
Verif.Props.C147_pls1_columns	Classical.choice, Quot.sound, propext
Verif.Props.C156_opls	Classical.choice, Quot.sound, propext
Verif.Props.C132_unsupervised_partial	Classical.choice, Quot.sound, propext
Verif.Props.C01_range_empty_violation	Quot.sound, propext
Verif.Props.C156_standardize	Classical.choice, Quot.sound, propext
Verif.Props.C16_sorted_pairs	Classical.choice, Quot.sound, propext
Verif.Props.C148_constant_violation	Classical.choice, Quot.sound, propext
Verif.Props.C34_untouched	Classical.choice, Quot.sound, propext
Verif.Props.C70_log_float_partial	Classical.choice, Quot.sound, propext
Verif.Props.C36_mode_by_int	Classical.choice, Quot.sound, propext
Verif.Props.C106_limits	Classical.choice, Quot.sound, propext
Verif.Props.C56_kept_partial	Classical.choice, Quot.sound, propext
Verif.Props.C103_simpls_transform	Quot.sound, propext
Verif.Props.C152_none	Classical.choice, Quot.sound, propext
Verif.Props.C32_too_narrow	Classical.choice, Quot.sound, propext
Verif.Props.C30_base	Classical.choice, Quot.sound, propext
Verif.Props.C38_power_violation	propext
Verif.Props.C134_opls_pls1	Classical.choice, Quot.sound, propext
Verif.Props.C113_kernel_base	Classical.choice, Quot.sound, propext
Verif.Props.C63_lambda_violation	Classical.choice, Quot.sound, propext
Verif.Props.C132_alike_partial	Classical.choice, Quot.sound, propext
Verif.Props.C65_N_violation	Classical.choice, Quot.sound, propext
Verif.Props.C103_standardize	Classical.choice, Quot.sound, propext
Verif.Props.C94_diagonal_scales	Classical.choice, Quot.sound, propext
Verif.Props.C01_eye	Quot.sound, propext
Verif.Props.C55_scores_partial	Classical.choice, Quot.sound, propext
Verif.Props.C134_kernel_example	Classical.choice, Quot.sound, propext
Verif.Props.C149_rbf_default_limits	Classical.choice, Quot.sound, propext
Verif.Props.C57_base_exception	Classical.choice, Quot.sound, propext
Verif.Props.C08_vectorOp	Classical.choice, Quot.sound, propext
Verif.Props.C07_entrywise	Quot.sound, propext
Verif.Props.C59_rows	Classical.choice, Quot.sound, propext
Verif.Props.C103_rbf_kernel	Classical.choice, Quot.sound, propext
Verif.Props.C157_sg_window	Classical.choice, Quot.sound, propext
Verif.Props.C74_same_scores	Classical.choice, Quot.sound, propext
Verif.Props.C17_str_ok	Classical.choice, Quot.sound, propext
Verif.Props.C14_distinct_partial	Quot.sound, propext
Verif.Props.C86_order_partial	Classical.choice, Quot.sound, propext
Verif.Props.C80_bounds	Classical.choice, Quot.sound, propext
Verif.Props.C120_nipals_partial	Classical.choice, Quot.sound, propext
Verif.Props.C43_no_columns	Classical.choice, Quot.sound, propext
Verif.Props.C14_no_side_effects	Quot.sound, propext
Verif.Props.C130_linear	Classical.choice, Quot.sound, propext
Verif.Props.C01_eye_negative	Quot.sound, propext
Verif.Props.C158_unsupervised_violation	Quot.sound, propext
Verif.Props.C122_kernel	Classical.choice, Quot.sound, propext
Verif.Props.C154_calibration	Classical.choice, Quot.sound, propext
Verif.Props.C34_corrected_partial	Classical.choice, Quot.sound, propext
Verif.Props.C147_nipals_rows_partial	Classical.choice, Quot.sound, propext
Verif.Props.C62_loadings_partial	Classical.choice, Quot.sound, propext
Verif.Props.C103_multi_predict	Classical.choice, Quot.sound, propext
Verif.Props.C94_num_elements	Quot.sound, propext
Verif.Props.C110_roundtrip	Classical.choice, Quot.sound, propext
Verif.Props.C60_bound	Classical.choice, Quot.sound, propext
Verif.Props.C107_center	Classical.choice, Quot.sound, propext
Verif.Props.C160_linear	Classical.choice, Quot.sound, propext
Verif.Props.C103_one_at_a_time	Classical.choice, Quot.sound, propext
Verif.Props.C88_parallel_partial	Classical.choice, Quot.sound, propext
Verif.Props.C01_create_toRaw_partial	Quot.sound, propext
Verif.Props.C128_pls1	Classical.choice, Quot.sound, propext
Verif.Props.C46_names	Classical.choice, Quot.sound, propext
Verif.Props.C143_prm	Classical.choice, Quot.sound, propext
Verif.Props.C104_violation	Classical.choice, Quot.sound, propext
Verif.Props.C103_opls_transform	Classical.choice, Quot.sound, propext
Verif.Props.C15_svd_partial	Classical.choice, Quot.sound, propext
Verif.Props.C147_cca_columns	Classical.choice, Quot.sound, propext
Verif.Props.C111_documented	Classical.choice, Quot.sound, propext
Verif.Props.C61_lambda_violation	Classical.choice, Quot.sound, propext
Verif.Props.C145_glsw	Classical.choice, Quot.sound, propext
Verif.Props.C112_sparse	Classical.choice, Quot.sound, propext
Verif.Props.C52_standardize_value	Classical.choice, Quot.sound, propext
Verif.Props.C88_deflation_partial	Classical.choice, Quot.sound, propext
Verif.Props.C103_standardize_inverse	Classical.choice, Quot.sound, propext
Verif.Props.C91_head	Quot.sound, propext
Verif.Props.C108_simpls	Classical.choice, Quot.sound, propext
Verif.Props.C38_validation	propext
Verif.Props.C138_mix	Classical.choice, Quot.sound, propext
Verif.Props.C130_energy	Classical.choice, Quot.sound, propext
Verif.Props.C103_kernel_transform	Classical.choice, Quot.sound, propext
Verif.Props.C65_keeps_clutter_violation	Classical.choice, Quot.sound, propext
Verif.Props.C148_center_round_trip	Classical.choice, Quot.sound, propext
Verif.Props.C162_dipls	Classical.choice, Quot.sound, propext
Verif.Props.C160_rbf	Classical.choice, Quot.sound, propext
Verif.Props.C129_final_newline	Classical.choice, Quot.sound, propext
Verif.Props.C27_center_width	Classical.choice, Quot.sound, propext
Verif.Props.C153_mirror	Classical.choice, Quot.sound, propext
Verif.Props.C92_lambda_violation	Classical.choice, Quot.sound, propext
Verif.Props.C81_violation	Classical.choice, Quot.sound, propext
Verif.Props.C36_not_invertible	Classical.choice, Quot.sound, propext
Verif.Props.C143_vcpls	Classical.choice, Quot.sound, propext
Verif.Props.C45_int	Classical.choice, Quot.sound, propext
Verif.Props.C163_log	Classical.choice, Quot.sound, propext
Verif.Props.C05_asReal	Classical.choice, Quot.sound, propext
Verif.Props.C141_median	Classical.choice, Quot.sound, propext
Verif.Props.C103_log	Quot.sound, propext
Verif.Props.C51_standardize_partial	Classical.choice, Quot.sound, propext
Verif.Props.C162_right_prediction	Classical.choice, Quot.sound, propext
Verif.Props.C139_error	Quot.sound, propext
Verif.Props.C113_pls1	Classical.choice, Quot.sound, propext
Verif.Props.C26_standardize	Quot.sound, propext
Verif.Props.C120_simpls_violation	Classical.choice, Quot.sound, propext
Verif.Props.C146_constant_predictor	Classical.choice, Quot.sound, propext
Verif.Props.C65_projection_partial	Classical.choice, Quot.sound, propext
Verif.Props.C67_fixed_decimals	Classical.choice, Quot.sound, propext
Verif.Props.C38_failed_configure_violation	propext
Verif.Props.C154_rowNorm_limits	Classical.choice, Quot.sound, propext
Verif.Props.C131_kernel_linear	Classical.choice, Quot.sound, propext
Verif.Props.C140_row_norm	Classical.choice, Quot.sound, propext
Verif.Props.C93_columns	Classical.choice, Quot.sound, propext
Verif.Props.C18_overflow	Classical.choice, Quot.sound, propext
Verif.Props.C127_epo	Classical.choice, Quot.sound, propext
Verif.Props.C68_rand_consumes	Classical.choice, Quot.sound, propext
Verif.Props.C12_helperEqual_nan_violation	Quot.sound, propext
Verif.Props.C33_savitzkyGolay2_partial	Classical.choice, Quot.sound, propext
Verif.Props.C81_mixed_partial	Classical.choice, Quot.sound, propext
Verif.Props.C64_symmetric	Classical.choice, Quot.sound, propext
Verif.Props.C105_partial	Classical.choice, Quot.sound, propext
Verif.Props.C134_prm	Classical.choice, Quot.sound, propext
Verif.Props.C01_range_partial	Quot.sound, propext
Verif.Props.C134_nipals_options	Classical.choice, Quot.sound, propext
Verif.Props.C05_transpose	Quot.sound
Verif.Props.C61_dependence	Classical.choice, Quot.sound, propext
Verif.Props.C154_chain	Classical.choice, Quot.sound, propext
Verif.Props.C22_plain_violation	Quot.sound, propext
Verif.Props.C08_scaleByRowVector	Classical.choice, Quot.sound, propext
Verif.Props.C113_nipals_transform	Classical.choice, Quot.sound, propext
Verif.Props.C17_float_and_other	propext
Verif.Props.C51_center_violation	Classical.choice, Quot.sound, propext
Verif.Props.C96_solve	Classical.choice, Quot.sound, propext
Verif.Props.C52_center_violation	Classical.choice, Quot.sound, propext
Verif.Props.C147_dipls_rows_partial	Classical.choice, Quot.sound, propext
Verif.Props.C19_matrix_violation	Classical.choice, Quot.sound, propext
Verif.Props.C103_passThrough	Quot.sound, propext
Verif.Props.C132_violation	Classical.choice, Quot.sound, propext
Verif.Props.C13_stale_cache_violation	Quot.sound, propext
Verif.Props.C29_roundtrip_violation	Classical.choice, Quot.sound, propext
Verif.Props.C45_deflation_mode	Classical.choice, Quot.sound, propext
Verif.Props.C40_documented_violation	Classical.choice, Quot.sound, propext
Verif.Props.C88_maxIter_violation	Classical.choice, Quot.sound, propext
Verif.Props.C138_center	Classical.choice, Quot.sound, propext
Verif.Props.C98_order	Classical.choice, Quot.sound, propext
Verif.Props.C122_simpls	Classical.choice, Quot.sound, propext
Verif.Props.C140_pca_transform	Classical.choice, Quot.sound, propext
Verif.Props.C108_vcpls	Classical.choice, Quot.sound, propext
Verif.Props.C76_loadings_violation	Classical.choice, Quot.sound, propext
Verif.Props.C155_rotation_partial	Classical.choice, Quot.sound, propext
Verif.Props.C26_standardize_violation	Classical.choice, Quot.sound, propext
Verif.Props.C109_trained	Classical.choice, Quot.sound, propext
Verif.Props.C139_savitzky_golay_violation	Classical.choice, Quot.sound, propext
Verif.Props.C78_predict_training	Classical.choice, Quot.sound, propext
Verif.Props.C123_limit	Classical.choice, Quot.sound, propext
Verif.Props.C11_which	Quot.sound, propext
Verif.Props.C07_mul	Classical.choice, Quot.sound, propext
Verif.Props.C103_simpls_predict	Quot.sound, propext
Verif.Props.C09_sum	Classical.choice, Quot.sound, propext
Verif.Props.C103_dipls_transform	Classical.choice, Quot.sound, propext
Verif.Props.C153_smoothing_noise	Classical.choice, Quot.sound, propext
Verif.Props.C39_linear	Classical.choice, Quot.sound, propext
Verif.Props.C02_set_error	Classical.choice, Quot.sound, propext
Verif.Props.C160_unit	Classical.choice, Quot.sound, propext
Verif.Props.C73_same_predictions	Classical.choice, Quot.sound, propext
Verif.Props.C48_kernel_violation	Classical.choice, Quot.sound, propext
Verif.Props.C05_copy	Quot.sound
Verif.Props.C141_median_nan	Quot.sound, propext
Verif.Props.C113_kernel_base_transform	Classical.choice, Quot.sound, propext
Verif.Props.C145_kernel	Classical.choice, Quot.sound, propext
Verif.Props.C140_scatter_correction	Classical.choice, Quot.sound, propext
Verif.Props.C139_values	Classical.choice, Quot.sound, propext
Verif.Props.C86_filter_partial	Classical.choice, Quot.sound, propext
Verif.Props.C01_create	Classical.choice, Quot.sound, propext
Verif.Props.C103_rowNorm	Classical.choice, Quot.sound, propext
Verif.Props.C46_new	Classical.choice, Quot.sound, propext
Verif.Props.C157_simpls_count	Classical.choice, Quot.sound, propext
Verif.Props.C41_explicit_gamma_partial	Classical.choice, Quot.sound, propext
Verif.Props.C103_nipals_predict	Classical.choice, Quot.sound, propext
Verif.Props.C07_mul_add	Classical.choice, Quot.sound, propext
Verif.Props.C154_downsample	Classical.choice, Quot.sound, propext
Verif.Props.C38_accepted	Classical.choice, Quot.sound, propext
Verif.Props.C18_layout	Classical.choice, Quot.sound, propext
Verif.Props.C127_differences	Classical.choice, Quot.sound, propext
Verif.Props.C161_solver_order_violation	Classical.choice, Quot.sound, propext
Verif.Props.C157_rbf_gamma	Classical.choice, Quot.sound, propext
Verif.Props.C147_nipals_columns	Classical.choice, Quot.sound, propext
Verif.Props.C94_diag	Quot.sound, propext
Verif.Props.C93_rows	Classical.choice, Quot.sound, propext
Verif.Props.C68_randn_violation	Quot.sound, propext
Verif.Props.C29_rowStd	Classical.choice, Quot.sound, propext
Verif.Props.C86_covariance_partial	Classical.choice, Quot.sound, propext
Verif.Props.C152_kernelPls_mixing	Classical.choice, Quot.sound, propext
Verif.Props.C74_response	Classical.choice, Quot.sound, propext
Verif.Props.C126_terminates	Classical.choice, Quot.sound, propext
Verif.Props.C82_all_selected	Classical.choice, Quot.sound, propext
Verif.Props.C83_one_component_partial	Classical.choice, Quot.sound, propext
Verif.Props.C148_standardize_round_trip	Classical.choice, Quot.sound, propext
Verif.Props.C149_pls1_center	Classical.choice, Quot.sound, propext
Verif.Props.C45_any_value	Classical.choice, Quot.sound, propext
Verif.Props.C92_weights	Classical.choice, Quot.sound, propext
Verif.Props.C113_simpls_transform	Classical.choice, Quot.sound, propext
Verif.Props.C121_pls1	Classical.choice, Quot.sound, propext
Verif.Props.C121_dipls	Classical.choice, Quot.sound, propext
Verif.Props.C153_smoothing_bounded	Classical.choice, Quot.sound, propext
Verif.Props.C55_slim_violation	Classical.choice, Quot.sound, propext
Verif.Props.C80_optimal	Classical.choice, Quot.sound, propext
Verif.Props.C147_simpls_columns	Quot.sound, propext
Verif.Props.C40_documented_partial	Classical.choice, Quot.sound, propext
Verif.Props.C78_predict	Classical.choice, Quot.sound, propext
Verif.Props.C138_downsample	Classical.choice, Quot.sound, propext
Verif.Props.C60_converged_violation	Classical.choice, Quot.sound, propext
Verif.Props.C157_epo_N	Classical.choice, Quot.sound, propext
Verif.Props.C105_violation	Classical.choice, Quot.sound, propext
Verif.Props.C46_names_reset_partial	Classical.choice, Quot.sound, propext
Verif.Props.C161_ygrad	Classical.choice, Quot.sound, propext
Verif.Props.C45_ranges	Classical.choice, Quot.sound, propext
Verif.Props.C50_linear	Classical.choice, Quot.sound, propext
Verif.Props.C79_violation	Classical.choice, Quot.sound, propext
Verif.Props.C140_cca	Classical.choice, Quot.sound, propext
Verif.Props.C135_kernel	Classical.choice, Quot.sound, propext
Verif.Props.C146_bad_training	Classical.choice, Quot.sound, propext
Verif.Props.C08_named_ops	Classical.choice, Quot.sound, propext
Verif.Props.C63_transform_partial	Classical.choice, Quot.sound, propext
Verif.Props.C140_multi_filter	Quot.sound, propext
Verif.Props.C01_zeros_partial	Quot.sound, propext
Verif.Props.C95_exp	Classical.choice, Quot.sound, propext
Verif.Props.C134_nipals	Classical.choice, Quot.sound, propext
Verif.Props.C43_interpolation	Classical.choice, Quot.sound, propext
Verif.Props.C131_kernel_poly	Classical.choice, Quot.sound, propext
Verif.Props.C149_kernel_linear	Classical.choice, Quot.sound, propext
Verif.Props.C154_savgol	Classical.choice, Quot.sound, propext
Verif.Props.C80_descent	Classical.choice, Quot.sound, propext
Verif.Props.C120_sparse_example	Classical.choice, Quot.sound, propext
Verif.Props.C98_simpls	Classical.choice, Quot.sound, propext
Verif.Props.C10_sign_abs	Classical.choice, Quot.sound, propext
Verif.Props.C160_kernel	Classical.choice, Quot.sound, propext
Verif.Props.C103_single_predict	Classical.choice, Quot.sound, propext
