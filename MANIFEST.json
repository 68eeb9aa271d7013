{
 "claims": [
  {
   "property": "C01",
   "status": "partial",
   "theorems": [
    "Verif.Props.C01_zeros_partial",
    "Verif.Props.C01_zeros_square",
    "Verif.Props.C01_zeros_no_rows_violation",
    "Verif.Props.C01_eye",
    "Verif.Props.C01_eye_square",
    "Verif.Props.C01_eye_negative",
    "Verif.Props.C01_filled",
    "Verif.Props.C01_filled_negative",
    "Verif.Props.C01_like",
    "Verif.Props.C01_fromRow",
    "Verif.Props.C01_fromColumn_partial",
    "Verif.Props.C01_fromColumn_empty_violation",
    "Verif.Props.C01_create",
    "Verif.Props.C01_create_toRaw_partial",
    "Verif.Props.C01_range_partial",
    "Verif.Props.C01_range_empty_violation",
    "Verif.Props.C01_diag_partial",
    "Verif.Props.C01_createSpectrum"
   ],
   "note": "Holds for every shape and fill value except zeros(0,c), from_column of an empty list, range with no columns and diag() of an empty vector, where the 1-d wrapping of the constructor or numpy's reshape gets in the way; those are proved as violations."
  },
  {
   "property": "C02",
   "status": "proved",
   "theorems": [
    "Verif.Props.C02_get",
    "Verif.Props.C02_set",
    "Verif.Props.C02_set_error",
    "Verif.Props.C02_set_set"
   ],
   "note": "Proved for all matrices, integer indices and values, error branches included."
  },
  {
   "property": "C03",
   "status": "proved",
   "theorems": [
    "Verif.Props.C03_setRow",
    "Verif.Props.C03_setRow_error",
    "Verif.Props.C03_setColumn",
    "Verif.Props.C03_setColumn_error"
   ],
   "note": "Proved; entries past the shorter length keep their old value."
  },
  {
   "property": "C04",
   "status": "proved",
   "theorems": [
    "Verif.Props.C04_getSubMatrix",
    "Verif.Props.C04_getSubMatrix_error",
    "Verif.Props.C04_getRow_getColumn",
    "Verif.Props.C04_select_all",
    "Verif.Props.C04_deleteCols"
   ],
   "note": "Proved for lists and (start, stop) tuples; out-of-range claims are stated for two non-empty index lists."
  },
  {
   "property": "C05",
   "status": "proved",
   "theorems": [
    "Verif.Props.C05_transpose",
    "Verif.Props.C05_transpose_mul",
    "Verif.Props.C05_copy",
    "Verif.Props.C05_raw_copies",
    "Verif.Props.C05_asReal"
   ],
   "note": "Proved."
  },
  {
   "property": "C06",
   "status": "proved",
   "theorems": [
    "Verif.Props.C06_concatRows",
    "Verif.Props.C06_concatColumns",
    "Verif.Props.C06_concatRows_assoc",
    "Verif.Props.C06_concatRows_split",
    "Verif.Props.C06_concat_axis",
    "Verif.Props.C06_multiConcat_columns",
    "Verif.Props.C06_multiConcat_axis"
   ],
   "note": "Proved."
  },
  {
   "property": "C07",
   "status": "proved",
   "theorems": [
    "Verif.Props.C07_entrywise",
    "Verif.Props.C07_scalar",
    "Verif.Props.C07_mul",
    "Verif.Props.C07_mul_assoc",
    "Verif.Props.C07_mul_add"
   ],
   "note": "Proved; the algebraic laws over any ring, floating-point rounding is not modelled."
  },
  {
   "property": "C08",
   "status": "partial",
   "theorems": [
    "Verif.Props.C08_vectorOp",
    "Verif.Props.C08_named_ops",
    "Verif.Props.C08_scaleByRowVector",
    "Verif.Props.C08_scaleByColumnVector_partial",
    "Verif.Props.C08_scaleByColumnVector_violation"
   ],
   "note": "scale_by_column_vector rejects its documented argument for one-row matrices with several columns (violation)."
  },
  {
   "property": "C09",
   "status": "proved",
   "theorems": [
    "Verif.Props.C09_sum",
    "Verif.Props.C09_mean"
   ],
   "note": "Proved over fields; the mean of an empty axis is covered in the extended reals."
  },
  {
   "property": "C10",
   "status": "proved",
   "theorems": [
    "Verif.Props.C10_clip",
    "Verif.Props.C10_clip_idem",
    "Verif.Props.C10_clip_one_sided",
    "Verif.Props.C10_sign_abs",
    "Verif.Props.C10_sign_abs_ext"
   ],
   "note": "Proved, including NaN and infinities."
  },
  {
   "property": "C11",
   "status": "partial",
   "theorems": [
    "Verif.Props.C11_which",
    "Verif.Props.C11_which_sorted",
    "Verif.Props.C11_any_all",
    "Verif.Props.C11_whereVector",
    "Verif.Props.C11_containsNaN_violation",
    "Verif.Props.C11_containsNaN_partial"
   ],
   "note": "contains_NaN is always False (violation); everything else proved."
  },
  {
   "property": "C12",
   "status": "partial",
   "theorems": [
    "Verif.Props.C12_eq_partial",
    "Verif.Props.C12_eq_shape",
    "Verif.Props.C12_eq_nan",
    "Verif.Props.C12_eq_inf_violation",
    "Verif.Props.C12_helperEqual_partial",
    "Verif.Props.C12_helperEqual_nan_violation",
    "Verif.Props.C12_helperEqual_ext"
   ],
   "note": "== is False for a matrix with an infinite entry compared to its copy, and helper.equal is True on NaN (violations)."
  },
  {
   "property": "C13",
   "status": "partial",
   "theorems": [
    "Verif.Props.C13_eigenpairs_partial",
    "Verif.Props.C13_sorted_partial",
    "Verif.Props.C13_svd",
    "Verif.Props.C13_singular_values_partial",
    "Verif.Props.C13_stale_cache_violation",
    "Verif.Props.C13_singular_values_violation"
   ],
   "note": "Proved for all call histories without the leaking accessor and without the two in-place operations that forget the cache; the exclusions are proved necessary (violations). The SVD accessors are coherent for all histories."
  },
  {
   "property": "C14",
   "status": "partial",
   "theorems": [
    "Verif.Props.C14_no_side_effects",
    "Verif.Props.C14_inplace_local",
    "Verif.Props.C14_distinct_partial",
    "Verif.Props.C14_independent_partial",
    "Verif.Props.C14_set_effect",
    "Verif.Props.C14_shared_violation"
   ],
   "note": "Proved for all call histories; get_eigenvalue_decomposition_V hands out its cached object (violation)."
  },
  {
   "property": "C15",
   "status": "partial",
   "theorems": [
    "Verif.Props.C15_svd_partial",
    "Verif.Props.C15_svd_violation"
   ],
   "note": "U*S*V = A holds (V is the transposed factor), U*S*V^T raises for wide matrices (violation)."
  },
  {
   "property": "C16",
   "status": "proved",
   "theorems": [
    "Verif.Props.C16_sorted_pairs",
    "Verif.Props.C16_dominant"
   ],
   "note": "Proved for every solver meeting the stated contract."
  },
  {
   "property": "C17",
   "status": "proved",
   "theorems": [
    "Verif.Props.C17_round_trip",
    "Verif.Props.C17_int_range",
    "Verif.Props.C17_float_and_other",
    "Verif.Props.C17_str_ok",
    "Verif.Props.C17_str_surrogate"
   ],
   "note": "Reader specification (little-endian, two's complement, UTF-8) is independent of the encoder; range, type and surrogate errors covered. A bool is encoded as the int it is. The string size condition is stated as 4*length < 2^31."
  },
  {
   "property": "C18",
   "status": "proved",
   "theorems": [
    "Verif.Props.C18_layout",
    "Verif.Props.C18_decode",
    "Verif.Props.C18_injective",
    "Verif.Props.C18_overflow"
   ],
   "note": "Float64 matrices with dimensions below 2^31 (beyond: OverflowError, proved)."
  },
  {
   "property": "C19",
   "status": "partial",
   "theorems": [
    "Verif.Props.C19_always_empty_violation",
    "Verif.Props.C19_state_partial",
    "Verif.Props.C19_matrix_violation"
   ],
   "note": "False: the stream is read at its end, so the result is b'' for every object that serialises without error (proved for all). Partial: correct only for an empty state."
  },
  {
   "property": "C20",
   "status": "partial",
   "theorems": [
    "Verif.Props.C20_big_int_partial",
    "Verif.Props.C20_full_top_byte_violation",
    "Verif.Props.C20_one_byte_violation"
   ],
   "note": "False for every integer with a full top byte (e.g. 128..255): OverflowError. Proved for all other integers with fewer than 8*(2^31-1) bits."
  },
  {
   "property": "C21",
   "status": "partial",
   "theorems": [
    "Verif.Props.C21_save_partial",
    "Verif.Props.C21_no_directory_violation",
    "Verif.Props.C21_file_in_the_way"
   ],
   "note": "False for every filename without a slash (FileNotFoundError). Proved for all filenames with a directory part; file system model without permissions, links, '.' and '..'."
  },
  {
   "property": "C22",
   "status": "partial",
   "theorems": [
    "Verif.Props.C22_sort_perm",
    "Verif.Props.C22_plain_partial",
    "Verif.Props.C22_plain_violation"
   ],
   "note": "Proved for every list of np.float64 (NaN, infinities, ties). For plain Python numbers any successful run is a permutation, but the call can raise IndexError (violation). Python's recursion limit is not modelled."
  },
  {
   "property": "C23",
   "status": "partial",
   "theorems": [
    "Verif.Props.C23_sort_sorted_partial",
    "Verif.Props.C23_nan_violation",
    "Verif.Props.C23_plain_violation"
   ],
   "note": "Proved for every NaN-free list of np.float64. With NaN, or with plain ints/floats, the result can be unsorted (violations)."
  },
  {
   "property": "C24",
   "status": "proved",
   "theorems": [
    "Verif.Props.C24_least_squares",
    "Verif.Props.C24_constant_nan"
   ],
   "note": "Over exact reals; a constant predictor gives (nan, nan). Rounding is not modelled."
  },
  {
   "property": "C25",
   "status": "partial",
   "theorems": [
    "Verif.Props.C25_max_index_violation",
    "Verif.Props.C25_max_index_partial"
   ],
   "note": "False: max_index returns 1 for every non-empty list (proved for all lists); partial theorem says when this happens to be right."
  },
  {
   "property": "C26",
   "status": "partial",
   "theorems": [
    "Verif.Props.C26_center",
    "Verif.Props.C26_passThrough",
    "Verif.Props.C26_standardize",
    "Verif.Props.C26_standardize_violation",
    "Verif.Props.C26_log",
    "Verif.Props.C26_rowNorm_violation"
   ],
   "note": "Simulation of every call history (transform, inverse, configure, reset, assignments) against a two-component specification for Center, Standardize, Log, PassThrough. Standardize needs explicit configure data to have columns (violation shown); RowNorm does not follow the life cycle (violation)."
  },
  {
   "property": "C27",
   "status": "proved",
   "theorems": [
    "Verif.Props.C27_center",
    "Verif.Props.C27_center_zero_means",
    "Verif.Props.C27_center_width"
   ],
   "note": "Over the reals."
  },
  {
   "property": "C28",
   "status": "partial",
   "theorems": [
    "Verif.Props.C28_standardize",
    "Verif.Props.C28_unit_variance",
    "Verif.Props.C28_inverse_partial",
    "Verif.Props.C28_constant_column_violation",
    "Verif.Props.C28_single_row_violation"
   ],
   "note": "Over the reals with at least two rows; the zero-deviation guard only covers column 0, so other constant columns give NaN (violation over extended reals), as does a single row."
  },
  {
   "property": "C29",
   "status": "partial",
   "theorems": [
    "Verif.Props.C29_transform_partial",
    "Verif.Props.C29_rowStd",
    "Verif.Props.C29_inverse_violation",
    "Verif.Props.C29_roundtrip_violation",
    "Verif.Props.C29_stale_violation"
   ],
   "note": "Histories without inverse_transform proved. inverse_transform never restores the data, and leaves stale statistics behind (violations)."
  },
  {
   "property": "C30",
   "status": "proved",
   "theorems": [
    "Verif.Props.C30_domain",
    "Verif.Props.C30_values",
    "Verif.Props.C30_inverse_first",
    "Verif.Props.C30_base"
   ],
   "note": "Over the reals."
  },
  {
   "property": "C31",
   "status": "partial",
   "theorems": [
    "Verif.Props.C31_coefficients",
    "Verif.Props.C31_too_few_points",
    "Verif.Props.C31_derivative_too_high",
    "Verif.Props.C31_scale_violation",
    "Verif.Props.C31_single_point_violation",
    "Verif.Props.C31_exact_on_polynomials"
   ],
   "note": "Exact real arithmetic. Coefficients yield f^(d)(0)/d!, so derivative orders >= 2 lack the factor d! (violation); single-point window returns [1] for any order (violation)."
  },
  {
   "property": "C32",
   "status": "proved",
   "theorems": [
    "Verif.Props.C32_values",
    "Verif.Props.C32_too_narrow",
    "Verif.Props.C32_linear"
   ],
   "note": "Over the reals; all sizes."
  },
  {
   "property": "C33",
   "status": "partial",
   "theorems": [
    "Verif.Props.C33_savitzkyGolay",
    "Verif.Props.C33_savitzkyGolay2_partial",
    "Verif.Props.C33_left_ignored_violation"
   ],
   "note": "All histories, SavitzkyGolay and SavitzkyGolay2; assignments to num_points_left/right of SavitzkyGolay2 are accepted but ignored (violation)."
  },
  {
   "property": "C34",
   "status": "partial",
   "theorems": [
    "Verif.Props.C34_untouched",
    "Verif.Props.C34_total",
    "Verif.Props.C34_corrected_partial",
    "Verif.Props.C34_reference",
    "Verif.Props.C34_no_inverse",
    "Verif.Props.C34_overlap_violation",
    "Verif.Props.C34_constant_reference_violation",
    "Verif.Props.C34_configuration_matrix",
    "Verif.Props.C34_short_spectrum",
    "Verif.Props.C34_inverse_configures",
    "Verif.Props.C34_no_reference"
   ],
   "note": "Proved: columns outside the ranges are untouched for any prefilter and reference; corrected rows equal (x-a)/b for the least-squares fit to the reference; the reference is the column mean or the configured average. Violations proved: overlapping ranges correct the shared columns twice, and a constant reference gives non-numbers. The corrected-value theorem is partial because it needs disjoint ranges and a non-constant reference."
  },
  {
   "property": "C35",
   "status": "partial",
   "theorems": [
    "Verif.Props.C35_formula",
    "Verif.Props.C35_linear",
    "Verif.Props.C35_constants",
    "Verif.Props.C35_ramp",
    "Verif.Props.C35_gradient_sign_violation",
    "Verif.Props.C35_rejected"
   ],
   "note": "Formula, linearity, constants to zero proved; the documented gradient sign is refuted (a ramp of slope s gives -s)."
  },
  {
   "property": "C36",
   "status": "proved",
   "theorems": [
    "Verif.Props.C36_round_trip",
    "Verif.Props.C36_not_invertible",
    "Verif.Props.C36_empty",
    "Verif.Props.C36_mode_by_int"
   ],
   "note": "Round trip for invertible modes, failure for the others; over exact complex arithmetic."
  },
  {
   "property": "C37",
   "status": "partial",
   "theorems": [
    "Verif.Props.C37_single_row_partial",
    "Verif.Props.C37_misaligned_violation"
   ],
   "note": "Holds for one row (partial); refuted for every matrix with two or more rows because fftshift also shifts rows."
  },
  {
   "property": "C38",
   "status": "partial",
   "theorems": [
    "Verif.Props.C38_assignments",
    "Verif.Props.C38_defaults",
    "Verif.Props.C38_fresh_partial",
    "Verif.Props.C38_power_violation",
    "Verif.Props.C38_quantile_violation",
    "Verif.Props.C38_robust_violation",
    "Verif.Props.C38_failed_configure_violation",
    "Verif.Props.C38_validation",
    "Verif.Props.C38_accepted"
   ],
   "note": "Refuted: parameters assigned outside the validated set leave the fitted transformer stale, and a failed configure leaves it unfitted but configured. Partial: the wrappers equal a fresh fit when parameters are only changed before configuring. scikit-learn itself is an opaque parameter."
  },
  {
   "property": "C39",
   "status": "proved",
   "theorems": [
    "Verif.Props.C39_entries",
    "Verif.Props.C39_single",
    "Verif.Props.C39_symmetric",
    "Verif.Props.C39_agree",
    "Verif.Props.C39_errors",
    "Verif.Props.C39_linear",
    "Verif.Props.C39_mismatch",
    "Verif.Props.C39_rbf"
   ],
   "note": "Generic loops for any kernel function; one-argument form equals the two-argument form exactly when the kernel is symmetric; linear, polynomial and RBF kernels instantiated."
  },
  {
   "property": "C40",
   "status": "partial",
   "theorems": [
    "Verif.Props.C40_value",
    "Verif.Props.C40_mismatch",
    "Verif.Props.C40_self",
    "Verif.Props.C40_symmetric",
    "Verif.Props.C40_range",
    "Verif.Props.C40_decreasing",
    "Verif.Props.C40_documented_partial",
    "Verif.Props.C40_documented_violation"
   ],
   "note": "Self value, symmetry, range and monotonicity proved; the documented squared distance is refuted (the norm is not squared): equality holds only for gamma 0 or distance 0 or 1."
  },
  {
   "property": "C41",
   "status": "partial",
   "theorems": [
    "Verif.Props.C41_same_width_partial",
    "Verif.Props.C41_explicit_gamma_partial",
    "Verif.Props.C41_violation",
    "Verif.Props.C41_forms_agree"
   ],
   "note": "Refuted: gamma, once filled in, keeps the value of the first data set. Partial: right in every history whose data have the same width, or once gamma is set explicitly."
  },
  {
   "property": "C42",
   "status": "proved",
   "theorems": [
    "Verif.Props.C42_columns",
    "Verif.Props.C42_exactly",
    "Verif.Props.C42_zero_step",
    "Verif.Props.C42_negative_step",
    "Verif.Props.C42_start_too_small"
   ],
   "note": "All starts and steps, including negative ones."
  },
  {
   "property": "C43",
   "status": "proved",
   "theorems": [
    "Verif.Props.C43_interpolation",
    "Verif.Props.C43_endpoints",
    "Verif.Props.C43_identity",
    "Verif.Props.C43_between",
    "Verif.Props.C43_linear",
    "Verif.Props.C43_validation",
    "Verif.Props.C43_no_columns"
   ],
   "note": "Exact real arithmetic; matrices with at least one row."
  },
  {
   "property": "C44",
   "status": "proved",
   "theorems": [
    "Verif.Props.C44_empty",
    "Verif.Props.C44_append",
    "Verif.Props.C44_order",
    "Verif.Props.C44_first_error"
   ],
   "note": "Any filters, any list."
  },
  {
   "property": "C45",
   "status": "partial",
   "theorems": [
    "Verif.Props.C45_constructible",
    "Verif.Props.C45_invalid",
    "Verif.Props.C45_raises",
    "Verif.Props.C45_valid",
    "Verif.Props.C45_always_legal",
    "Verif.Props.C45_accepts",
    "Verif.Props.C45_nan",
    "Verif.Props.C45_int",
    "Verif.Props.C45_ranges",
    "Verif.Props.C45_ranges_all",
    "Verif.Props.C45_any_value",
    "Verif.Props.C45_unvalidated_violation",
    "Verif.Props.C45_deflation_mode"
   ],
   "note": "For all 17 classes and all histories: an accepted assignment stores the value, resets the object and changes nothing else; a rejected one raises ValueError (TypeError if the comparison is impossible) and changes nothing; parameters are legal at all times. Parameters without a validate_ method (norm_Y_weights, deflation_mode, ns, nt, ...) do not reset: C45_unvalidated_violation."
  },
  {
   "property": "C46",
   "status": "partial",
   "theorems": [
    "Verif.Props.C46_status",
    "Verif.Props.C46_new",
    "Verif.Props.C46_refuses",
    "Verif.Props.C46_works",
    "Verif.Props.C46_names",
    "Verif.Props.C46_unknown_name",
    "Verif.Props.C46_known_name",
    "Verif.Props.C46_names_reset_partial",
    "Verif.Props.C46_prm_violation",
    "Verif.Props.C46_simpls_violation",
    "Verif.Props.C46_fastica",
    "Verif.Props.C46_pca",
    "Verif.Props.C46_constructor",
    "Verif.Props.C46_debug",
    "Verif.Props.C46_statistics"
   ],
   "note": "Flag characterised by the observable history (C46_status); untrained use raises RuntimeError. get_matrix: names match, unknown gives None, None after a parameter change except PRM (AttributeError for W) and SIMPLS (stale Q), both proved as violations."
  },
  {
   "property": "C47",
   "status": "partial",
   "theorems": [
    "Verif.Props.C47_flag",
    "Verif.Props.C47_refuses",
    "Verif.Props.C47_check_message",
    "Verif.Props.C47_refit",
    "Verif.Props.C47_missing_violation",
    "Verif.Props.C47_ccafilter_violation",
    "Verif.Props.C47_pls1_response"
   ],
   "note": "Holds when both arguments are given. With one argument missing: AttributeError and the old model stays usable (PLS, GLSW classes), or silent reset to the defaults reported as success (CCAFilter)."
  },
  {
   "property": "C48",
   "status": "partial",
   "theorems": [
    "Verif.Props.C48_cca_stale",
    "Verif.Props.C48_cca_violation",
    "Verif.Props.C48_dipls_stale",
    "Verif.Props.C48_dipls_violation",
    "Verif.Props.C48_ica_components_violation",
    "Verif.Props.C48_ica_violation",
    "Verif.Props.C48_kernel_partial",
    "Verif.Props.C48_kernel_violation",
    "Verif.Props.C48_retrain_partial",
    "Verif.Props.C48_pca",
    "Verif.Props.C48_pls1_object"
   ],
   "note": "Bisimulation: for every class except CCAFilter, DIPLS, FastICA a retrained object answers every later history like a new object with the same parameters; PCA likewise; PLS1 instantiated in full. CCAFilter, DIPLS and FastICA keep state across training (violations in their own files). KernelPLS keeps its kernel object, and PolyKernel fills in its default gamma on first use: retraining on data of another width predicts differently from a new object (C48_kernel_violation); with the same width, or with gamma set, it does not (C48_kernel_partial)."
  },
  {
   "property": "C49",
   "status": "proved",
   "theorems": [
    "Verif.Props.C49_scores",
    "Verif.Props.C49_transform",
    "Verif.Props.C49_pls1"
   ],
   "note": "Proved for any weight rule (PLS1, and VCPLS which only overrides it) and any number of components; exact reals; hypothesis Regular = no score has zero length (no division by zero)."
  },
  {
   "property": "C50",
   "status": "proved",
   "theorems": [
    "Verif.Props.C50_linear",
    "Verif.Props.C50_least_squares",
    "Verif.Props.C50_monotone",
    "Verif.Props.C50_width",
    "Verif.Props.C50_pls1",
    "Verif.Props.C50_pls1_monotone"
   ],
   "note": "Linear predictions by r_hat, least-squares fit on the scores, residual monotone in the number of components, wrong width rejected. Exact reals, Regular data."
  },
  {
   "property": "C51",
   "status": "partial",
   "theorems": [
    "Verif.Props.C51_none",
    "Verif.Props.C51_unknown",
    "Verif.Props.C51_center_value",
    "Verif.Props.C51_standardize_value",
    "Verif.Props.C51_center_partial",
    "Verif.Props.C51_standardize_partial",
    "Verif.Props.C51_center_violation"
   ],
   "note": "Violated: do_predict never applies trans_predictors. Exact characterisation of when predictions are right for CENTER and STANDARDIZE (iff theorems, _partial), concrete PLS1 witness (_violation); NONE is right."
  },
  {
   "property": "C52",
   "status": "partial",
   "theorems": [
    "Verif.Props.C52_center_value",
    "Verif.Props.C52_standardize_value",
    "Verif.Props.C52_center_partial",
    "Verif.Props.C52_standardize_partial",
    "Verif.Props.C52_center_violation",
    "Verif.Props.C52_none"
   ],
   "note": "Violated: class_mean/class_std_dev always use response column 0. Predictions are right iff all response means agree (CENTER); the violation theorem gives the exact shift for any data with differing means."
  },
  {
   "property": "C53",
   "status": "partial",
   "theorems": [
    "Verif.Props.C53_never_violation",
    "Verif.Props.C53_multi_violation",
    "Verif.Props.C53_single_partial"
   ],
   "note": "Violated: training with two or more responses never succeeds, over any scalars and in both modes (C53_never_violation); in PLS mode over the reals it raises ValueError because the row of standard deviations is passed to scale_by_row_vector, which demands a column vector. Proved: one response always works."
  },
  {
   "property": "C54",
   "status": "partial",
   "theorems": [
    "Verif.Props.C54_result",
    "Verif.Props.C54_fixed_point_violation",
    "Verif.Props.C54_single_partial"
   ],
   "note": "Violated: the Y score is never updated inside the loop, so the result depends only on the first response column and not on tol or max_iter; concrete data on which the loop reports convergence far from any fixed point. Proved: for one response the result is a fixed point; the loop always terminates."
  },
  {
   "property": "C55",
   "status": "partial",
   "theorems": [
    "Verif.Props.C55_scores_partial",
    "Verif.Props.C55_least_squares",
    "Verif.Props.C55_width",
    "Verif.Props.C55_slim_violation"
   ],
   "note": "Orthonormal scores, B, predictions, transformation and state proved without slimming, for every data set whose PLS1 scores do not vanish; with slimming (num_coefficients > 0) the claim is false (C55_slim_violation)."
  },
  {
   "property": "C56",
   "status": "partial",
   "theorems": [
    "Verif.Props.C56_slim",
    "Verif.Props.C56_kept_partial",
    "Verif.Props.C56_count_violation"
   ],
   "note": "C56_slim characterises the result for every matrix and count. One more entry than requested is kept (C56_count_violation); C56_kept_partial states what holds instead."
  },
  {
   "property": "C57",
   "status": "partial",
   "theorems": [
    "Verif.Props.C57_orthogonal",
    "Verif.Props.C57_base_data",
    "Verif.Props.C57_filtered_partial",
    "Verif.Props.C57_filtered_violation",
    "Verif.Props.C57_base_error_violation",
    "Verif.Props.C57_base_exception"
   ],
   "note": "Orthogonality of the removed scores, X_osc and the data given to the base model proved for all data with orthogonal variation left. Violated: for two or more components transform(training data) differs from X_osc; messages of the base model are dropped (exceptions are not)."
  },
  {
   "property": "C58",
   "status": "proved",
   "theorems": [
    "Verif.Props.C58_centred",
    "Verif.Props.C58_library_kernels",
    "Verif.Props.C58_scores"
   ],
   "note": "Proved for every kernel, start vectors, tolerance and iteration limit; orthonormality assumes that no score vanishes (0/0 otherwise)."
  },
  {
   "property": "C59",
   "status": "partial",
   "theorems": [
    "Verif.Props.C59_messages",
    "Verif.Props.C59_rows",
    "Verif.Props.C59_unsupervised",
    "Verif.Props.C59_supervised",
    "Verif.Props.C59_semisupervised_violation",
    "Verif.Props.C59_semisupervised_partial"
   ],
   "note": "Messages, rows and success proved for unsupervised and supervised; semi-supervised mode raises for all data whenever ns != nt (violation), and is proved for ns = nt only."
  },
  {
   "property": "C60",
   "status": "partial",
   "theorems": [
    "Verif.Props.C60_weights_partial",
    "Verif.Props.C60_leverage_partial",
    "Verif.Props.C60_weights_violation",
    "Verif.Props.C60_bound",
    "Verif.Props.C60_loop_violation",
    "Verif.Props.C60_converged_violation",
    "Verif.Props.C60_single_pass_violation",
    "Verif.Props.C60_residuals_violation",
    "Verif.Props.C60_predict",
    "Verif.Props.C60_case_weights"
   ],
   "note": "Violated: line 237 continues while the change is BELOW tol, so training normally stops after one pass (and at a fixed point runs to max_iter); with a zero MAD (majority response value) all first weights are NaN or 0; later residuals mix re-weighted response and un-weighted scores. Proved: pass bound, weights in (0,1] for non-zero scales, predictions."
  },
  {
   "property": "C61",
   "status": "partial",
   "theorems": [
    "Verif.Props.C61_direction_partial",
    "Verif.Props.C61_norm_violation",
    "Verif.Props.C61_lambda_violation",
    "Verif.Props.C61_median_violation",
    "Verif.Props.C61_support",
    "Verif.Props.C61_dependence",
    "Verif.Props.C61_predict"
   ],
   "note": "The direction is a positive multiple of the soft-thresholded z for lambda<1 and a positive median (C61_direction_partial); it is not of unit norm, because the code divides by the squared norm (C61_norm_violation). lambda>=1 or a zero median gives NaN (C61_lambda_violation, C61_median_violation). Selection and dependence hold for every successful training run with at least one component."
  },
  {
   "property": "C62",
   "status": "partial",
   "theorems": [
    "Verif.Props.C62_components_partial",
    "Verif.Props.C62_loadings_partial",
    "Verif.Props.C62_loadings_violation",
    "Verif.Props.C62_constant_violation"
   ],
   "note": "Component choice, order, number and scores hold for all data with a non-constant column and any eig/argsort meeting their contracts; eigenvalues taken as real. Loadings: one correct row per attribute when no column is constant; if a constant column precedes a non-constant one, an attribute loses its row (C62_loadings_violation). All-constant data with standardisation raises IndexError (C62_constant_violation)."
  },
  {
   "property": "C63",
   "status": "partial",
   "theorems": [
    "Verif.Props.C63_half_partial",
    "Verif.Props.C63_lambda_violation",
    "Verif.Props.C63_validation",
    "Verif.Props.C63_transform_partial"
   ],
   "note": "C^(-1/2) proved for every positive lambda under the eigensolver contract; transform proved for every successful training. Violated part: validate_lambda_X/Y accept every value, and for a negative lambda on constant data no real C^(-1/2) exists (C63_lambda_violation)."
  },
  {
   "property": "C64",
   "status": "partial",
   "theorems": [
    "Verif.Props.C64_symmetric",
    "Verif.Props.C64_downweights_partial",
    "Verif.Props.C64_weights_partial",
    "Verif.Props.C64_pairing_violation",
    "Verif.Props.C64_identity_partial",
    "Verif.Props.C64_nonorthogonal_violation",
    "Verif.Props.C64_errors"
   ],
   "note": "Symmetric for every solver output. The weights are taken from the sorted singular values and the directions from the unsorted eig output: each direction gets its own weight exactly when eig lists the eigenvalues in decreasing order (C64_downweights_partial); otherwise some direction gets the weight of another (C64_pairing_violation). For repeated eigenvalues a non-orthogonal basis, which the eig contract allows, makes G differ from the identity without clutter (C64_nonorthogonal_violation). The limit is quantified by an explicit bound."
  },
  {
   "property": "C65",
   "status": "partial",
   "theorems": [
    "Verif.Props.C65_projection_partial",
    "Verif.Props.C65_keeps_clutter_violation",
    "Verif.Props.C65_N_violation"
   ],
   "note": "I - G is the stated projection for N up to the number of columns, but the filter multiplies by G itself, which keeps the clutter and removes the rest (C65_keeps_clutter_violation); N larger than the number of columns raises ValueError (C65_N_violation). Orthonormal eigenvectors are assumed of the eigensolver (automatic up to sign for distinct eigenvalues, EigPair.orthoEig)."
  },
  {
   "property": "C66",
   "status": "partial",
   "theorems": [
    "Verif.Props.C66_white_partial",
    "Verif.Props.C66_reconstruct_violation",
    "Verif.Props.C66_plain_partial",
    "Verif.Props.C66_untrained"
   ],
   "note": "sources * mixing^T equals the centred data whenever all components are kept. Violated part: reconstruct() then always raises ValueError (C66_reconstruct_violation); without whitening it adds the mean of each sample (C66_plain_partial). Fewer components than features: C125."
  },
  {
   "property": "C67",
   "status": "partial",
   "theorems": [
    "Verif.Props.C67_table_partial",
    "Verif.Props.C67_to_string",
    "Verif.Props.C67_roundtrip_partial",
    "Verif.Props.C67_fixed_decimals",
    "Verif.Props.C67_separator_violation",
    "Verif.Props.C67_no_columns_violation",
    "Verif.Props.C67_errors",
    "Verif.Props.C67_padding"
   ],
   "note": "Proved for non-empty separators without line breaks whose first character does not occur in a cell; the number codec is a parameter, instantiated with exact decimals (C67_fixed_decimals). Violations: a separator that occurs in numbers is accepted and changes the shape; a matrix without columns comes back with one column."
  },
  {
   "property": "C68",
   "status": "partial",
   "theorems": [
    "Verif.Props.C68_rand_reproducible",
    "Verif.Props.C68_rand_errors",
    "Verif.Props.C68_randn_violation",
    "Verif.Props.C68_like_partial",
    "Verif.Props.C68_randn_range_violation",
    "Verif.Props.C68_randn_partial",
    "Verif.Props.C68_rand_consumes"
   ],
   "note": "Reproducibility and shape proved; randn ignores mean and std (violation) and stays in [0,1)."
  },
  {
   "property": "C69",
   "status": "partial",
   "theorems": [
    "Verif.Props.C69_failed_save_violation",
    "Verif.Props.C69_failed_save_partial"
   ],
   "note": "False: the target is truncated before serialising (violation); other files are kept."
  },
  {
   "property": "C70",
   "status": "partial",
   "theorems": [
    "Verif.Props.C70_log_layout_violation",
    "Verif.Props.C70_log_float_partial"
   ],
   "note": "False for int parameters (4 bytes instead of 8); proved for float parameters."
  },
  {
   "property": "C71",
   "status": "proved",
   "theorems": [
    "Verif.Props.C71_standardize_state",
    "Verif.Props.C71_unconfigured",
    "Verif.Props.C71_standardize_overflow"
   ],
   "note": "Proved for float64 matrices with dimensions below 2^31."
  },
  {
   "property": "C72",
   "status": "proved",
   "theorems": [
    "Verif.Props.C72_modes"
   ],
   "note": "All modes and lengths, exact complex arithmetic."
  },
  {
   "property": "C73",
   "status": "proved",
   "theorems": [
    "Verif.Props.C73_same_predictions",
    "Verif.Props.C73_same_scores"
   ],
   "note": "Induction over components: the rotated PLS1 weights are multiples of the SIMPLS weights."
  },
  {
   "property": "C74",
   "status": "proved",
   "theorems": [
    "Verif.Props.C74_same_predictions",
    "Verif.Props.C74_response",
    "Verif.Props.C74_same_scores"
   ],
   "note": "Hypothesis NipRegular: along the textbook recursion none of the code's thresholds (1e-10 on the response, 1e-16 on the weights, 1e-10 on the score) is met. pinv enters only by pinv A = A^-1 for regular A."
  },
  {
   "property": "C75",
   "status": "partial",
   "theorems": [
    "Verif.Props.C75_transform",
    "Verif.Props.C75_linear_partial",
    "Verif.Props.C75_violation"
   ],
   "note": "Violated for a polynomial kernel (offset of the predictions); proved for the linear kernel. C75_transform gives the exact value for any kernel."
  },
  {
   "property": "C76",
   "status": "partial",
   "theorems": [
    "Verif.Props.C76_loadings_violation"
   ],
   "note": "Violated for all data: P is zero."
  },
  {
   "property": "C77",
   "status": "partial",
   "theorems": [
    "Verif.Props.C77_violation"
   ],
   "note": "Violated: tol=0 and max_iter=0 pass validation but training raises for all data."
  },
  {
   "property": "C78",
   "status": "proved",
   "theorems": [
    "Verif.Props.C78_weights",
    "Verif.Props.C78_scores",
    "Verif.Props.C78_fit",
    "Verif.Props.C78_predict",
    "Verif.Props.C78_predict_training"
   ],
   "note": "Over the reals, for the recursion the code is proved to run (C59 theorems), under the guards DReg (no division by zero, no singular inverse)."
  },
  {
   "property": "C79",
   "status": "partial",
   "theorems": [
    "Verif.Props.C79_partial",
    "Verif.Props.C79_violation"
   ],
   "note": "Violated: transform returns X W, not X W (P^T W)^-1; the first column agrees and T can be recovered."
  },
  {
   "property": "C80",
   "status": "partial",
   "theorems": [
    "Verif.Props.C80_hull",
    "Verif.Props.C80_bounds",
    "Verif.Props.C80_optimal",
    "Verif.Props.C80_descent",
    "Verif.Props.C80_violation"
   ],
   "note": "Proved for the iteration as coded, away from the eps-neighbourhood of the points; C80_violation shows that at a data point the constant weight 10 moves the iterate away from the true median."
  },
  {
   "property": "C81",
   "status": "partial",
   "theorems": [
    "Verif.Props.C81_partial",
    "Verif.Props.C81_violation",
    "Verif.Props.C81_low",
    "Verif.Props.C81_mixed_partial",
    "Verif.Props.C81_symmetric_partial",
    "Verif.Props.C81_order_violation"
   ],
   "note": "Violated: svd_V holds Vh (not V), so the replaced matrix is X·U only when Vh·S = Vh^T·S; concrete 2x3 counterexample, and an exact characterisation as partial. C81_mixed_partial: for every wide X and every valid SVD the whole training equals training without the replacement (prmDirect) on Vh·Vh·X, same passes, weights and coefficients; C81_symmetric_partial: right when Vh·Vh = 1; C81_low: nothing is replaced otherwise. C81_order_violation: with valid decompositions, exchanging two columns in training and new data turns the predictions round."
  },
  {
   "property": "C82",
   "status": "proved",
   "theorems": [
    "Verif.Props.C82_all_selected",
    "Verif.Props.C82_nipals",
    "Verif.Props.C82_trained"
   ],
   "note": "Holds when all variables are selected in the last pass; regularity (NipRegular) keeps NIPALS away from its numeric thresholds."
  },
  {
   "property": "C83",
   "status": "partial",
   "theorems": [
    "Verif.Props.C83_one_component_partial",
    "Verif.Props.C83_single_row_violation",
    "Verif.Props.C83_batch_violation"
   ],
   "note": "Holds for one component. With two or more it is violated: the loadings are recomputed from the batch being transformed, and the raw, un-standardised data is used."
  },
  {
   "property": "C84",
   "status": "partial",
   "theorems": [
    "Verif.Props.C84_do_transform_partial",
    "Verif.Props.C84_refit_violation",
    "Verif.Props.C84_same_row_violation"
   ],
   "note": "Violated by transform, which resets and refits on every call (C84_refit_violation, C84_same_row_violation); holds for do_transform after a fit."
  },
  {
   "property": "C85",
   "status": "partial",
   "theorems": [
    "Verif.Props.C85_values",
    "Verif.Props.C85_derivative_partial",
    "Verif.Props.C85_sign_violation",
    "Verif.Props.C85_errors"
   ],
   "note": "Violated in sign: the coefficients are applied in mirrored order, so the filter returns minus the first derivative (C85_sign_violation). Everything else holds for the negated filter."
  },
  {
   "property": "C86",
   "status": "partial",
   "theorems": [
    "Verif.Props.C86_epo_filter",
    "Verif.Props.C86_covariance_partial",
    "Verif.Props.C86_order_partial",
    "Verif.Props.C86_weights_violation",
    "Verif.Props.C86_errors",
    "Verif.Props.C86_constant_violation",
    "Verif.Props.C86_filter_partial"
   ],
   "note": "Because the smoothed response is the negated derivative the exponent has the wrong sign: weights are at least one and grow with the slope (C86_weights_violation). A constant response gives an all-NaN covariance (C86_constant_violation). Order independence is proved for pairwise different response values; the filter statement inherits the C64 condition on the order of the eigenvalues."
  },
  {
   "property": "C87",
   "status": "partial",
   "theorems": [
    "Verif.Props.C87_white_partial",
    "Verif.Props.C87_wide_violation",
    "Verif.Props.C87_cross_violation"
   ],
   "note": "Orthonormality proved for at least as many features as targets. Violations: the code takes columns of Vh instead of rows, so the cross-covariance is S*Vh*Vh (concrete case C87_cross_violation), and with fewer features than targets training raises ValueError (C87_wide_violation)."
  },
  {
   "property": "C88",
   "status": "partial",
   "theorems": [
    "Verif.Props.C88_step_partial",
    "Verif.Props.C88_deflation_partial",
    "Verif.Props.C88_maxIter_violation",
    "Verif.Props.C88_symmetric",
    "Verif.Props.C88_parallel_partial",
    "Verif.Props.C88_parallel_violation"
   ],
   "note": "Update formula and orthonormality proved for deflation (regular runs, at least one iteration) and orthonormality for parallel. Violations: max_iter=0 is accepted and returns normalised random rows (C88_maxIter_violation); parallel applies the non-linearity to the projections on the columns of W instead of its rows (C88_parallel_violation)."
  },
  {
   "property": "C89",
   "status": "proved",
   "theorems": [
    "Verif.Props.C89_cube",
    "Verif.Props.C89_exponential",
    "Verif.Props.C89_logCosH"
   ],
   "note": "All three functions, exact real arithmetic."
  },
  {
   "property": "C90",
   "status": "partial",
   "theorems": [
    "Verif.Props.C90_norm1",
    "Verif.Props.C90_norm2_value",
    "Verif.Props.C90_norm2",
    "Verif.Props.C90_norm2_eye",
    "Verif.Props.C90_cauchy_schwarz",
    "Verif.Props.C90_submultiplicative_violation"
   ],
   "note": "All norm laws and Cauchy-Schwarz proved. norm2 is not submultiplicative on matrices that are not vectors (2 by 2 matrix of ones), proved as a violation."
  },
  {
   "property": "C91",
   "status": "proved",
   "theorems": [
    "Verif.Props.C91_trace_value",
    "Verif.Props.C91_trace",
    "Verif.Props.C91_max",
    "Verif.Props.C91_head",
    "Verif.Props.C91_shape_predicates"
   ],
   "note": "Proved for all shapes, error branches included."
  },
  {
   "property": "C92",
   "status": "partial",
   "theorems": [
    "Verif.Props.C92_weights",
    "Verif.Props.C92_ridge",
    "Verif.Props.C92_train",
    "Verif.Props.C92_sign",
    "Verif.Props.C92_lambda_violation"
   ],
   "note": "Proved for every eigensolver returning a real eigenbasis whenever there is one (that there is one is proved); training claims for lambda > 0. validate_lambda_ accepts negative values, for which the score can be zero although a component exists (violation)."
  },
  {
   "property": "C93",
   "status": "partial",
   "theorems": [
    "Verif.Props.C93_columns",
    "Verif.Props.C93_rows",
    "Verif.Props.C93_axis",
    "Verif.Props.C93_invariant",
    "Verif.Props.C93_zero_column_violation"
   ],
   "note": "Proved over the reals for every column (row) that is not zero. A zero column becomes NaN (violation, proved for all matrices over the extended reals)."
  },
  {
   "property": "C94",
   "status": "proved",
   "theorems": [
    "Verif.Props.C94_get_from_vector",
    "Verif.Props.C94_num_elements",
    "Verif.Props.C94_fill_diagonal",
    "Verif.Props.C94_diag",
    "Verif.Props.C94_vector_to_diagonal",
    "Verif.Props.C94_diagonal_scales"
   ],
   "note": "Proved for all shapes, scalars and positions; vector_to_diagonal for non-empty vectors."
  },
  {
   "property": "C95",
   "status": "proved",
   "theorems": [
    "Verif.Props.C95_apply",
    "Verif.Props.C95_sqrt",
    "Verif.Props.C95_sqrt_negative",
    "Verif.Props.C95_pow",
    "Verif.Props.C95_exp",
    "Verif.Props.C95_tanh"
   ],
   "note": "Proved; exact real arithmetic, powers with natural exponents."
  },
  {
   "property": "C96",
   "status": "proved",
   "theorems": [
    "Verif.Props.C96_square",
    "Verif.Props.C96_singular",
    "Verif.Props.C96_rectangular",
    "Verif.Props.C96_one_sided",
    "Verif.Props.C96_solve",
    "Verif.Props.C96_solve_errors"
   ],
   "note": "Proved in exact arithmetic. For non-square matrices lstsq is a parameter that must return least-squares solutions of smallest length, as NumPy documents."
  },
  {
   "property": "C97",
   "status": "proved",
   "theorems": [
    "Verif.Props.C97_all_components",
    "Verif.Props.C97_exhausted",
    "Verif.Props.C97_reaches"
   ],
   "note": "Proved in exact arithmetic; the closed form holds for every rule for the weights that never meets a zero score, the general statement for the weights of PLS1."
  },
  {
   "property": "C98",
   "status": "proved",
   "theorems": [
    "Verif.Props.C98_rotation",
    "Verif.Props.C98_order",
    "Verif.Props.C98_simpls"
   ],
   "note": "Proved in exact arithmetic; SIMPLS without slimming, through C73."
  },
  {
   "property": "C99",
   "status": "proved",
   "theorems": [
    "Verif.Props.C99_units",
    "Verif.Props.C99_column_units_differ"
   ],
   "note": "Proved in exact arithmetic; C99_column_units_differ shows the limit."
  },
  {
   "property": "C100",
   "status": "proved",
   "theorems": [
    "Verif.Props.C100_supervised",
    "Verif.Props.C100_unsupervised"
   ],
   "note": "Proved in exact arithmetic. lambda_ = 0 itself is refused by the setter (absolute value at least 1e-8), so equal covariances are the case that can occur; they are preserved by every deflation."
  },
  {
   "property": "C101",
   "status": "proved",
   "theorems": [
    "Verif.Props.C101_linear_kernel"
   ],
   "note": "Proved in exact arithmetic. The condition on the start vectors holds for almost all random vectors; it is stated in terms of PLS1 only."
  },
  {
   "property": "C102",
   "status": "partial",
   "theorems": [
    "Verif.Props.C102_one_orthogonal_partial",
    "Verif.Props.C102_two_orthogonal_violation"
   ],
   "note": "Proved for one orthogonal component and any number of predictive components. Violated for two: do_transform subtracts X W P^T although W belongs to the deflated predictors; on a 3x3 example where PLS1 with three components reproduces the response exactly OPLS with 2+1 components does not."
  },
  {
   "property": "C103",
   "status": "partial",
   "theorems": [
    "Verif.Props.C103_fast_ica_violation",
    "Verif.Props.C103_selection",
    "Verif.Props.C103_selected",
    "Verif.Props.C103_one_at_a_time",
    "Verif.Props.C103_stacked",
    "Verif.Props.C103_center",
    "Verif.Props.C103_center_inverse",
    "Verif.Props.C103_standardize",
    "Verif.Props.C103_standardize_inverse",
    "Verif.Props.C103_rowNorm",
    "Verif.Props.C103_log",
    "Verif.Props.C103_passThrough",
    "Verif.Props.C103_savitzkyGolay",
    "Verif.Props.C103_savitzkyGolay2",
    "Verif.Props.C103_fft_violation",
    "Verif.Props.C103_downsample",
    "Verif.Props.C103_equidistance",
    "Verif.Props.C103_multiFilter",
    "Verif.Props.C103_linear_kernel",
    "Verif.Props.C103_poly_kernel",
    "Verif.Props.C103_rbf_kernel",
    "Verif.Props.C103_pls1_transform",
    "Verif.Props.C103_pls1_predict",
    "Verif.Props.C103_single_predict",
    "Verif.Props.C103_multi_predict",
    "Verif.Props.C103_simpls_transform",
    "Verif.Props.C103_simpls_predict",
    "Verif.Props.C103_glsw",
    "Verif.Props.C103_opls_transform",
    "Verif.Props.C103_opls_predict",
    "Verif.Props.C103_prm_predict",
    "Verif.Props.C103_nipals_predict",
    "Verif.Props.C103_nipals_transform",
    "Verif.Props.C103_nipals_transform_response",
    "Verif.Props.C103_sparse_predict",
    "Verif.Props.C103_kernel_transform",
    "Verif.Props.C103_kernel_predict",
    "Verif.Props.C103_dipls_transform",
    "Verif.Props.C103_dipls_predict",
    "Verif.Props.C103_cca_transform",
    "Verif.Props.C103_cca_transform_response",
    "Verif.Props.C103_pca",
    "Verif.Props.C103_sparse_transform_violation",
    "Verif.Props.C103_pca_transform_violation"
   ],
   "note": "Proved for Center, Standardize, RowNorm, LogTransform, PassThrough, SavitzkyGolay(2), Downsample, EquiDistance, MultiFilter, the three kernels, PLS1, VCPLS, SIMPLS, PRM, NIPALS, SparsePLS.predict, OPLS, KernelPLS, DIPLS, GLSW, EPO, CCAFilter, both prediction wrappers, and do_transform of PCA. Refuted for FFT (rows permuted), SparsePLS.transform (deflates with the new data), PCA.transform and FastICA.transform (both train on the data they are given; C103_fast_ica_violation: without whitening and with deflation every single sample is refused). The three wrappers of external scalers are not covered; MultiplicativeScatterCorrection works on columns by design."
  },
  {
   "property": "C104",
   "status": "partial",
   "theorems": [
    "Verif.Props.C104_partial",
    "Verif.Props.C104_violation"
   ],
   "note": "Refuted for n < p (`C104_violation`): do_transform multiplies the original variables by weights of the reduced problem, so transform raises. The positive half (p ≤ n) is proved for all inputs."
  },
  {
   "property": "C105",
   "status": "partial",
   "theorems": [
    "Verif.Props.C105_partial",
    "Verif.Props.C105_violation"
   ],
   "note": "Stated over numbers extended by NaN and infinities. Refuted when the median absolute residual is zero (`C105_violation`); proved otherwise."
  },
  {
   "property": "C106",
   "status": "proved",
   "theorems": [
    "Verif.Props.C106_linear",
    "Verif.Props.C106_poly",
    "Verif.Props.C106_rbf",
    "Verif.Props.C106_limits"
   ],
   "note": "`C106_limits` shows that the sign conditions are needed."
  },
  {
   "property": "C107",
   "status": "proved",
   "theorems": [
    "Verif.Props.C107_rowNorm",
    "Verif.Props.C107_rowNorm_idempotent",
    "Verif.Props.C107_center",
    "Verif.Props.C107_standardize",
    "Verif.Props.C107_column_idempotent",
    "Verif.Props.C107_msc",
    "Verif.Props.C107_msc_idempotent",
    "Verif.Props.C107_savitzkyGolay"
   ],
   "note": "Over the reals. Standardize needs columns that are not constant, the scatter correction a non-constant reference and a non-zero slope in every range that contains a wavelength of the sample."
  },
  {
   "property": "C108",
   "status": "proved",
   "theorems": [
    "Verif.Props.C108_kernel",
    "Verif.Props.C108_single",
    "Verif.Props.C108_multi",
    "Verif.Props.C108_pls",
    "Verif.Props.C108_pls1",
    "Verif.Props.C108_vcpls",
    "Verif.Props.C108_simpls",
    "Verif.Props.C108_nipals",
    "Verif.Props.C108_opls",
    "Verif.Props.C108_glsw",
    "Verif.Props.C108_cca",
    "Verif.Props.C108_sparse",
    "Verif.Props.C108_sparse_nipals",
    "Verif.Props.C108_dipls",
    "Verif.Props.C108_pca",
    "Verif.Props.C108_prm"
   ],
   "note": "Exact arithmetic. Proved as a relation between two runs: every intermediate matrix is either equal or has its rows reordered, and both runs raise the same exception. C108_kernel covers KernelPLS with one response; with several responses its random start vector, which is indexed by samples, enters the result. FastICA and PRM with more predictors than samples (it takes an SVD of the transposed data) are not covered: there too the order enters an external routine. Semi-supervised DIPLS is covered for as many labelled target samples as source samples, which the code assumes."
  },
  {
   "property": "C109",
   "status": "proved",
   "theorems": [
    "Verif.Props.C109_coefficients",
    "Verif.Props.C109_predictions",
    "Verif.Props.C109_selected",
    "Verif.Props.C109_trained",
    "Verif.Props.C109_example"
   ],
   "note": "The inner NIPALS model must be regular for the selected columns (same condition as in C82: no pass meets a zero weight or score). NIPALS is taken with the default deflation mode and without the CCA norm, the way SparsePLS configures it."
  },
  {
   "property": "C110",
   "status": "partial",
   "theorems": [
    "Verif.Props.C110_infinities",
    "Verif.Props.C110_nan_violation",
    "Verif.Props.C110_roundtrip",
    "Verif.Props.C110_to_string_defaults"
   ],
   "note": "NaN violates the claim: the branch compares with == and is never taken, so NaN is written as nan. The round trip still restores it."
  },
  {
   "property": "C111",
   "status": "proved",
   "theorems": [
    "Verif.Props.C111_initialize",
    "Verif.Props.C111_construct",
    "Verif.Props.C111_documented",
    "Verif.Props.C111_limits"
   ],
   "note": "Limits (C111_limits): initialize() does not touch ns and nt of DIPLS. CCARegression ignores every assignment to deflation_mode (C45)."
  },
  {
   "property": "C112",
   "status": "proved",
   "theorems": [
    "Verif.Props.C112_nipals",
    "Verif.Props.C112_sparse"
   ],
   "note": "Exact arithmetic; one response column (the code accepts no other, C82). Constant columns are excluded: Standardize then divides by one only in column 0."
  },
  {
   "property": "C113",
   "status": "proved",
   "theorems": [
    "Verif.Props.C113_overwritten",
    "Verif.Props.C113_two_models",
    "Verif.Props.C113_pls1",
    "Verif.Props.C113_pls1_transform",
    "Verif.Props.C113_vcpls",
    "Verif.Props.C113_simpls",
    "Verif.Props.C113_simpls_transform",
    "Verif.Props.C113_opls_base",
    "Verif.Props.C113_opls",
    "Verif.Props.C113_get_matrix_limits",
    "Verif.Props.C113_nipals",
    "Verif.Props.C113_nipals_transform",
    "Verif.Props.C113_nipals_transform_response",
    "Verif.Props.C113_sparse",
    "Verif.Props.C113_sparse_transform",
    "Verif.Props.C113_kernel_base",
    "Verif.Props.C113_kernel_base_transform",
    "Verif.Props.C113_kernel_linear",
    "Verif.Props.C113_kernel_poly",
    "Verif.Props.C113_kernel_rbf",
    "Verif.Props.C113_prm",
    "Verif.Props.C113_prm_transform",
    "Verif.Props.C113_dipls_unsupervised",
    "Verif.Props.C113_dipls_supervised",
    "Verif.Props.C113_dipls_semisupervised"
   ],
   "note": "Programs on a heap of matrix objects (Alg/Pls1Heap, PlsHeap, WrapHeap, NipalsHeap, SparseHeap, KernelHeap, PrmHeap, DiplsHeap) are shown to refine the functions on values; C113_get_matrix_limits proves that get_matrix shares the model's matrix. DIPLS is covered for new objects without preprocessing; its statements within one component are in the order of the function model. FastICA is in C140."
  },
  {
   "property": "C114",
   "status": "proved",
   "theorems": [
    "Verif.Props.C114_simpls",
    "Verif.Props.C114_nipals",
    "Verif.Props.C114_kernel",
    "Verif.Props.C114_krylov"
   ],
   "note": "Over the reals, for data on which every score used is nonzero (otherwise the code divides by zero, C97). C114_simpls, C114_nipals, C114_kernel follow from C73, C74, C101 and inherit their hypotheses."
  },
  {
   "property": "C115",
   "status": "proved",
   "theorems": [
    "Verif.Props.C115_growth",
    "Verif.Props.C115_shrinks"
   ],
   "note": "Over the reals, for data on which the scores used are nonzero."
  },
  {
   "property": "C116",
   "status": "proved",
   "theorems": [
    "Verif.Props.C116_principal_components"
   ],
   "note": "Stated for the uncentred X handed to PLS1; with centred X the eigenbasis is that of the covariance matrix."
  },
  {
   "property": "C117",
   "status": "proved",
   "theorems": [
    "Verif.Props.C117_covariance"
   ],
   "note": "Over the reals, for data on which the scores used are nonzero."
  },
  {
   "property": "C118",
   "status": "proved",
   "theorems": [
    "Verif.Props.C118_least_squares",
    "Verif.Props.C118_least_noise"
   ],
   "note": "Over the reals. The factor d! is the one the code leaves out, see C31."
  },
  {
   "property": "C119",
   "status": "proved",
   "theorems": [
    "Verif.Props.C119_optimal"
   ],
   "note": "Over the reals. The hypothesis on the eigenvectors is needed because the general (not symmetric) eigenvalue routine is called, which promises only unit eigenvectors."
  },
  {
   "property": "C120",
   "status": "partial",
   "theorems": [
    "Verif.Props.C120_supported",
    "Verif.Props.C120_answers",
    "Verif.Props.C120_forgotten",
    "Verif.Props.C120_pls1_partial",
    "Verif.Props.C120_opls_partial",
    "Verif.Props.C120_nipals_partial",
    "Verif.Props.C120_simpls_violation",
    "Verif.Props.C120_kernel_violation",
    "Verif.Props.C120_dipls_violation",
    "Verif.Props.C120_sparse_violation",
    "Verif.Props.C120_sparse_example"
   ],
   "note": "Lifecycle part proved for all PLS classes. The loadings are right for PLS1/VCPLS (C120_pls1_partial), OPLS and NIPALS. Violated: SIMPLS returns its weights W, KernelPLS and DIPLS return the scores T (one row per sample). SparsePLS also returns W, which for one component are loadings of its scores only if they have length one (C120_sparse_violation; C120_sparse_example has length two)."
  },
  {
   "property": "C121",
   "status": "proved",
   "theorems": [
    "Verif.Props.C121_pls1",
    "Verif.Props.C121_simpls",
    "Verif.Props.C121_kernel",
    "Verif.Props.C121_opls",
    "Verif.Props.C121_dipls",
    "Verif.Props.C121_pca",
    "Verif.Props.C121_nipals"
   ],
   "note": "NIPALS is shown for any arithmetic including rounding; the other classes for exact real arithmetic (PLS1 and DIPLS on runs where no score vanishes). KernelPLS draws a new random start per component; the nested run is given the same draws."
  },
  {
   "property": "C122",
   "status": "proved",
   "theorems": [
    "Verif.Props.C122_pls1",
    "Verif.Props.C122_simpls",
    "Verif.Props.C122_nipals",
    "Verif.Props.C122_kernel"
   ],
   "note": "PLS1, VCPLS and SIMPLS are stated for centred data without preprocessing, because predict does not preprocess the predictors (C51)."
  },
  {
   "property": "C123",
   "status": "proved",
   "theorems": [
    "Verif.Props.C123_pass",
    "Verif.Props.C123_limit",
    "Verif.Props.C123_loop",
    "Verif.Props.C123_training"
   ],
   "note": "Exact real arithmetic. The hypothesis that no second pass is zero is explicit; with a zero K u the code divides by zero (C50)."
  },
  {
   "property": "C124",
   "status": "partial",
   "theorems": [
    "Verif.Props.C124_predictions",
    "Verif.Props.C124_correlation",
    "Verif.Props.C124_uncorrelated",
    "Verif.Props.C124_violation",
    "Verif.Props.C124_square_violation"
   ],
   "note": "C124_violation: with X = [[-1,-1],[0,0],[1,1]], y = [-1,0,1] the predictions are about 2*y although y is a combination of the predictors. C124_square_violation: with n = p training raises LinAlgError in exact arithmetic (with floats the determinant may be a rounding error instead of 0 and the weights are then meaningless). Positive part: C124_predictions, C124_correlation, C124_uncorrelated. np.linalg.lstsq and np.linalg.pinv are assumed to return Moore-Penrose inverses (PinvRoutine; existence and uniqueness are proved)."
  },
  {
   "property": "C125",
   "status": "proved",
   "theorems": [
    "Verif.Props.C125_approximation"
   ],
   "note": "For a new object. svd is an oracle required to return a thin singular value decomposition, lstsq one required to return the Moore-Penrose inverse."
  },
  {
   "property": "C126",
   "status": "proved",
   "theorems": [
    "Verif.Props.C126_terminates"
   ],
   "note": "Exact real arithmetic. The distance condition is an explicit hypothesis on the iterates; what goes wrong without it is C80_violation. The default max_iter of 500 is below the bound for small tolerances, so for it the theorem gives no guarantee."
  },
  {
   "property": "C127",
   "status": "proved",
   "theorems": [
    "Verif.Props.C127_differences",
    "Verif.Props.C127_order",
    "Verif.Props.C127_contracts",
    "Verif.Props.C127_epo"
   ],
   "note": "Exact real arithmetic. The contraction part assumes orthonormal eigenvectors from np.linalg.eig (what happens otherwise: C64_nonorthogonal_violation)."
  },
  {
   "property": "C128",
   "status": "proved",
   "theorems": [
    "Verif.Props.C128_pls1",
    "Verif.Props.C128_simpls",
    "Verif.Props.C128_simpls_scaled",
    "Verif.Props.C128_repeat",
    "Verif.Props.C128_repeat_center"
   ],
   "note": "Standardizing is left out on purpose: the divisor n-1 makes the stored deviation of the response depend on how often samples are entered, and predictions take unstandardized data (C51)."
  },
  {
   "property": "C129",
   "status": "partial",
   "theorems": [
    "Verif.Props.C129_final_newline",
    "Verif.Props.C129_str",
    "Verif.Props.C129_roundtrip",
    "Verif.Props.C129_shape",
    "Verif.Props.C129_empty_violation"
   ],
   "note": "Violated for matrices without rows or columns: printing them raises an IndexError (C129_empty_violation)."
  },
  {
   "property": "C130",
   "status": "proved",
   "theorems": [
    "Verif.Props.C130_energy",
    "Verif.Props.C130_shift",
    "Verif.Props.C130_linear",
    "Verif.Props.C130_gain"
   ],
   "note": "Rows are matched up to a permutation because np.fft.fftshift also shifts rows (C37)."
  },
  {
   "property": "C131",
   "status": "proved",
   "theorems": [
    "Verif.Props.C131_pls1",
    "Verif.Props.C131_simpls",
    "Verif.Props.C131_pls1_center",
    "Verif.Props.C131_kernel",
    "Verif.Props.C131_kernel_linear",
    "Verif.Props.C131_kernel_poly",
    "Verif.Props.C131_kernel_rbf"
   ],
   "note": "PLS1 predictions of new samples are not centred by the code (C51), so the centred version shifts training samples only. Standardizing is left out: it depends on the coordinates. For square Q the PLS1 and SIMPLS parts are C98; new are rectangular Q, the shift under centring, and KernelPLS."
  },
  {
   "property": "C132",
   "status": "partial",
   "theorems": [
    "Verif.Props.C132_unsupervised_partial",
    "Verif.Props.C132_supervised_partial",
    "Verif.Props.C132_alike_partial",
    "Verif.Props.C132_violation"
   ],
   "note": "False as stated: the penalty uses the signed difference of the covariances, not its absolute value as in the published method. C132_violation gives samples for which every increase of lambda_ below 4 makes the variances less alike. What holds for all data while the penalised criterion is bounded below: the signed difference (source minus target) never grows with lambda_ (C132_unsupervised_partial, C132_supervised_partial); so the claim holds when the source varies at least as much as the target in every direction (C132_alike_partial)."
  },
  {
   "property": "C133",
   "status": "proved",
   "theorems": [
    "Verif.Props.C133_bounded",
    "Verif.Props.C133_model",
    "Verif.Props.C133_half_limits"
   ],
   "note": "About the first pass and models that stop after it. Later passes compute their residuals from the already weighted responses (C60). C133_half_limits shows that a majority is needed."
  },
  {
   "property": "C134",
   "status": "proved",
   "theorems": [
    "Verif.Props.C134_kernel",
    "Verif.Props.C134_opls",
    "Verif.Props.C134_opls_pls1",
    "Verif.Props.C134_kernel_example",
    "Verif.Props.C134_opls_example",
    "Verif.Props.C134_vcpls",
    "Verif.Props.C134_simpls",
    "Verif.Props.C134_prm",
    "Verif.Props.C134_sparse",
    "Verif.Props.C134_glsw",
    "Verif.Props.C134_epo",
    "Verif.Props.C134_yGlsw",
    "Verif.Props.C134_yEpo",
    "Verif.Props.C134_nipals",
    "Verif.Props.C134_cca",
    "Verif.Props.C134_sparse_example",
    "Verif.Props.C134_nipals_example",
    "Verif.Props.C134_vcpls_example",
    "Verif.Props.C134_nipals_options",
    "Verif.Props.C134_cca_options"
   ],
   "note": "Proved for twelve classes over any field of scalars with a square root (PLS1 is C48_pls1_object). The attributes the object holds after training are those the training code assigns, and the answers are computed from the attributes only. For KernelPLS the state of the kernel object is a parameter (training may fill in its gamma: C48_kernel_violation); for OPLS the base algorithm is an object that is initialised anew, and C134_opls_pls1 puts a whole PLS1 object there."
  },
  {
   "property": "C135",
   "status": "proved",
   "theorems": [
    "Verif.Props.C135_pls1",
    "Verif.Props.C135_simpls",
    "Verif.Props.C135_scores",
    "Verif.Props.C135_limits",
    "Verif.Props.C135_opls",
    "Verif.Props.C135_kernel",
    "Verif.Props.C135_nipals"
   ],
   "note": "Over the reals. Proved for the three documented preprocessing types; C135_limits shows that the hypothesis cannot be dropped (predictions of two arbitrarily close training sets differ by any amount)."
  },
  {
   "property": "C136",
   "status": "proved",
   "theorems": [
    "Verif.Props.C136_pls1",
    "Verif.Props.C136_simpls"
   ],
   "note": "Scores and predictions for PLS1, predictions for SIMPLS with one response and no slimming, without preprocessing (centred data are the case of centred rows); exact arithmetic. Generalises C131 (rotations)."
  },
  {
   "property": "C137",
   "status": "proved",
   "theorems": [
    "Verif.Props.C137_features",
    "Verif.Props.C137_kernel",
    "Verif.Props.C137_interpolates"
   ],
   "note": "C101 is the case of the linear kernel, where the constant is zero; C75_violation is a case where it is two. One response; exact arithmetic; the matrix inverse is NumPy's for non-singular input."
  },
  {
   "property": "C138",
   "status": "proved",
   "theorems": [
    "Verif.Props.C138_downsample",
    "Verif.Props.C138_refine",
    "Verif.Props.C138_back",
    "Verif.Props.C138_back_downsample",
    "Verif.Props.C138_equidistance",
    "Verif.Props.C138_downsample_linear",
    "Verif.Props.C138_savgol",
    "Verif.Props.C138_center",
    "Verif.Props.C138_mix"
   ],
   "note": "Exact arithmetic; SavitzkyGolay through its coefficient application (sgApply)."
  },
  {
   "property": "C139",
   "status": "partial",
   "theorems": [
    "Verif.Props.C139_values",
    "Verif.Props.C139_error",
    "Verif.Props.C139_first_spectrum",
    "Verif.Props.C139_history_free_partial",
    "Verif.Props.C139_memoryless",
    "Verif.Props.C139_memoryless_log",
    "Verif.Props.C139_order_violation",
    "Verif.Props.C139_reset_violation",
    "Verif.Props.C139_no_samples_violation",
    "Verif.Props.C139_center_nan_violation",
    "Verif.Props.C139_savitzky_golay_violation"
   ],
   "note": "Holds for prefilters without memory (PassThrough, Log, RowNorm, Y-gradient). A prefilter that learns (Center, Standardize) is configured by the first spectrum it sees and keeps that for all later spectra, also after reset of the corrector. The prefilter is also applied to the wave number column, so a range can lose all its samples (NaN results), and a SavitzkyGolay prefilter always raises ValueError on a two-column spectrum."
  },
  {
   "property": "C140",
   "status": "partial",
   "theorems": [
    "Verif.Props.C140_center",
    "Verif.Props.C140_standardize",
    "Verif.Props.C140_row_norm",
    "Verif.Props.C140_savitzky_golay",
    "Verif.Props.C140_scatter_correction",
    "Verif.Props.C140_scatter_correction_plain",
    "Verif.Props.C140_filters",
    "Verif.Props.C140_pass_through_weak",
    "Verif.Props.C140_multi_filter_weak",
    "Verif.Props.C140_multi_filter",
    "Verif.Props.C140_pass_through_violation",
    "Verif.Props.C140_pass_through_not_safe_violation",
    "Verif.Props.C140_getter_limits",
    "Verif.Props.C140_glsw",
    "Verif.Props.C140_ygradient_glsw",
    "Verif.Props.C140_cca",
    "Verif.Props.C140_pca_configure",
    "Verif.Props.C140_pca_transform",
    "Verif.Props.C140_fast_ica_transform",
    "Verif.Props.C140_fast_ica_reconstruct",
    "Verif.Props.C140_fast_ica_sources_limits"
   ],
   "note": "Programs on the heap of matrix objects (Transf/TransfHeap, Alg/FilterHeap, Alg/IcaHeap) refine the functions on values. C140_pass_through_violation: PassThrough and an empty MultiFilter return their argument. C140_getter_limits: get_means shares the mean matrix. PCA.transform keeps the returned scores and loadings as attributes. C140_fast_ica_sources_limits: the matrix FastICA.transform returns is its attribute sources."
  },
  {
   "property": "C141",
   "status": "proved",
   "theorems": [
    "Verif.Props.C141_index",
    "Verif.Props.C141_mean_stdev",
    "Verif.Props.C141_rows",
    "Verif.Props.C141_median",
    "Verif.Props.C141_median_laws",
    "Verif.Props.C141_median_nan",
    "Verif.Props.C141_single_limits"
   ],
   "note": "Core/Stats.lean; C141_single_limits: the deviation of a single sample is NaN (0/0). medianX_isMedian shows that the median assumed by the PRM theorems is this one. Exact arithmetic."
  },
  {
   "property": "C142",
   "status": "partial",
   "theorems": [
    "Verif.Props.C142_euclidean_violation"
   ],
   "note": "C142_euclidean_violation. Likewise make_qr_decomposition, qr_Q, qr_R, reduce_rows_L1/L2, reduce_columns_L1/L2 and __hash__ of Matrix only raise NotImplementedError (_Matrix.py 123-125, 441-463, 516-518); they are not modelled."
  },
  {
   "property": "C143",
   "status": "partial",
   "theorems": [
    "Verif.Props.C143_single",
    "Verif.Props.C143_multi",
    "Verif.Props.C143_pls",
    "Verif.Props.C143_pls1",
    "Verif.Props.C143_vcpls",
    "Verif.Props.C143_simpls",
    "Verif.Props.C143_nipals_partial",
    "Verif.Props.C143_opls",
    "Verif.Props.C143_opls_transform",
    "Verif.Props.C143_prm",
    "Verif.Props.C143_dipls",
    "Verif.Props.C143_kernelPls",
    "Verif.Props.C143_kernels",
    "Verif.Props.C143_constant_violation",
    "Verif.Props.C143_sparse",
    "Verif.Props.C143_sparse_nipals"
   ],
   "note": "C143_single and C143_multi carry the property through the preprocessing of the base classes. C143_nipals_partial needs that no predictor is constant; C143_constant_violation shows why: Standardize turns a constant column into NaN unless it is the first one. C143_sparse covers SparsePLS over the reals (one response, at least two samples, no constant predictor; median and maximum of a column independent of its order; the inner NIPALS by nipFeat_nipals). PRM with more predictors than samples fails it, see C81_order_violation. VCPLS and CCARegression assume that the eigenvalue routine or pseudo-inverse follows a reordering."
  },
  {
   "property": "C144",
   "status": "proved",
   "theorems": [
    "Verif.Props.C144_partition_int"
   ],
   "note": "Integers are compared exactly; the code converts the pivot with real(...), which is exact up to 2^53."
  },
  {
   "property": "C145",
   "status": "proved",
   "theorems": [
    "Verif.Props.C145_mixture",
    "Verif.Props.C145_read_off",
    "Verif.Props.C145_pls1_transform",
    "Verif.Props.C145_pls1_predict",
    "Verif.Props.C145_single_predict",
    "Verif.Props.C145_multi_predict",
    "Verif.Props.C145_simpls",
    "Verif.Props.C145_prm",
    "Verif.Props.C145_glsw",
    "Verif.Props.C145_opls",
    "Verif.Props.C145_center",
    "Verif.Props.C145_standardize",
    "Verif.Props.C145_nipals",
    "Verif.Props.C145_sparse",
    "Verif.Props.C145_dipls",
    "Verif.Props.C145_cca",
    "Verif.Props.C145_kernel",
    "Verif.Props.C145_linear_kernel",
    "Verif.Props.C145_pca",
    "Verif.Props.C145_rbf_limits"
   ],
   "note": "Exact arithmetic in a field. C145_rbf_limits shows that the RBF kernel is outside the claim, with a concrete model."
  },
  {
   "property": "C146",
   "status": "proved",
   "theorems": [
    "Verif.Props.C146_bad_training",
    "Verif.Props.C146_exhausted",
    "Verif.Props.C146_more_than_predictors",
    "Verif.Props.C146_regular",
    "Verif.Props.C146_bad_sample",
    "Verif.Props.C146_training_ends",
    "Verif.Props.C146_prep_bad_training",
    "Verif.Props.C146_prep_exhausted",
    "Verif.Props.C146_prep_few_samples",
    "Verif.Props.C146_constant_response",
    "Verif.Props.C146_constant_predictor",
    "Verif.Props.C146_prep_training_ends"
   ],
   "note": "Scalars are X R: reals, infinities and NaN with the IEEE rules, no rounding. The matrix inverse of the regression vector is a parameter; predictions do not use its result. Part (4) is proved without preprocessing. The model used is the generic-scalar copy of PLS1, which equals the field model by unfolding (pls1TrainG_field, pls1PredictG_field, singleTrainG_field, singlePredictG_field)."
  },
  {
   "property": "C147",
   "status": "partial",
   "theorems": [
    "Verif.Props.C147_pls1_columns",
    "Verif.Props.C147_pls1_rows",
    "Verif.Props.C147_simpls_columns",
    "Verif.Props.C147_simpls_rows",
    "Verif.Props.C147_opls_columns",
    "Verif.Props.C147_opls_rows",
    "Verif.Props.C147_nipals_columns",
    "Verif.Props.C147_nipals_rows_partial",
    "Verif.Props.C147_sparse_columns",
    "Verif.Props.C147_sparse_rows",
    "Verif.Props.C147_kernel_columns",
    "Verif.Props.C147_kernel_rows",
    "Verif.Props.C147_cca_columns",
    "Verif.Props.C147_cca_rows",
    "Verif.Props.C147_dipls_columns",
    "Verif.Props.C147_dipls_rows_partial",
    "Verif.Props.C147_scaling",
    "Verif.Props.C147_glsw_columns",
    "Verif.Props.C147_glsw_rows",
    "Verif.Props.C147_ygradient_columns",
    "Verif.Props.C147_pca_columns_partial",
    "Verif.Props.C147_pca_violation",
    "Verif.Props.C147_dipls_violation",
    "Verif.Props.C147_nipals_violation",
    "Verif.Props.C147_prm_rows",
    "Verif.Props.C147_prm_columns"
   ],
   "note": "FastICA is not covered. The shapes of eigenvector matrices (GLSW), of SVD factors and of the inner model (PRM, proved for SIMPLS in simplsBase_shape) are hypotheses. C147_nipals_violation, C147_dipls_violation and C147_pca_violation are the three gaps; C147_nipals_rows_partial covers NIPALS when the standardised responses are not numerically zero, C147_dipls_rows_partial the total numbers of rows, C147_pca_columns_partial a missing kept column."
  },
  {
   "property": "C148",
   "status": "partial",
   "theorems": [
    "Verif.Props.C148_pls1",
    "Verif.Props.C148_sum",
    "Verif.Props.C148_product",
    "Verif.Props.C148_center_round_trip",
    "Verif.Props.C148_standardize_round_trip",
    "Verif.Props.C148_preprocessing",
    "Verif.Props.C148_pls1_trains",
    "Verif.Props.C148_constant_violation"
   ],
   "note": "Programs run on the scalars Fl A of a machine A (Core/Rounded.lean); the limit is taken through every operation of training and prediction, then turned into an epsilon-delta statement by choosing sequences. Assumed: no overflow, NaN is covered by C146 instead. In the model sums run in one fixed order; C148_sum covers every order. Violated for constant columns by Standardize (C148_constant_violation)."
  },
  {
   "property": "C149",
   "status": "partial",
   "theorems": [
    "Verif.Props.C149_pls1_none",
    "Verif.Props.C149_pls1_center",
    "Verif.Props.C149_simpls_none",
    "Verif.Props.C149_simpls_center",
    "Verif.Props.C149_pls1_standardize_partial",
    "Verif.Props.C149_kernel_linear",
    "Verif.Props.C149_kernel_rbf",
    "Verif.Props.C149_rbf_default_limits",
    "Verif.Props.C149_standardize_violation"
   ],
   "note": "False for STANDARDIZE (C149_standardize_violation): Standardize replaces a zero deviation by one in column 0 only, so a constant column behind it becomes NaN and PLS1 predicts NaN for every sample, while the same data without that column give numbers. C149_pls1_standardize_partial is the part that holds (constant first column)."
  },
  {
   "property": "C150",
   "status": "partial",
   "theorems": [
    "Verif.Props.C150_center",
    "Verif.Props.C150_center_local",
    "Verif.Props.C150_standardize_partial",
    "Verif.Props.C150_standardize_local",
    "Verif.Props.C150_log",
    "Verif.Props.C150_log_refuses",
    "Verif.Props.C150_standardize_violation"
   ],
   "note": "False for Standardize (C150_standardize_violation): the guard against zero deviations looks at column 0 only. C150_standardize_partial gives the exact condition under which it holds."
  },
  {
   "property": "C151",
   "status": "proved",
   "theorems": [
    "Verif.Props.C151_pls1",
    "Verif.Props.C151_simpls",
    "Verif.Props.C151_pls1_center",
    "Verif.Props.C151_evenly"
   ],
   "note": "PLS1 and SIMPLS, over the reals, under the regularity that makes their components exist; repeated samples are C128_repeat."
  },
  {
   "property": "C152",
   "status": "partial",
   "theorems": [
    "Verif.Props.C152_kernelPls",
    "Verif.Props.C152_kernelPls_scores",
    "Verif.Props.C152_none",
    "Verif.Props.C152_center_partial",
    "Verif.Props.C152_kernelPls_mixing",
    "Verif.Props.C152_center_violation"
   ],
   "note": "Proved for KernelPLS itself and with the option NONE. With CENTER it is false, whatever the algorithm: the mean of the response that comes first is added to all columns (C52), so reordering shifts every prediction by the difference of two means; iff statement in C152_center_partial, KernelPLS witness in C152_center_violation. NIPALS and SparsePLS raise for several responses in any order (C53)."
  },
  {
   "property": "C153",
   "status": "proved",
   "theorems": [
    "Verif.Props.C153_coefficients",
    "Verif.Props.C153_mirror",
    "Verif.Props.C153_symmetric",
    "Verif.Props.C153_superfluous_order",
    "Verif.Props.C153_smoothing_noise",
    "Verif.Props.C153_smoothing_bounded",
    "Verif.Props.C153_interpolation"
   ],
   "note": "The mirrored coefficients include the parameters that raise. One-point windows are excluded: there the coefficient is 1 for every derivative (C31_single_point_violation)."
  },
  {
   "property": "C154",
   "status": "proved",
   "theorems": [
    "Verif.Props.C154_downsample",
    "Verif.Props.C154_chain",
    "Verif.Props.C154_pipeline",
    "Verif.Props.C154_mixture",
    "Verif.Props.C154_table",
    "Verif.Props.C154_equidistance",
    "Verif.Props.C154_savgol",
    "Verif.Props.C154_calibration",
    "Verif.Props.C154_calibration_pls1",
    "Verif.Props.C154_rowNorm_limits",
    "Verif.Props.C154_log_limits"
   ],
   "note": "C154_chain and C154_pipeline by induction over the steps. Affine means: for each number of columns, always refused, or multiplication by a fixed matrix plus a fixed row. MSC, RowNorm, Log and FFT are outside (RowNorm and Log by the _limits theorems)."
  },
  {
   "property": "C155",
   "status": "partial",
   "theorems": [
    "Verif.Props.C155_rotation_partial",
    "Verif.Props.C155_units_partial",
    "Verif.Props.C155_units_violation"
   ],
   "note": "Rotation proved for data with no more predictors than samples and no slimming (C155_rotation_partial). Unit of the response: every pass is equivariant, so with equal numbers of passes the predictions scale (C155_units_partial); but the loop compares gamma with an absolute tolerance, so the unit decides how many passes are made, and the predictions then differ (C155_units_violation: concrete data, default tolerance and tuning constant, max_iter 2). Not covered: more predictors than samples (there C81_order_violation), slimming."
  },
  {
   "property": "C156",
   "status": "proved",
   "theorems": [
    "Verif.Props.C156_simpls",
    "Verif.Props.C156_center",
    "Verif.Props.C156_standardize",
    "Verif.Props.C156_opls",
    "Verif.Props.C156_opls_pls1",
    "Verif.Props.C156_dipls_unsupervised",
    "Verif.Props.C156_dipls_supervised",
    "Verif.Props.C156_dipls_limits"
   ],
   "note": "SIMPLS (any slimming), OPLS over any base that respects the unit and over PLS1, CENTER and STANDARDIZE around any single-response method, DIPLS unsupervised and supervised with lambda_ scaled by the squared factor; C156_dipls_limits shows that lambda_ must be scaled. Exact arithmetic. PLS1 is C99, NIPALS/CCARegression/SparsePLS C112, PRM C155."
  },
  {
   "property": "C157",
   "status": "partial",
   "theorems": [
    "Verif.Props.C157_glsw_alpha",
    "Verif.Props.C157_epo_N",
    "Verif.Props.C157_prm_C",
    "Verif.Props.C157_pca",
    "Verif.Props.C157_sparse_partial",
    "Verif.Props.C157_sparse_small_violation",
    "Verif.Props.C157_sparse_order_violation",
    "Verif.Props.C157_rbf_gamma",
    "Verif.Props.C157_simpls_count",
    "Verif.Props.C157_downsample",
    "Verif.Props.C157_sg_order",
    "Verif.Props.C157_sg_window"
   ],
   "note": "True of all parameters but SparsePLS's lambda_. There the claim fails: the direction vector is divided by its squared norm and features are then selected with the fixed threshold 1e-6, so that features with correlations 1 : 1 : 2000 are never all selected whatever lambda_ is (against the class documentation, _SparsePLS.py 42-44), and of two million equally correlated features none is selected for lambda_ = 0 but all are for 3/4. What remains is that the non-zero entries of the direction vector shrink with lambda_. The PRM statement concerns the first weights, later ones depend on the regression in between."
  },
  {
   "property": "C158",
   "status": "partial",
   "theorems": [
    "Verif.Props.C158_new_partial",
    "Verif.Props.C158_again_violation",
    "Verif.Props.C158_unsupervised_violation"
   ],
   "note": "C158_new_partial: refusal while ns or nt is zero. C158_again_violation, C158_unsupervised_violation: after any successful training, plain initialize with the stacked data of that training trains the same model instead of being refused. Finding: ns and nt are cleared neither by reset nor by initialize, so the check of _DIPLS.py 112-117 works once per object."
  },
  {
   "property": "C159",
   "status": "proved",
   "theorems": [
    "Verif.Props.C159_routines",
    "Verif.Props.C159_order",
    "Verif.Props.C159_units",
    "Verif.Props.C159_units_centred",
    "Verif.Props.C159_rotation"
   ],
   "note": "C159_routines, C159_order, C159_units (standardised), C159_units_centred, C159_rotation, all consequences of pca_agree: if the prepared data are related by a scaled orthogonal matrix, so are the leading eigenvectors up to sign. Repeated eigenvalues are excluded: then any basis of the eigenspace is a legitimate answer."
  },
  {
   "property": "C160",
   "status": "proved",
   "theorems": [
    "Verif.Props.C160_responses",
    "Verif.Props.C160_unit",
    "Verif.Props.C160_kernel",
    "Verif.Props.C160_linear",
    "Verif.Props.C160_poly",
    "Verif.Props.C160_degree_one",
    "Verif.Props.C160_rbf"
   ],
   "note": "C160_responses covers responses mixed by a matrix orthogonal up to a factor and moved; C160_unit is the factor. C160_kernel compares two objects with kernels that differ by a positive factor and a constant; C160_linear, C160_poly, C160_rbf and C160_degree_one are instances. The default gamma of the RBF kernel is one over the number of columns, so with it the unit does matter."
  },
  {
   "property": "C161",
   "status": "partial",
   "theorems": [
    "Verif.Props.C161_glsw_partial",
    "Verif.Props.C161_solver_order_violation",
    "Verif.Props.C161_alpha_limits",
    "Verif.Props.C161_epo",
    "Verif.Props.C161_ygrad",
    "Verif.Props.C161_ygrad_fit"
   ],
   "note": "GLSW pairs eigenvectors in solver order with singular values in descending order, so the same eigenvectors listed in another order give another filter (C161_solver_order_violation). With alpha unchanged every change of unit changes the GLSW filter if there is any clutter (C161_alpha_limits)."
  },
  {
   "property": "C162",
   "status": "partial",
   "theorems": [
    "Verif.Props.C162_transformations",
    "Verif.Props.C162_right_prediction",
    "Verif.Props.C162_standardize_violation",
    "Verif.Props.C162_simpls",
    "Verif.Props.C162_glsw_partial",
    "Verif.Props.C162_epo",
    "Verif.Props.C162_pca",
    "Verif.Props.C162_nipals",
    "Verif.Props.C162_linear_kernel",
    "Verif.Props.C162_opls",
    "Verif.Props.C162_opls_pls1",
    "Verif.Props.C162_dipls",
    "Verif.Props.C162_dipls_limits",
    "Verif.Props.C162_median",
    "Verif.Props.C162_geometric_median",
    "Verif.Props.C162_leverage_weights",
    "Verif.Props.C162_residual_weights"
   ],
   "note": "Violated by PLS1 with STANDARDIZE: predictors are not standardised at prediction (C51), so the factor does not cancel and repeating samples pulls every prediction towards the mean response (C162_standardize_violation); with the standardisation applied it would cancel (C162_right_prediction). PLS1 without preprocessing or with centering is C128_repeat. GLSW needs eigenvalues in descending order, see C161. NIPALS standardises new data too and is not affected (C162_nipals). DIPLS relates the two domains through a penalty whose weight has to follow the number of samples; with lambda_ unchanged its predictions change (C162_dipls_limits). For PRM the claim stops at the weights: its loop ends by the change of a coefficient vector whose scale follows the number of samples, so the number of passes may differ."
  },
  {
   "property": "C163",
   "status": "proved",
   "theorems": [
    "Verif.Props.C163_center",
    "Verif.Props.C163_standardize",
    "Verif.Props.C163_rowNorm",
    "Verif.Props.C163_log",
    "Verif.Props.C163_log_inverse",
    "Verif.Props.C163_equidistance"
   ],
   "note": "Exact arithmetic: with rounding close values can become equal. Constant columns other than the first are divided by zero (C28)."
  }
 ]
}