{
 "claims": [
  {
   "property": "C01",
   "status": "proved",
   "theorems": [
    "Proadv.Props.C01_min",
    "Proadv.Props.C01_max"
   ],
   "note": ""
  },
  {
   "property": "C02",
   "status": "proved",
   "theorems": [
    "Proadv.Props.C02_mean_value",
    "Proadv.Props.C02_mean_between",
    "Proadv.Props.C02_mean_affine",
    "Proadv.Props.C02_mean_empty_scalar"
   ],
   "note": ""
  },
  {
   "property": "C03",
   "status": "partial",
   "theorems": [
    "Proadv.Props.C03_mean_exact",
    "Proadv.Props.C03_mean_documented_partial",
    "Proadv.Props.C03_mean_documented_false"
   ],
   "note": "full claim C03_documented is refuted by C03_mean_documented_false; C03_mean_exact gives the value for every list, and C03_mean_documented_partial proves the documented mean when no numeric string follows a non-numeric one"
  },
  {
   "property": "C04",
   "status": "proved",
   "theorems": [
    "Proadv.Props.C04_median_value",
    "Proadv.Props.C04_median_halves",
    "Proadv.Props.C04_median_errors",
    "Proadv.Props.C04_median_nan"
   ],
   "note": ""
  },
  {
   "property": "C05",
   "status": "proved",
   "theorems": [
    "Proadv.Props.C05_median_perm",
    "Proadv.Props.C05_mode_perm",
    "Proadv.Props.C05_median_affine"
   ],
   "note": ""
  },
  {
   "property": "C06",
   "status": "proved",
   "theorems": [
    "Proadv.Props.C06_mode",
    "Proadv.Props.C06_mode_empty"
   ],
   "note": ""
  },
  {
   "property": "C07",
   "status": "proved",
   "theorems": [
    "Proadv.Props.C07_variance",
    "Proadv.Props.C07_std",
    "Proadv.Props.C07_errors"
   ],
   "note": ""
  },
  {
   "property": "C08",
   "status": "proved",
   "theorems": [
    "Proadv.Props.C08_variance_affine",
    "Proadv.Props.C08_std_affine"
   ],
   "note": ""
  },
  {
   "property": "C09",
   "status": "proved",
   "theorems": [
    "Proadv.Props.C09_std_le_half_range"
   ],
   "note": ""
  },
  {
   "property": "C10",
   "status": "proved",
   "theorems": [
    "Proadv.Props.C10_skewness_affine",
    "Proadv.Props.C10_C11_constant",
    "Proadv.Props.C10_C11_errors"
   ],
   "note": ""
  },
  {
   "property": "C11",
   "status": "proved",
   "theorems": [
    "Proadv.Props.C10_C11_constant",
    "Proadv.Props.C11_kurtosis_affine",
    "Proadv.Props.C11_pearson",
    "Proadv.Props.C10_C11_errors"
   ],
   "note": ""
  },
  {
   "property": "C12",
   "status": "proved",
   "theorems": [
    "Proadv.Props.C12_moving_average",
    "Proadv.Props.C12_errors"
   ],
   "note": ""
  },
  {
   "property": "C13",
   "status": "proved",
   "theorems": [
    "Proadv.Props.C13_range"
   ],
   "note": ""
  },
  {
   "property": "C14",
   "status": "proved",
   "theorems": [
    "Proadv.Props.C14_nan_poisons"
   ],
   "note": ""
  },
  {
   "property": "C15",
   "status": "proved",
   "theorems": [
    "Proadv.Props.C15_ema",
    "Proadv.Props.C15_errors"
   ],
   "note": ""
  },
  {
   "property": "C16",
   "status": "proved",
   "theorems": [
    "Proadv.Props.C16_ema_int",
    "Proadv.Props.C16_truncates"
   ],
   "note": ""
  },
  {
   "property": "C17",
   "status": "proved",
   "theorems": [
    "Proadv.Props.C17_wma",
    "Proadv.Props.C17_wma_range",
    "Proadv.Props.C17_wma_ignores_last",
    "Proadv.Props.C17_errors"
   ],
   "note": ""
  },
  {
   "property": "C18",
   "status": "proved",
   "theorems": [
    "Proadv.Props.C18_kalman_bounded"
   ],
   "note": ""
  },
  {
   "property": "C19",
   "status": "proved",
   "theorems": [
    "Proadv.Props.C19_kalman_bayes"
   ],
   "note": ""
  },
  {
   "property": "C20",
   "status": "proved",
   "theorems": [
    "Proadv.Props.C20_kalman_exact_measurements",
    "Proadv.Props.C20_kalman_singular",
    "Proadv.Props.C20_kalman_first_error",
    "Proadv.Props.C20_kalman_second_error",
    "Proadv.Props.C20_kalman_trusted_prior"
   ],
   "note": ""
  },
  {
   "property": "C21",
   "status": "proved",
   "theorems": [
    "Proadv.Props.C21_diagonal_average"
   ],
   "note": ""
  },
  {
   "property": "C22",
   "status": "proved",
   "theorems": [
    "Proadv.Props.C22_embed_reconstruct",
    "Proadv.Props.C22_ssa_projection",
    "Proadv.Props.C22_ssa_identity"
   ],
   "note": ""
  },
  {
   "property": "C23",
   "status": "proved",
   "theorems": [
    "Proadv.Props.C23_ssa_rejects",
    "Proadv.Props.C23_ssa_length"
   ],
   "note": ""
  },
  {
   "property": "C24",
   "status": "proved",
   "theorems": [
    "Proadv.Props.C24_kinetic_value",
    "Proadv.Props.C24_kinetic_offset",
    "Proadv.Props.C24_kinetic_zero",
    "Proadv.Props.C24_kinetic_trace"
   ],
   "note": ""
  },
  {
   "property": "C25",
   "status": "proved",
   "theorems": [
    "Proadv.Props.C25_stresses_value",
    "Proadv.Props.C25_stresses_psd",
    "Proadv.Props.C25_stresses_offset",
    "Proadv.Props.C25_stresses_swap",
    "Proadv.Props.C25_errors"
   ],
   "note": ""
  },
  {
   "property": "C26",
   "status": "proved",
   "theorems": [
    "Proadv.Props.C26_kinetic_rotation"
   ],
   "note": ""
  },
  {
   "property": "C27",
   "status": "proved",
   "theorems": [
    "Proadv.Props.C27_random_index",
    "Proadv.Props.C27_count"
   ],
   "note": ""
  },
  {
   "property": "C28",
   "status": "proved",
   "theorems": [
    "Proadv.Props.C28_diverges",
    "Proadv.Props.C28_terminates"
   ],
   "note": ""
  },
  {
   "property": "C29",
   "status": "proved",
   "theorems": [
    "Proadv.Props.C29_synthetic_noise",
    "Proadv.Props.C29_amplitude"
   ],
   "note": ""
  },
  {
   "property": "C30",
   "status": "partial",
   "theorems": [
    "Proadv.Props.C30_hop",
    "Proadv.Props.C30_overlap_partial",
    "Proadv.Props.C30_overlap_false"
   ],
   "note": "full claim refuted by C30_overlap_false; C30_overlap_partial proves it holds exactly when overlap = 0 or block = 100; C30_hop gives the hop in every case"
  },
  {
   "property": "C31",
   "status": "proved",
   "theorems": [
    "Proadv.Props.C31_cdf",
    "Proadv.Props.C31_branches_agree"
   ],
   "note": ""
  },
  {
   "property": "C32",
   "status": "proved",
   "theorems": [
    "Proadv.Props.C32_cdf_shape",
    "Proadv.Props.C32_cdf_strict",
    "Proadv.Props.C32_sf"
   ],
   "note": ""
  },
  {
   "property": "C33",
   "status": "proved",
   "theorems": [
    "Proadv.Props.C33_pdf",
    "Proadv.Props.C33_pdf_shape",
    "Proadv.Props.C33_pdf_nonpos"
   ],
   "note": ""
  },
  {
   "property": "C34",
   "status": "proved",
   "theorems": [
    "Proadv.Props.C34_errors",
    "Proadv.Props.C34_scalar",
    "Proadv.Props.C34_int"
   ],
   "note": ""
  },
  {
   "property": "C35",
   "status": "proved",
   "theorems": [
    "Proadv.Props.C35_never_returns",
    "Proadv.Props.C35_exception"
   ],
   "note": ""
  },
  {
   "property": "C36",
   "status": "proved",
   "theorems": [
    "Proadv.Props.C36_inside_bracket"
   ],
   "note": ""
  },
  {
   "property": "C37",
   "status": "proved",
   "theorems": [
    "Proadv.Props.C37_near_zero"
   ],
   "note": ""
  },
  {
   "property": "C38",
   "status": "proved",
   "theorems": [
    "Proadv.Props.C38_value_error",
    "Proadv.Props.C38_returns",
    "Proadv.Props.C38_maxiter_silent"
   ],
   "note": ""
  },
  {
   "property": "C39",
   "status": "proved",
   "theorems": [
    "Proadv.Props.C39_function_calls"
   ],
   "note": ""
  },
  {
   "property": "C40",
   "status": "proved",
   "theorems": [
    "Proadv.Props.C40_core",
    "Proadv.Props.C40_inside_bounds",
    "Proadv.Props.C40_value_error"
   ],
   "note": ""
  },
  {
   "property": "C41",
   "status": "proved",
   "theorems": [
    "Proadv.Props.C41_any_float",
    "Proadv.Props.C41_least_value"
   ],
   "note": ""
  },
  {
   "property": "C42",
   "status": "proved",
   "theorems": [
    "Proadv.Props.C42_terminates",
    "Proadv.Props.C42_budget"
   ],
   "note": ""
  },
  {
   "property": "C43",
   "status": "partial",
   "theorems": [
    "Proadv.Props.C43_partial",
    "Proadv.Props.C43_false"
   ],
   "note": "full claim refuted by C43_false; C43_partial proves that the returned point is the last one evaluated, and attains the reported value exactly when it is a best one"
  },
  {
   "property": "C44",
   "status": "proved",
   "theorems": [
    "Proadv.Props.C44_cubic",
    "Proadv.Props.C44_linear",
    "Proadv.Props.C44_last_valid",
    "Proadv.Props.C44_mean",
    "Proadv.Props.C44_median",
    "Proadv.Props.C44_sma",
    "Proadv.Props.C44_ema",
    "Proadv.Props.C44_wma",
    "Proadv.Props.C44_ssa",
    "Proadv.Props.C58_kept"
   ],
   "note": ""
  },
  {
   "property": "C45",
   "status": "proved",
   "theorems": [
    "Proadv.Props.C45_carry_forward",
    "Proadv.Props.C45_exists"
   ],
   "note": ""
  },
  {
   "property": "C46",
   "status": "proved",
   "theorems": [
    "Proadv.Props.C46_wraps"
   ],
   "note": ""
  },
  {
   "property": "C47",
   "status": "proved",
   "theorems": [
    "Proadv.Props.C47_idempotent",
    "Proadv.Props.C47_ends_false",
    "Proadv.Props.C47_mean_not_idempotent"
   ],
   "note": ""
  },
  {
   "property": "C48",
   "status": "proved",
   "theorems": [
    "Proadv.Props.C48_mean_value",
    "Proadv.Props.C48_empty",
    "Proadv.Props.C48_mean_value_exact",
    "Proadv.Props.C48_median_value"
   ],
   "note": ""
  },
  {
   "property": "C49",
   "status": "proved",
   "theorems": [
    "Proadv.Props.C49_chord",
    "Proadv.Props.C49_line"
   ],
   "note": ""
  },
  {
   "property": "C50",
   "status": "proved",
   "theorems": [
    "Proadv.Props.C50_boundary",
    "Proadv.Props.C50_not_mean_at_start"
   ],
   "note": ""
  },
  {
   "property": "C51",
   "status": "proved",
   "theorems": [
    "Proadv.Props.C51_errors",
    "Proadv.Props.C51_out_of_range",
    "Proadv.Props.C51_all_missing"
   ],
   "note": ""
  },
  {
   "property": "C52",
   "status": "proved",
   "theorems": [
    "Proadv.Props.C52_in_range"
   ],
   "note": ""
  },
  {
   "property": "C53",
   "status": "proved",
   "theorems": [
    "Proadv.Props.C53_sma",
    "Proadv.Props.C53_ema",
    "Proadv.Props.C53_ema_store"
   ],
   "note": ""
  },
  {
   "property": "C54",
   "status": "proved",
   "theorems": [
    "Proadv.Props.C54_looks_forward",
    "Proadv.Props.C54_fails"
   ],
   "note": ""
  },
  {
   "property": "C55",
   "status": "proved",
   "theorems": [
    "Proadv.Props.C55_never_returns_data",
    "Proadv.Props.C55_raises"
   ],
   "note": ""
  },
  {
   "property": "C56",
   "status": "proved",
   "theorems": [
    "Proadv.Props.C56_char",
    "Proadv.Props.C56_boundary",
    "Proadv.Props.C56_trailing",
    "Proadv.Props.C56_interior_needs_twelve",
    "Proadv.Props.C56_int"
   ],
   "note": ""
  },
  {
   "property": "C57",
   "status": "partial",
   "theorems": [
    "Proadv.Props.C57_error",
    "Proadv.Props.C57_partial",
    "Proadv.Props.C57_false"
   ],
   "note": "full claim refuted by C57_false; C57_error gives the half-step error on every straight line, C57_partial proves the claim for slope 0"
  },
  {
   "property": "C58",
   "status": "proved",
   "theorems": [
    "Proadv.Props.C58_single",
    "Proadv.Props.C58_kept",
    "Proadv.Props.C58_no_lookahead",
    "Proadv.Props.C58_window",
    "Proadv.Props.C58_early_errors"
   ],
   "note": ""
  },
  {
   "property": "C59",
   "status": "proved",
   "theorems": [
    "Proadv.Props.C59_acceleration",
    "Proadv.Props.C59_correlation",
    "Proadv.Props.C59_correlation_one",
    "Proadv.Props.C59_kernel",
    "Proadv.Props.C59_phasespace",
    "Proadv.Props.C59_spherical"
   ],
   "note": ""
  },
  {
   "property": "C60",
   "status": "proved",
   "theorems": [
    "Proadv.Props.C60_errors",
    "Proadv.Props.C60_tag1",
    "Proadv.Props.C60_tag2",
    "Proadv.Props.C60_exact_up",
    "Proadv.Props.C60_exact_down"
   ],
   "note": ""
  },
  {
   "property": "C61",
   "status": "proved",
   "theorems": [
    "Proadv.Props.C61_symmetry",
    "Proadv.Props.C61_disjoint",
    "Proadv.Props.C61_offset",
    "Proadv.Props.C61_mono",
    "Proadv.Props.C61_constant"
   ],
   "note": ""
  },
  {
   "property": "C62",
   "status": "proved",
   "theorems": [
    "Proadv.Props.C62_general",
    "Proadv.Props.C62_noop",
    "Proadv.Props.C62_false"
   ],
   "note": ""
  },
  {
   "property": "C63",
   "status": "proved",
   "theorems": [
    "Proadv.Props.C63_general",
    "Proadv.Props.C63_unremovable"
   ],
   "note": ""
  },
  {
   "property": "C64",
   "status": "proved",
   "theorems": [
    "Proadv.Props.C64_errors",
    "Proadv.Props.C64_char",
    "Proadv.Props.C64_ellipses"
   ],
   "note": ""
  },
  {
   "property": "C65",
   "status": "proved",
   "theorems": [
    "Proadv.Props.C65_sign",
    "Proadv.Props.C65_reverse"
   ],
   "note": ""
  },
  {
   "property": "C66",
   "status": "proved",
   "theorems": [
    "Proadv.Props.C66_origin",
    "Proadv.Props.C66_offset_flags_all",
    "Proadv.Props.C66_not_offset_invariant",
    "Proadv.Props.C66_constant"
   ],
   "note": ""
  },
  {
   "property": "C67",
   "status": "proved",
   "theorems": [
    "Proadv.Props.C67_small",
    "Proadv.Props.C67_affine"
   ],
   "note": ""
  },
  {
   "property": "C68",
   "status": "proved",
   "theorems": [
    "Proadv.Props.C68_success_iff",
    "Proadv.Props.C68_empty"
   ],
   "note": ""
  },
  {
   "property": "C69",
   "status": "proved",
   "theorems": [
    "Proadv.Props.C69_constant"
   ],
   "note": ""
  },
  {
   "property": "C70",
   "status": "proved",
   "theorems": [
    "Proadv.Props.C70_rho",
    "Proadv.Props.C70_array",
    "Proadv.Props.C70_mismatch",
    "Proadv.Props.C70_pair"
   ],
   "note": ""
  },
  {
   "property": "C71",
   "status": "proved",
   "theorems": [
    "Proadv.Props.C71_axes",
    "Proadv.Props.C71_fallback"
   ],
   "note": ""
  },
  {
   "property": "C72",
   "status": "proved",
   "theorems": [
    "Proadv.Props.C72_arguments",
    "Proadv.Props.C72_offset"
   ],
   "note": ""
  },
  {
   "property": "C73",
   "status": "proved",
   "theorems": [
    "Proadv.Props.C73_nonfinite"
   ],
   "note": ""
  },
  {
   "property": "C74",
   "status": "proved",
   "theorems": [
    "Proadv.Props.C74_ellipsoid"
   ],
   "note": ""
  },
  {
   "property": "C75",
   "status": "proved",
   "theorems": [
    "Proadv.Props.C75_errors",
    "Proadv.Props.C75_constant"
   ],
   "note": ""
  },
  {
   "property": "C76",
   "status": "proved",
   "theorems": [
    "Proadv.Props.C76_cutoff",
    "Proadv.Props.C76_unique",
    "Proadv.Props.C76_errors"
   ],
   "note": ""
  },
  {
   "property": "C77",
   "status": "proved",
   "theorems": [
    "Proadv.Props.C77_minmod",
    "Proadv.Props.C77_laws"
   ],
   "note": ""
  },
  {
   "property": "C78",
   "status": "proved",
   "theorems": [
    "Proadv.Props.C78_count",
    "Proadv.Props.C78_errors",
    "Proadv.Props.C78_percentage",
    "Proadv.Props.C78_false"
   ],
   "note": ""
  },
  {
   "property": "C79",
   "status": "proved",
   "theorems": [
    "Proadv.Props.C79_kernel_derivatives",
    "Proadv.Props.C79_kernel_laws",
    "Proadv.Props.C79_kernel_int",
    "Proadv.Props.C79_phase"
   ],
   "note": ""
  },
  {
   "property": "C80",
   "status": "proved",
   "theorems": [
    "Proadv.Props.C80_angle",
    "Proadv.Props.C80_range",
    "Proadv.Props.C80_least_squares",
    "Proadv.Props.C80_offset",
    "Proadv.Props.C80_transform",
    "Proadv.Props.C80_residual",
    "Proadv.Props.C80_not_decorrelated"
   ],
   "note": ""
  },
  {
   "property": "C81",
   "status": "proved",
   "theorems": [
    "Proadv.Props.C81_weights",
    "Proadv.Props.C81_covariance",
    "Proadv.Props.C81_density"
   ],
   "note": ""
  },
  {
   "property": "C82",
   "status": "proved",
   "theorems": [
    "Proadv.Props.C82_increasing",
    "Proadv.Props.C82_union",
    "Proadv.Props.C82_empty",
    "Proadv.Props.C82_degenerate",
    "Proadv.Props.C82_kernel",
    "Proadv.Props.C82_nan_density"
   ],
   "note": ""
  },
  {
   "property": "C83",
   "status": "proved",
   "theorems": [
    "Proadv.Props.C83_histogram",
    "Proadv.Props.C83_no_grid"
   ],
   "note": ""
  },
  {
   "property": "C84",
   "status": "proved",
   "theorems": [
    "Proadv.Props.C84_binning",
    "Proadv.Props.C84_nan",
    "Proadv.Props.C84_first_cell",
    "Proadv.Props.C84_interval"
   ],
   "note": ""
  },
  {
   "property": "C85",
   "status": "proved",
   "theorems": [
    "Proadv.Props.C85_scaling",
    "Proadv.Props.C85_constant"
   ],
   "note": ""
  },
  {
   "property": "C86",
   "status": "proved",
   "theorems": [
    "Proadv.Props.C86_k"
   ],
   "note": ""
  },
  {
   "property": "C87",
   "status": "proved",
   "theorems": [
    "Proadv.Props.C87_terminates",
    "Proadv.Props.C87_sharp",
    "Proadv.Props.C87_result",
    "Proadv.Props.C87_range"
   ],
   "note": ""
  },
  {
   "property": "C88",
   "status": "proved",
   "theorems": [
    "Proadv.Props.C88_reorder_length",
    "Proadv.Props.C88_reorder_perm",
    "Proadv.Props.C88_square",
    "Proadv.Props.C88_odd",
    "Proadv.Props.C88_empty",
    "Proadv.Props.C88_even",
    "Proadv.Props.C88_order_one"
   ],
   "note": ""
  },
  {
   "property": "C89",
   "status": "proved",
   "theorems": [
    "Proadv.Props.C89_axis",
    "Proadv.Props.C89_axis_end",
    "Proadv.Props.C89_kernel",
    "Proadv.Props.C89_nonneg",
    "Proadv.Props.C89_odd_grid",
    "Proadv.Props.C89_empty",
    "Proadv.Props.C89_no_grid",
    "Proadv.Props.C89_degenerate"
   ],
   "note": ""
  },
  {
   "property": "C90",
   "status": "proved",
   "theorems": [
    "Proadv.Props.C90_calls",
    "Proadv.Props.C90_base",
    "Proadv.Props.C90_psi",
    "Proadv.Props.C90_sign",
    "Proadv.Props.C90_evolve"
   ],
   "note": ""
  },
  {
   "property": "C91",
   "status": "proved",
   "theorems": [
    "Proadv.C91_low_to_low"
   ],
   "note": ""
  },
  {
   "property": "C92",
   "status": "proved",
   "theorems": [
    "Proadv.C92_low_to_high",
    "Proadv.C92_side"
   ],
   "note": ""
  },
  {
   "property": "C93",
   "status": "proved",
   "theorems": [
    "Proadv.C93_low_to_band"
   ],
   "note": ""
  },
  {
   "property": "C94",
   "status": "proved",
   "theorems": [
    "Proadv.C94_low_to_stop"
   ],
   "note": ""
  },
  {
   "property": "C95",
   "status": "proved",
   "theorems": [
    "Proadv.C95_bilinear",
    "Proadv.C95_side",
    "Proadv.C95_errors"
   ],
   "note": ""
  },
  {
   "property": "C96",
   "status": "proved",
   "theorems": [
    "Proadv.C96_improper",
    "Proadv.C96_counts"
   ],
   "note": ""
  },
  {
   "property": "C97",
   "status": "proved",
   "theorems": [
    "Proadv.C97_prototype",
    "Proadv.C97_rejects"
   ],
   "note": ""
  },
  {
   "property": "C98",
   "status": "proved",
   "theorems": [
    "Proadv.C98_max_flat",
    "Proadv.C98_order_zero",
    "Proadv.C98_shape"
   ],
   "note": ""
  },
  {
   "property": "C99",
   "status": "proved",
   "theorems": [
    "Proadv.C99_stable",
    "Proadv.C99_real"
   ],
   "note": ""
  },
  {
   "property": "C100",
   "status": "proved",
   "theorems": [
    "Proadv.C100_analog",
    "Proadv.C100_digital",
    "Proadv.C100_ends",
    "Proadv.C100_half_power_analog",
    "Proadv.C100_half_power"
   ],
   "note": ""
  },
  {
   "property": "C101",
   "status": "proved",
   "theorems": [
    "Proadv.C101_value_error",
    "Proadv.C101_not_implemented",
    "Proadv.C101_accepts",
    "Proadv.C101_butterworth",
    "Proadv.C101_extra_edges_ignored"
   ],
   "note": ""
  },
  {
   "property": "C102",
   "status": "proved",
   "theorems": [
    "Proadv.C102_expansion",
    "Proadv.C102_transfer",
    "Proadv.C102_shape"
   ],
   "note": ""
  },
  {
   "property": "C103",
   "status": "partial",
   "theorems": [
    "Proadv.Props.C103_partial",
    "Proadv.Props.C103_false"
   ],
   "note": "full claim refuted by C103_false; C103_partial gives the equations the axes do solve and the resulting inclusion"
  },
  {
   "property": "C104",
   "status": "proved",
   "theorems": [
    "Proadv.Props.C104_success_iff",
    "Proadv.Props.C104_steep",
    "Proadv.Props.C104_flagged"
   ],
   "note": ""
  },
  {
   "property": "C105",
   "status": "proved",
   "theorems": [
    "Proadv.Props.C105_telescope",
    "Proadv.Props.C105_angle",
    "Proadv.Props.C105_no_rotation"
   ],
   "note": ""
  },
  {
   "property": "C106",
   "status": "proved",
   "theorems": [
    "Proadv.Props.C106_sign"
   ],
   "note": ""
  },
  {
   "property": "C107",
   "status": "proved",
   "theorems": [
    "Proadv.Props.C107_p_value",
    "Proadv.Props.C107_relations"
   ],
   "note": ""
  },
  {
   "property": "C108",
   "status": "proved",
   "theorems": [
    "Proadv.Props.C108_bracket"
   ],
   "note": ""
  },
  {
   "property": "C109",
   "status": "proved",
   "theorems": [
    "Proadv.Props.C109_formula",
    "Proadv.Props.C109_intended",
    "Proadv.Props.C109_not_dct"
   ],
   "note": ""
  },
  {
   "property": "C110",
   "status": "proved",
   "theorems": [
    "Proadv.Props.C110_not_normalised"
   ],
   "note": ""
  },
  {
   "property": "C111",
   "status": "proved",
   "theorems": [
    "Proadv.C111_nearest",
    "Proadv.C111_response"
   ],
   "note": ""
  },
  {
   "property": "C112",
   "status": "proved",
   "theorems": [
    "Proadv.C112_minimal",
    "Proadv.C112_response",
    "Proadv.C112_default",
    "Proadv.C112_constant"
   ],
   "note": ""
  },
  {
   "property": "C113",
   "status": "proved",
   "theorems": [
    "Proadv.C113_sound",
    "Proadv.C113_value_error",
    "Proadv.C113_unmatched",
    "Proadv.C113_index_error",
    "Proadv.C113_keep_odd_index_error"
   ],
   "note": ""
  },
  {
   "property": "C114",
   "status": "proved",
   "theorems": [
    "Proadv.C114_butterworth_sop"
   ],
   "note": ""
  },
  {
   "property": "C115",
   "status": "proved",
   "theorems": [
    "Proadv.Props.C115_dictionary",
    "Proadv.Props.C115_cholesky"
   ],
   "note": ""
  },
  {
   "property": "C116",
   "status": "proved",
   "theorems": [
    "Proadv.Props.C116_density",
    "Proadv.Props.C116_positive",
    "Proadv.Props.C116_integral",
    "Proadv.Props.C116_kernel_both",
    "Proadv.Props.C116_estimation"
   ],
   "note": ""
  },
  {
   "property": "C117",
   "status": "proved",
   "theorems": [
    "Proadv.Props.C117_too_short",
    "Proadv.Props.C117_collinear",
    "Proadv.Props.C117_success",
    "Proadv.Props.C117_small_grid",
    "Proadv.Props.C117_nonfinite",
    "Proadv.Props.C117_three_constant",
    "Proadv.Props.C117_three_short",
    "Proadv.Props.C117_three_nonfinite",
    "Proadv.Props.C117_no_grid"
   ],
   "note": ""
  },
  {
   "property": "C118",
   "status": "proved",
   "theorems": [
    "Proadv.Props.C118_kernel",
    "Proadv.Props.C118_three"
   ],
   "note": ""
  },
  {
   "property": "C119",
   "status": "proved",
   "theorems": [
    "Proadv.Props.C119_scaled",
    "Proadv.Props.C119_small",
    "Proadv.Props.C119_large",
    "Proadv.Props.C119_unit_dependent"
   ],
   "note": ""
  },
  {
   "property": "C120",
   "status": "proved",
   "theorems": [
    "Proadv.Props.C120_rotation",
    "Proadv.Props.C120_near",
    "Proadv.Props.C120_mean"
   ],
   "note": ""
  },
  {
   "property": "C121",
   "status": "proved",
   "theorems": [
    "Proadv.Props.C121_point",
    "Proadv.Props.C121_flags"
   ],
   "note": ""
  },
  {
   "property": "C122",
   "status": "proved",
   "theorems": [
    "Proadv.Props.C122_missed"
   ],
   "note": ""
  },
  {
   "property": "C123",
   "status": "proved",
   "theorems": [
    "Proadv.Props.C123_text",
    "Proadv.Props.C123_never_invalid",
    "Proadv.Props.C123_values"
   ],
   "note": ""
  },
  {
   "property": "C124",
   "status": "proved",
   "theorems": [
    "Proadv.Props.C124_rows",
    "Proadv.Props.C124_errors",
    "Proadv.Props.C124_documented_false"
   ],
   "note": ""
  },
  {
   "property": "C125",
   "status": "proved",
   "theorems": [
    "Proadv.Props.C125_restore",
    "Proadv.Props.C125_contract"
   ],
   "note": ""
  },
  {
   "property": "C126",
   "status": "proved",
   "theorems": [
    "Proadv.Props.C126_errors",
    "Proadv.Props.C126_value"
   ],
   "note": ""
  },
  {
   "property": "C127",
   "status": "proved",
   "theorems": [
    "Proadv.Props.C127_tail"
   ],
   "note": ""
  },
  {
   "property": "C128",
   "status": "proved",
   "theorems": [
    "Proadv.Props.C128_parseval"
   ],
   "note": ""
  },
  {
   "property": "C129",
   "status": "proved",
   "theorems": [
    "Proadv.Props.C129_nonneg",
    "Proadv.Props.C129_affine"
   ],
   "note": ""
  },
  {
   "property": "C130",
   "status": "proved",
   "theorems": [
    "Proadv.Props.C130_reverse"
   ],
   "note": ""
  },
  {
   "property": "C131",
   "status": "proved",
   "theorems": [
    "Proadv.Props.C131_nan",
    "Proadv.Props.C131_block_two"
   ],
   "note": ""
  },
  {
   "property": "C132",
   "status": "proved",
   "theorems": [
    "Proadv.Props.C132_forgets",
    "Proadv.Props.C132_steady",
    "Proadv.Props.C132_limit"
   ],
   "note": ""
  },
  {
   "property": "C133",
   "status": "proved",
   "theorems": [
    "Proadv.Props.C133_linear"
   ],
   "note": ""
  },
  {
   "property": "C134",
   "status": "proved",
   "theorems": [
    "Proadv.Props.C134_count",
    "Proadv.Props.C134_blind"
   ],
   "note": ""
  },
  {
   "property": "C135",
   "status": "proved",
   "theorems": [
    "Proadv.Props.C135_order",
    "Proadv.Props.C135_reverse"
   ],
   "note": ""
  },
  {
   "property": "C136",
   "status": "proved",
   "theorems": [
    "Proadv.Props.C136_flat",
    "Proadv.Props.C136_fine",
    "Proadv.Props.C136_integers",
    "Proadv.Props.C136_small_unit",
    "Proadv.Props.C136_unit_dependent"
   ],
   "note": ""
  },
  {
   "property": "C137",
   "status": "proved",
   "theorems": [
    "Proadv.Props.C137_scale"
   ],
   "note": ""
  },
  {
   "property": "C138",
   "status": "proved",
   "theorems": [
    "Proadv.Props.C138_step_shapes",
    "Proadv.Props.C138_rejects",
    "Proadv.Props.C138_empty",
    "Proadv.Props.C138_columns"
   ],
   "note": ""
  },
  {
   "property": "C139",
   "status": "proved",
   "theorems": [
    "Proadv.Props.C139_moving_average",
    "Proadv.Props.C139_contamination",
    "Proadv.Props.C139_range_fails"
   ],
   "note": ""
  },
  {
   "property": "C140",
   "status": "proved",
   "theorems": [
    "Proadv.Props.C140_weighted_moving_average"
   ],
   "note": ""
  },
  {
   "property": "C141",
   "status": "proved",
   "theorems": [
    "Proadv.Props.C141_ema",
    "Proadv.Props.C141_constant_series"
   ],
   "note": ""
  },
  {
   "property": "C142",
   "status": "proved",
   "theorems": [
    "Proadv.Props.C142_mean",
    "Proadv.Props.C142_mean_relative",
    "Proadv.Props.C142_variance",
    "Proadv.Props.C142_constant_series"
   ],
   "note": ""
  },
  {
   "property": "C143",
   "status": "proved",
   "theorems": [
    "Proadv.Props.C143_phase_space",
    "Proadv.Props.C143_spherical",
    "Proadv.Props.C143_correlation",
    "Proadv.Props.C143_acceleration",
    "Proadv.Props.C143_frame",
    "Proadv.Props.C143_clean"
   ],
   "note": ""
  },
  {
   "property": "C144",
   "status": "proved",
   "theorems": [
    "Proadv.Props.C144_total",
    "Proadv.Props.C144_errors"
   ],
   "note": ""
  },
  {
   "property": "C145",
   "status": "proved",
   "theorems": [
    "Proadv.Props.C145_one_direction",
    "Proadv.Props.C145_upward",
    "Proadv.Props.C145_downward",
    "Proadv.Props.C145_stops_early"
   ],
   "note": ""
  },
  {
   "property": "C146",
   "status": "proved",
   "theorems": [
    "Proadv.Props.C146_correlation",
    "Proadv.Props.C146_first_round"
   ],
   "note": ""
  },
  {
   "property": "C147",
   "status": "proved",
   "theorems": [
    "Proadv.Props.C147_trivariate",
    "Proadv.Props.C147_bivariate"
   ],
   "note": ""
  },
  {
   "property": "C148",
   "status": "proved",
   "theorems": [
    "Proadv.Props.C148_correlation",
    "Proadv.Props.C148_phase",
    "Proadv.Props.C148_acceleration"
   ],
   "note": ""
  },
  {
   "property": "C149",
   "status": "proved",
   "theorems": [
    "Proadv.Props.C149_nan_density",
    "Proadv.Props.C149_ellipse",
    "Proadv.Props.C149_degenerate_first",
    "Proadv.Props.C149_degenerate_second",
    "Proadv.Props.C149_program"
   ],
   "note": ""
  },
  {
   "property": "C150",
   "status": "proved",
   "theorems": [
    "Proadv.Props.C150_energy",
    "Proadv.Props.C150_bound"
   ],
   "note": ""
  },
  {
   "property": "C151",
   "status": "proved",
   "theorems": [
    "Proadv.Props.C151_signs_order"
   ],
   "note": ""
  },
  {
   "property": "C152",
   "status": "proved",
   "theorems": [
    "Proadv.Props.C152_long_window",
    "Proadv.Props.C152_constant"
   ],
   "note": ""
  },
  {
   "property": "C153",
   "status": "proved",
   "theorems": [
    "Proadv.Props.C153_replacement"
   ],
   "note": ""
  },
  {
   "property": "C154",
   "status": "proved",
   "theorems": [
    "Proadv.Props.C154_converges",
    "Proadv.Props.C154_defaults"
   ],
   "note": ""
  },
  {
   "property": "C155",
   "status": "proved",
   "theorems": [
    "Proadv.Props.C155_core",
    "Proadv.Props.C155_stops"
   ],
   "note": ""
  },
  {
   "property": "C156",
   "status": "proved",
   "theorems": [
    "Proadv.Props.C156_core",
    "Proadv.Props.C156_minimum"
   ],
   "note": ""
  },
  {
   "property": "C157",
   "status": "proved",
   "theorems": [
    "Proadv.Props.C157_mean",
    "Proadv.Props.C157_median",
    "Proadv.Props.C157_mean_median"
   ],
   "note": ""
  },
  {
   "property": "C158",
   "status": "proved",
   "theorems": [
    "Proadv.Props.C158_samuelson",
    "Proadv.Props.C158_moments",
    "Proadv.Props.C158_attained"
   ],
   "note": ""
  },
  {
   "property": "C159",
   "status": "proved",
   "theorems": [
    "Proadv.Props.C159_mean",
    "Proadv.Props.C159_variance"
   ],
   "note": ""
  },
  {
   "property": "C160",
   "status": "proved",
   "theorems": [
    "Proadv.Props.C160_ma",
    "Proadv.Props.C160_ema",
    "Proadv.Props.C160_ema_int",
    "Proadv.Props.C160_wma"
   ],
   "note": ""
  },
  {
   "property": "C161",
   "status": "proved",
   "theorems": [
    "Proadv.Props.C161_ma",
    "Proadv.Props.C161_ema",
    "Proadv.Props.C161_wma",
    "Proadv.Props.C161_ma_prefix",
    "Proadv.Props.C161_wma_window"
   ],
   "note": ""
  },
  {
   "property": "C162",
   "status": "proved",
   "theorems": [
    "Proadv.Props.C162_ma",
    "Proadv.Props.C162_ema",
    "Proadv.Props.C162_wma"
   ],
   "note": ""
  },
  {
   "property": "C163",
   "status": "proved",
   "theorems": [
    "Proadv.Props.C163_core",
    "Proadv.Props.C163_fminbound"
   ],
   "note": ""
  },
  {
   "property": "C164",
   "status": "proved",
   "theorems": [
    "Proadv.Props.C164_units",
    "Proadv.Props.C164_mirror",
    "Proadv.Props.C164_mirror_needs"
   ],
   "note": ""
  },
  {
   "property": "C165",
   "status": "proved",
   "theorems": [
    "Proadv.Props.C165_tensor",
    "Proadv.Props.C165_invariants",
    "Proadv.Props.C165_det"
   ],
   "note": ""
  },
  {
   "property": "C166",
   "status": "proved",
   "theorems": [
    "Proadv.C166_lp_hp",
    "Proadv.C166_bp_bs"
   ],
   "note": ""
  },
  {
   "property": "C167",
   "status": "proved",
   "theorems": [
    "Proadv.C167_le_one",
    "Proadv.C167_band",
    "Proadv.C167_monotone"
   ],
   "note": ""
  },
  {
   "property": "C168",
   "status": "proved",
   "theorems": [
    "Proadv.C168_order",
    "Proadv.C168_limit",
    "Proadv.C168_rolloff"
   ],
   "note": ""
  },
  {
   "property": "C169",
   "status": "proved",
   "theorems": [
    "Proadv.Props.C169_derivative",
    "Proadv.Props.C169_tails",
    "Proadv.Props.C169_limits"
   ],
   "note": ""
  },
  {
   "property": "C170",
   "status": "proved",
   "theorems": [
    "Proadv.Props.C170_spike_values",
    "Proadv.Props.C170_leak",
    "Proadv.Props.C170_idempotent",
    "Proadv.Props.C170_second_pass"
   ],
   "note": ""
  },
  {
   "property": "C171",
   "status": "proved",
   "theorems": [
    "Proadv.Props.C171_reversal",
    "Proadv.Props.C171_ends",
    "Proadv.Props.C171_affine"
   ],
   "note": ""
  },
  {
   "property": "C172",
   "status": "proved",
   "theorems": [
    "Proadv.Props.C172_skew_value",
    "Proadv.Props.C172_skew_laws",
    "Proadv.Props.C172_skew_sharp",
    "Proadv.Props.C172_kurt_value",
    "Proadv.Props.C172_kurt_monotone",
    "Proadv.Props.C172_kurt_masked"
   ],
   "note": ""
  },
  {
   "property": "C173",
   "status": "proved",
   "theorems": [
    "Proadv.Props.C173_order",
    "Proadv.Props.C173_repeat",
    "Proadv.Props.C173_units",
    "Proadv.Props.C173_bandwidth_sign",
    "Proadv.Props.C173_exchange"
   ],
   "note": ""
  },
  {
   "property": "C174",
   "status": "proved",
   "theorems": [
    "Proadv.Props.C174_limit",
    "Proadv.Props.C174_not_uniform"
   ],
   "note": ""
  },
  {
   "property": "C175",
   "status": "proved",
   "theorems": [
    "Proadv.Props.C175_displacement",
    "Proadv.Props.C175_short",
    "Proadv.Props.C175_range",
    "Proadv.Props.C175_ssa"
   ],
   "note": ""
  },
  {
   "property": "C176",
   "status": "proved",
   "theorems": [
    "Proadv.Props.C176_kalman",
    "Proadv.Props.C176_forgets"
   ],
   "note": ""
  },
  {
   "property": "C177",
   "status": "proved",
   "theorems": [
    "Proadv.Props.C177_short",
    "Proadv.Props.C177_line",
    "Proadv.Props.C177_constant"
   ],
   "note": ""
  },
  {
   "property": "C178",
   "status": "proved",
   "theorems": [
    "Proadv.Props.C178_separable",
    "Proadv.Props.C178_program"
   ],
   "note": ""
  },
  {
   "property": "C179",
   "status": "proved",
   "theorems": [
    "Proadv.Props.C179_median",
    "Proadv.Props.C179_median_sharp",
    "Proadv.Props.C179_mean",
    "Proadv.Props.C179_median_value",
    "Proadv.Props.C179_mean_value",
    "Proadv.Props.C179_last_valid"
   ],
   "note": ""
  },
  {
   "property": "C180",
   "status": "proved",
   "theorems": [
    "Proadv.Props.C180_ma",
    "Proadv.Props.C180_ema",
    "Proadv.Props.C180_wma"
   ],
   "note": ""
  },
  {
   "property": "C181",
   "status": "proved",
   "theorems": [
    "Proadv.Props.C181_ma",
    "Proadv.Props.C181_ema",
    "Proadv.Props.C181_wma"
   ],
   "note": ""
  },
  {
   "property": "C182",
   "status": "proved",
   "theorems": [
    "Proadv.Props.C182_ema",
    "Proadv.Props.C182_wma",
    "Proadv.Props.C182_kalman"
   ],
   "note": ""
  },
  {
   "property": "C183",
   "status": "proved",
   "theorems": [
    "Proadv.Props.C183_mean_variance",
    "Proadv.Props.C183_moments",
    "Proadv.Props.C183_stresses",
    "Proadv.Props.C183_energy"
   ],
   "note": ""
  },
  {
   "property": "C184",
   "status": "proved",
   "theorems": [
    "Proadv.Props.C184_mean",
    "Proadv.Props.C184_median",
    "Proadv.Props.C184_sma",
    "Proadv.Props.C184_ema",
    "Proadv.Props.C184_wma"
   ],
   "note": ""
  },
  {
   "property": "C185",
   "status": "proved",
   "theorems": [
    "Proadv.Props.C185_last_valid",
    "Proadv.Props.C185_linear"
   ],
   "note": ""
  },
  {
   "property": "C186",
   "status": "proved",
   "theorems": [
    "Proadv.Props.C186_acceleration",
    "Proadv.Props.C186_phasespace",
    "Proadv.Props.C186_correlation"
   ],
   "note": ""
  },
  {
   "property": "C187",
   "status": "proved",
   "theorems": [
    "Proadv.Props.C187_unique",
    "Proadv.Props.C187_superposition",
    "Proadv.Props.C187_translation",
    "Proadv.Props.C187_forecast",
    "Proadv.Props.C187_weights_sum",
    "Proadv.Props.C187_replacement"
   ],
   "note": ""
  },
  {
   "property": "C188",
   "status": "proved",
   "theorems": [
    "Proadv.Props.C188_gain",
    "Proadv.Props.C188_sensitivity"
   ],
   "note": ""
  },
  {
   "property": "C189",
   "status": "proved",
   "theorems": [
    "Proadv.Props.C189_optimal"
   ],
   "note": ""
  },
  {
   "property": "C190",
   "status": "proved",
   "theorems": [
    "Proadv.Props.C190_moving_average",
    "Proadv.Props.C190_ema",
    "Proadv.Props.C190_wma"
   ],
   "note": ""
  },
  {
   "property": "C191",
   "status": "proved",
   "theorems": [
    "Proadv.C191_units",
    "Proadv.C191_default_rate"
   ],
   "note": ""
  },
  {
   "property": "C192",
   "status": "proved",
   "theorems": [
    "Proadv.C192_inversion",
    "Proadv.C192_lists"
   ],
   "note": ""
  },
  {
   "property": "C193",
   "status": "proved",
   "theorems": [
    "Proadv.C193_scaling",
    "Proadv.C193_accepts"
   ],
   "note": ""
  },
  {
   "property": "C194",
   "status": "proved",
   "theorems": [
    "Proadv.Props.C194_two_dimensional",
    "Proadv.Props.C194_rejects",
    "Proadv.Props.C194_no_type_error",
    "Proadv.Props.C194_scalars",
    "Proadv.Props.C194_rows_rejected"
   ],
   "note": ""
  },
  {
   "property": "C195",
   "status": "proved",
   "theorems": [
    "Proadv.Props.C195_errors",
    "Proadv.Props.C195_double",
    "Proadv.Props.C195_float",
    "Proadv.Props.C195_complex",
    "Proadv.Props.C195_half",
    "Proadv.Props.C195_promotes"
   ],
   "note": ""
  },
  {
   "property": "C196",
   "status": "proved",
   "theorems": [
    "Proadv.Props.C196_raises",
    "Proadv.Props.C196_always",
    "Proadv.Props.C196_common"
   ],
   "note": ""
  },
  {
   "property": "C197",
   "status": "proved",
   "theorems": [
    "Proadv.Props.C197_detects"
   ],
   "note": ""
  },
  {
   "property": "C198",
   "status": "proved",
   "theorems": [
    "Proadv.Props.C198_flags_all"
   ],
   "note": ""
  },
  {
   "property": "C199",
   "status": "proved",
   "theorems": [
    "Proadv.Props.C199_count",
    "Proadv.Props.C199_uncorrelated"
   ],
   "note": ""
  },
  {
   "property": "C200",
   "status": "proved",
   "theorems": [
    "Proadv.Props.C200_spike"
   ],
   "note": ""
  },
  {
   "property": "C201",
   "status": "proved",
   "theorems": [
    "Proadv.Props.C201_detects",
    "Proadv.Props.C201_first"
   ],
   "note": ""
  },
  {
   "property": "C202",
   "status": "proved",
   "theorems": [
    "Proadv.Props.C202_mean",
    "Proadv.Props.C202_variance",
    "Proadv.Props.C202_moments",
    "Proadv.Props.C202_median",
    "Proadv.Props.C202_ema",
    "Proadv.Props.C202_kalman",
    "Proadv.Props.C202_moving_average",
    "Proadv.Props.C202_wma"
   ],
   "note": ""
  },
  {
   "property": "C203",
   "status": "proved",
   "theorems": [
    "Proadv.Props.C203_acceleration",
    "Proadv.Props.C203_phasespace",
    "Proadv.Props.C203_correlation",
    "Proadv.Props.C203_mean_value",
    "Proadv.Props.C203_median_value"
   ],
   "note": ""
  },
  {
   "property": "C204",
   "status": "proved",
   "theorems": [
    "Proadv.Props.C204_fit",
    "Proadv.Props.C204_rejects",
    "Proadv.Props.C204_least_squares",
    "Proadv.Props.C204_weights",
    "Proadv.Props.C204_one_sample",
    "Proadv.Props.C204_two_samples",
    "Proadv.Props.C204_overfit"
   ],
   "note": ""
  },
  {
   "property": "C205",
   "status": "proved",
   "theorems": [
    "Proadv.Props.C205_missing",
    "Proadv.Props.C205_parameters",
    "Proadv.Props.C205_last_valid",
    "Proadv.Props.C205_constant"
   ],
   "note": ""
  },
  {
   "property": "C206",
   "status": "proved",
   "theorems": [
    "Proadv.Props.C206_gain",
    "Proadv.Props.C206_approach",
    "Proadv.Props.C206_settled",
    "Proadv.Props.C206_every_alpha"
   ],
   "note": ""
  },
  {
   "property": "C207",
   "status": "proved",
   "theorems": [
    "Proadv.Props.C207_interp",
    "Proadv.Props.C207_success",
    "Proadv.Props.C207_value",
    "Proadv.Props.C207_few"
   ],
   "note": ""
  },
  {
   "property": "C208",
   "status": "proved",
   "theorems": [
    "Proadv.Props.C208_leak",
    "Proadv.Props.C208_range",
    "Proadv.Props.C208_overshoot",
    "Proadv.Props.C208_parabola"
   ],
   "note": ""
  },
  {
   "property": "C209",
   "status": "proved",
   "theorems": [
    "Proadv.Props.C209_exists",
    "Proadv.Props.C209_solver_independent",
    "Proadv.Props.C209_ambiguous"
   ],
   "note": ""
  },
  {
   "property": "C210",
   "status": "proved",
   "theorems": [
    "Proadv.Props.C210_alternating_erased"
   ],
   "note": ""
  },
  {
   "property": "C211",
   "status": "proved",
   "theorems": [
    "Proadv.Props.C211_periodic",
    "Proadv.Props.C211_sinusoid"
   ],
   "note": ""
  },
  {
   "property": "C212",
   "status": "proved",
   "theorems": [
    "Proadv.Props.C212_sinusoid",
    "Proadv.Props.C212_gain",
    "Proadv.Props.C212_no_gain"
   ],
   "note": ""
  },
  {
   "property": "C213",
   "status": "proved",
   "theorems": [
    "Proadv.Props.C213_count",
    "Proadv.Props.C213_count_unreal",
    "Proadv.Props.C213_centred"
   ],
   "note": ""
  },
  {
   "property": "C214",
   "status": "proved",
   "theorems": [
    "Proadv.Props.C214_exact",
    "Proadv.Props.C214_inside_bracket",
    "Proadv.Props.C214_converged",
    "Proadv.Props.C214_binary64"
   ],
   "note": ""
  },
  {
   "property": "C215",
   "status": "proved",
   "theorems": [
    "Proadv.Props.C215_inside_bounds",
    "Proadv.Props.C215_binary64"
   ],
   "note": ""
  },
  {
   "property": "C216",
   "status": "proved",
   "theorems": [
    "Proadv.Props.C216_kalman_bounded",
    "Proadv.Props.C216_covariance",
    "Proadv.Props.C216_diffuse_prior",
    "Proadv.Props.C216_diffuse_prior_binary64"
   ],
   "note": ""
  },
  {
   "property": "C217",
   "status": "proved",
   "theorems": [
    "Proadv.Props.C217_interpolation",
    "Proadv.Props.C217_median",
    "Proadv.Props.C217_interpolation_binary64",
    "Proadv.Props.C217_median_binary64",
    "Proadv.Props.C217_mean_leaves_range",
    "Proadv.Props.C217_end_block_leaves_range"
   ],
   "note": ""
  },
  {
   "property": "C218",
   "status": "proved",
   "theorems": [
    "Proadv.Props.C218_error",
    "Proadv.Props.C218_fixed",
    "Proadv.Props.C218_lossless",
    "Proadv.Props.C218_attained"
   ],
   "note": ""
  },
  {
   "property": "C219",
   "status": "proved",
   "theorems": [
    "Proadv.Props.C219_statistics",
    "Proadv.Props.C219_averages",
    "Proadv.Props.C219_ssa",
    "Proadv.Props.C219_repeats",
    "Proadv.Props.C219_last_descending",
    "Proadv.Props.C219_linear_unsorted",
    "Proadv.Props.C219_cubic"
   ],
   "note": ""
  },
  {
   "property": "C220",
   "status": "proved",
   "theorems": [
    "Proadv.Props.C220_spike"
   ],
   "note": ""
  },
  {
   "property": "C221",
   "status": "proved",
   "theorems": [
    "Proadv.Props.C221_same",
    "Proadv.Props.C221_ssa",
    "Proadv.Props.C221_last",
    "Proadv.Props.C221_last_error",
    "Proadv.Props.C221_weighted",
    "Proadv.Props.C221_linear",
    "Proadv.Props.C221_cubic"
   ],
   "note": ""
  },
  {
   "property": "C222",
   "status": "proved",
   "theorems": [
    "Proadv.Props.C222_target",
    "Proadv.Props.C222_root",
    "Proadv.Props.C222_fallback"
   ],
   "note": ""
  },
  {
   "property": "C223",
   "status": "proved",
   "theorems": [
    "Proadv.Props.C223_mean",
    "Proadv.Props.C223_mean_fits",
    "Proadv.Props.C223_variance",
    "Proadv.Props.C223_moving_average",
    "Proadv.Props.C223_weighted",
    "Proadv.Props.C223_ema",
    "Proadv.Props.C223_mean_overflows",
    "Proadv.Props.C223_median_overflows",
    "Proadv.Props.C223_contamination",
    "Proadv.Props.C223_kalman"
   ],
   "note": ""
  },
  {
   "property": "C224",
   "status": "proved",
   "theorems": [
    "Proadv.Props.C224_kernel",
    "Proadv.Props.C224_reverse"
   ],
   "note": ""
  },
  {
   "property": "C225",
   "status": "proved",
   "theorems": [
    "Proadv.Props.C225_unsigned",
    "Proadv.Props.C225_signed",
    "Proadv.Props.C225_unsigned_iff",
    "Proadv.Props.C225_signed_small"
   ],
   "note": ""
  },
  {
   "property": "C226",
   "status": "proved",
   "theorems": [
    "Proadv.Props.C226_up",
    "Proadv.Props.C226_down",
    "Proadv.Props.C226_unsigned_down",
    "Proadv.Props.C226_unsigned_up",
    "Proadv.Props.C226_agrees",
    "Proadv.Props.C226_derivatives"
   ],
   "note": ""
  },
  {
   "property": "C227",
   "status": "proved",
   "theorems": [
    "Proadv.Props.C227_exchange",
    "Proadv.Props.C227_any_order",
    "Proadv.Props.C227_order"
   ],
   "note": ""
  },
  {
   "property": "C228",
   "status": "proved",
   "theorems": [
    "Proadv.Props.C228_angle",
    "Proadv.Props.C228_reversal",
    "Proadv.Props.C228_direction"
   ],
   "note": ""
  },
  {
   "property": "C229",
   "status": "proved",
   "theorems": [
    "Proadv.Props.C229_sinusoid",
    "Proadv.Props.C229_gain",
    "Proadv.Props.C229_strict",
    "Proadv.Props.C229_nyquist"
   ],
   "note": ""
  },
  {
   "property": "C230",
   "status": "proved",
   "theorems": [
    "Proadv.Props.C230_reversal",
    "Proadv.Props.C230_unit",
    "Proadv.Props.C230_sign"
   ],
   "note": ""
  },
  {
   "property": "C231",
   "status": "proved",
   "theorems": [
    "Proadv.Props.C231_exact",
    "Proadv.Props.C231_dip",
    "Proadv.Props.C231_coarse"
   ],
   "note": ""
  },
  {
   "property": "C232",
   "status": "proved",
   "theorems": [
    "Proadv.Props.C232_unsigned",
    "Proadv.Props.C232_signed",
    "Proadv.Props.C232_exact",
    "Proadv.Props.C232_apart"
   ],
   "note": ""
  },
  {
   "property": "C233",
   "status": "proved",
   "theorems": [
    "Proadv.Props.C233_order",
    "Proadv.Props.C233_sound",
    "Proadv.Props.C233_run",
    "Proadv.Props.C233_rejected"
   ],
   "note": ""
  },
  {
   "property": "C234",
   "status": "proved",
   "theorems": [
    "Proadv.Props.C234_mean",
    "Proadv.Props.C234_variance",
    "Proadv.Props.C234_moving_average",
    "Proadv.Props.C234_weighted_moving_average",
    "Proadv.Props.C234_ema",
    "Proadv.Props.C234_variance_vanishes",
    "Proadv.Props.C234_ema_stalls"
   ],
   "note": ""
  },
  {
   "property": "C235",
   "status": "proved",
   "theorems": [
    "Proadv.Props.C235_stresses",
    "Proadv.Props.C235_energy"
   ],
   "note": ""
  },
  {
   "property": "C236",
   "status": "proved",
   "theorems": [
    "Proadv.Props.C236_tone"
   ],
   "note": ""
  },
  {
   "property": "C237",
   "status": "proved",
   "theorems": [
    "Proadv.Props.C237_std",
    "Proadv.Props.C237_up",
    "Proadv.Props.C237_down",
    "Proadv.Props.C237_agree_up",
    "Proadv.Props.C237_agree_down"
   ],
   "note": ""
  },
  {
   "property": "C238",
   "status": "proved",
   "theorems": [
    "Proadv.Props.C238_exact",
    "Proadv.Props.C238_slow",
    "Proadv.Props.C238_smooth",
    "Proadv.Props.C238_step"
   ],
   "note": ""
  },
  {
   "property": "C239",
   "status": "proved",
   "theorems": [
    "Proadv.Props.C239_first",
    "Proadv.Props.C239_halving",
    "Proadv.Props.C239_stretch",
    "Proadv.Props.C239_trace"
   ],
   "note": ""
  },
  {
   "property": "C240",
   "status": "proved",
   "theorems": [
    "Proadv.Props.C240_stops",
    "Proadv.Props.C240_minimum",
    "Proadv.Props.C240_parabola",
    "Proadv.Props.C240_fminbound_stops",
    "Proadv.Props.C240_fminbound_minimum",
    "Proadv.Props.C240_binary64"
   ],
   "note": ""
  },
  {
   "property": "C241",
   "status": "proved",
   "theorems": [
    "Proadv.Props.C241_converges",
    "Proadv.Props.C241_binary64"
   ],
   "note": ""
  },
  {
   "property": "C242",
   "status": "proved",
   "theorems": [
    "Proadv.Props.C242_cdf",
    "Proadv.Props.C242_sf",
    "Proadv.Props.C242_sf_zero"
   ],
   "note": ""
  },
  {
   "property": "C243",
   "status": "proved",
   "theorems": [
    "Proadv.Props.C243_pdf"
   ],
   "note": ""
  },
  {
   "property": "C244",
   "status": "proved",
   "theorems": [
    "Proadv.Props.C244_log_pdf",
    "Proadv.Props.C244_log_cdf"
   ],
   "note": ""
  },
  {
   "property": "C245",
   "status": "proved",
   "theorems": [
    "Proadv.Props.C245_skewness",
    "Proadv.Props.C245_kurtosis",
    "Proadv.Props.C245_constant",
    "Proadv.Props.C245_constant_binary64"
   ],
   "note": ""
  },
  {
   "property": "C246",
   "status": "proved",
   "theorems": [
    "Proadv.Props.C246_stable"
   ],
   "note": ""
  },
  {
   "property": "C247",
   "status": "proved",
   "theorems": [
    "Proadv.Props.C247_stable",
    "Proadv.Props.C247_ties",
    "Proadv.Props.C247_unstable"
   ],
   "note": ""
  },
  {
   "property": "C248",
   "status": "proved",
   "theorems": [
    "Proadv.Props.C248_rate",
    "Proadv.Props.C248_tie"
   ],
   "note": ""
  },
  {
   "property": "C249",
   "status": "proved",
   "theorems": [
    "Proadv.Props.C249_noop",
    "Proadv.Props.C249_unremovable"
   ],
   "note": ""
  },
  {
   "property": "C250",
   "status": "proved",
   "theorems": [
    "Proadv.Props.C250_ties"
   ],
   "note": ""
  },
  {
   "property": "C251",
   "status": "proved",
   "theorems": [
    "Proadv.Props.C251_kept",
    "Proadv.Props.C251_kept_cubic",
    "Proadv.Props.C251_kept_polynomial",
    "Proadv.Props.C251_between",
    "Proadv.Props.C251_error",
    "Proadv.Props.C251_not_nearest"
   ],
   "note": ""
  },
  {
   "property": "C252",
   "status": "proved",
   "theorems": [
    "Proadv.Props.C252_samples",
    "Proadv.Props.C252_gap",
    "Proadv.Props.C252_block",
    "Proadv.Props.C252_binary64"
   ],
   "note": ""
  },
  {
   "property": "C253",
   "status": "proved",
   "theorems": [
    "Proadv.Props.C253_geometric"
   ],
   "note": ""
  },
  {
   "property": "C254",
   "status": "proved",
   "theorems": [
    "Proadv.Props.C254_stresses",
    "Proadv.Props.C254_energy",
    "Proadv.Props.C254_fits",
    "Proadv.Props.C254_normal",
    "Proadv.Props.C254_energy_real",
    "Proadv.Props.C254_binary64"
   ],
   "note": ""
  },
  {
   "property": "C255",
   "status": "proved",
   "theorems": [
    "Proadv.Props.C255_mean",
    "Proadv.Props.C255_variance",
    "Proadv.Props.C255_moving_average",
    "Proadv.Props.C255_weighted_moving_average",
    "Proadv.Props.C255_ema",
    "Proadv.Props.C255_binary64"
   ],
   "note": ""
  },
  {
   "property": "C256",
   "status": "proved",
   "theorems": [
    "Proadv.Props.C256_no_nodes",
    "Proadv.Props.C256_mesh",
    "Proadv.Props.C256_scaling",
    "Proadv.Props.C256_cover",
    "Proadv.Props.C256_factor"
   ],
   "note": ""
  },
  {
   "property": "C257",
   "status": "proved",
   "theorems": [
    "Proadv.Props.C257_nonnegative",
    "Proadv.Props.C257_sign",
    "Proadv.Props.C257_negative_succeeds"
   ],
   "note": ""
  },
  {
   "property": "C258",
   "status": "proved",
   "theorems": [
    "Proadv.Props.C258_std",
    "Proadv.Props.C258_silent",
    "Proadv.Props.C258_pollution",
    "Proadv.Props.C258_same_up",
    "Proadv.Props.C258_same_down",
    "Proadv.Props.C258_missed"
   ],
   "note": ""
  },
  {
   "property": "C259",
   "status": "proved",
   "theorems": [
    "Proadv.Props.C259_min_iff",
    "Proadv.Props.C259_max_iff",
    "Proadv.Props.C259_set",
    "Proadv.Props.C259_min_append",
    "Proadv.Props.C259_neg",
    "Proadv.Props.C259_map",
    "Proadv.Props.C259_mode_iff",
    "Proadv.Props.C259_mode_repeat",
    "Proadv.Props.C259_mode_map",
    "Proadv.Props.C259_mode_reverse"
   ],
   "note": ""
  },
  {
   "property": "C260",
   "status": "proved",
   "theorems": [
    "Proadv.Props.C260_correlation",
    "Proadv.Props.C260_phasespace",
    "Proadv.Props.C260_std",
    "Proadv.Props.C260_correlation_binary64",
    "Proadv.Props.C260_phasespace_binary64"
   ],
   "note": ""
  },
  {
   "property": "C261",
   "status": "proved",
   "theorems": [
    "Proadv.Props.C261_mean_value",
    "Proadv.Props.C261_median",
    "Proadv.Props.C261_median_value",
    "Proadv.Props.C261_binary64"
   ],
   "note": ""
  },
  {
   "property": "C262",
   "status": "proved",
   "theorems": [
    "Proadv.Props.C262_ellipsoid",
    "Proadv.Props.C262_spherical",
    "Proadv.Props.C262_angle",
    "Proadv.Props.C262_binary64"
   ],
   "note": ""
  },
  {
   "property": "C263",
   "status": "proved",
   "theorems": [
    "Proadv.Props.C263_phase_space",
    "Proadv.Props.C263_spherical",
    "Proadv.Props.C263_correlation",
    "Proadv.Props.C263_acceleration",
    "Proadv.Props.C263_binary64"
   ],
   "note": ""
  },
  {
   "property": "C264",
   "status": "proved",
   "theorems": [
    "Proadv.C264_low_high",
    "Proadv.C264_band_stop",
    "Proadv.C264_band_zero",
    "Proadv.C264_bilinear",
    "Proadv.C264_low_low",
    "Proadv.C264_high_high"
   ],
   "note": ""
  },
  {
   "property": "C265",
   "status": "proved",
   "theorems": [
    "Proadv.C265_real",
    "Proadv.C265_substitution",
    "Proadv.C265_lost"
   ],
   "note": ""
  },
  {
   "property": "C266",
   "status": "proved",
   "theorems": [
    "Proadv.C266_low_high",
    "Proadv.C266_high_low",
    "Proadv.C266_low_band",
    "Proadv.C266_low_stop",
    "Proadv.C266_low_bilinear",
    "Proadv.C266_stop"
   ],
   "note": ""
  }
 ]
}