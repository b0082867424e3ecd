# Axioms of each property theorem

Output of `#print axioms` for every theorem listed in MANIFEST.json, against the committed sources.
No other axiom occurs.  `Quot.sound`, `propext` and `Classical.choice` are the standard axioms of Lean.

| property | theorem | axioms |
|---|---|---|
| C01 | `Proadv.Props.C01_min` | propext, Quot.sound |
| C01 | `Proadv.Props.C01_max` | propext, Quot.sound |
| C02 | `Proadv.Props.C02_mean_value` | propext, Classical.choice, Quot.sound |
| C02 | `Proadv.Props.C02_mean_between` | propext, Classical.choice, Quot.sound |
| C02 | `Proadv.Props.C02_mean_affine` | propext, Classical.choice, Quot.sound |
| C02 | `Proadv.Props.C02_mean_empty_scalar` | propext, Quot.sound |
| C03 | `Proadv.Props.C03_mean_exact` | propext, Classical.choice, Quot.sound |
| C03 | `Proadv.Props.C03_mean_documented_partial` | propext, Classical.choice, Quot.sound |
| C03 | `Proadv.Props.C03_mean_documented_false` | propext, Classical.choice, Quot.sound |
| C04 | `Proadv.Props.C04_median_value` | propext, Classical.choice, Quot.sound |
| C04 | `Proadv.Props.C04_median_halves` | propext, Classical.choice, Quot.sound |
| C04 | `Proadv.Props.C04_median_errors` | propext, Quot.sound |
| C04 | `Proadv.Props.C04_median_nan` | propext, Quot.sound |
| C05 | `Proadv.Props.C05_median_perm` | propext, Classical.choice, Quot.sound |
| C05 | `Proadv.Props.C05_mode_perm` | propext, Classical.choice, Quot.sound |
| C05 | `Proadv.Props.C05_median_affine` | propext, Classical.choice, Quot.sound |
| C06 | `Proadv.Props.C06_mode` | propext, Classical.choice, Quot.sound |
| C06 | `Proadv.Props.C06_mode_empty` | none |
| C07 | `Proadv.Props.C07_variance` | propext, Classical.choice, Quot.sound |
| C07 | `Proadv.Props.C07_std` | propext, Classical.choice, Quot.sound |
| C07 | `Proadv.Props.C07_errors` | propext, Quot.sound |
| C08 | `Proadv.Props.C08_variance_affine` | propext, Classical.choice, Quot.sound |
| C08 | `Proadv.Props.C08_std_affine` | propext, Classical.choice, Quot.sound |
| C09 | `Proadv.Props.C09_std_le_half_range` | propext, Classical.choice, Quot.sound |
| C10 | `Proadv.Props.C10_skewness_affine` | propext, Classical.choice, Quot.sound |
| C10 | `Proadv.Props.C10_C11_constant` | propext, Classical.choice, Quot.sound |
| C10 | `Proadv.Props.C10_C11_errors` | propext, Quot.sound |
| C11 | `Proadv.Props.C11_kurtosis_affine` | propext, Classical.choice, Quot.sound |
| C11 | `Proadv.Props.C11_pearson` | propext, Classical.choice, Quot.sound |
| C12 | `Proadv.Props.C12_moving_average` | propext, Classical.choice, Quot.sound |
| C12 | `Proadv.Props.C12_errors` | propext, Classical.choice, Quot.sound |
| C13 | `Proadv.Props.C13_range` | propext, Classical.choice, Quot.sound |
| C14 | `Proadv.Props.C14_nan_poisons` | propext, Classical.choice, Quot.sound |
| C15 | `Proadv.Props.C15_ema` | propext, Classical.choice, Quot.sound |
| C15 | `Proadv.Props.C15_errors` | propext, Classical.choice, Quot.sound |
| C16 | `Proadv.Props.C16_ema_int` | propext, Classical.choice, Quot.sound |
| C16 | `Proadv.Props.C16_truncates` | propext, Classical.choice, Quot.sound |
| C17 | `Proadv.Props.C17_wma` | propext, Classical.choice, Quot.sound |
| C17 | `Proadv.Props.C17_wma_range` | propext, Classical.choice, Quot.sound |
| C17 | `Proadv.Props.C17_wma_ignores_last` | propext, Quot.sound |
| C17 | `Proadv.Props.C17_errors` | propext, Quot.sound |
| C18 | `Proadv.Props.C18_kalman_bounded` | propext, Classical.choice, Quot.sound |
| C19 | `Proadv.Props.C19_kalman_bayes` | propext, Classical.choice, Quot.sound |
| C20 | `Proadv.Props.C20_kalman_exact_measurements` | propext, Classical.choice, Quot.sound |
| C20 | `Proadv.Props.C20_kalman_singular` | propext, Classical.choice, Quot.sound |
| C20 | `Proadv.Props.C20_kalman_first_error` | propext, Classical.choice, Quot.sound |
| C20 | `Proadv.Props.C20_kalman_second_error` | propext, Classical.choice, Quot.sound |
| C20 | `Proadv.Props.C20_kalman_trusted_prior` | propext, Classical.choice, Quot.sound |
| C21 | `Proadv.Props.C21_diagonal_average` | propext, Classical.choice, Quot.sound |
| C22 | `Proadv.Props.C22_embed_reconstruct` | propext, Classical.choice, Quot.sound |
| C22 | `Proadv.Props.C22_ssa_projection` | propext, Classical.choice, Quot.sound |
| C22 | `Proadv.Props.C22_ssa_identity` | propext, Classical.choice, Quot.sound |
| C23 | `Proadv.Props.C23_ssa_rejects` | propext, Classical.choice, Quot.sound |
| C23 | `Proadv.Props.C23_ssa_length` | propext, Classical.choice, Quot.sound |
| C24 | `Proadv.Props.C24_kinetic_value` | propext, Classical.choice, Quot.sound |
| C24 | `Proadv.Props.C24_kinetic_offset` | propext, Classical.choice, Quot.sound |
| C24 | `Proadv.Props.C24_kinetic_zero` | propext, Classical.choice, Quot.sound |
| C24 | `Proadv.Props.C24_kinetic_trace` | propext, Classical.choice, Quot.sound |
| C25 | `Proadv.Props.C25_stresses_value` | propext, Classical.choice, Quot.sound |
| C25 | `Proadv.Props.C25_stresses_psd` | propext, Classical.choice, Quot.sound |
| C25 | `Proadv.Props.C25_stresses_offset` | propext, Classical.choice, Quot.sound |
| C25 | `Proadv.Props.C25_stresses_swap` | propext, Classical.choice, Quot.sound |
| C25 | `Proadv.Props.C25_errors` | propext, Classical.choice, Quot.sound |
| C26 | `Proadv.Props.C26_kinetic_rotation` | propext, Classical.choice, Quot.sound |
| C27 | `Proadv.Props.C27_random_index` | propext, Classical.choice, Quot.sound |
| C27 | `Proadv.Props.C27_count` | propext, Classical.choice, Quot.sound |
| C28 | `Proadv.Props.C28_diverges` | propext, Classical.choice, Quot.sound |
| C28 | `Proadv.Props.C28_terminates` | propext, Classical.choice, Quot.sound |
| C29 | `Proadv.Props.C29_synthetic_noise` | propext, Classical.choice, Quot.sound |
| C29 | `Proadv.Props.C29_amplitude` | propext, Classical.choice, Quot.sound |
| C30 | `Proadv.Props.C30_hop` | none |
| C30 | `Proadv.Props.C30_overlap_partial` | propext, Classical.choice, Quot.sound |
| C30 | `Proadv.Props.C30_overlap_false` | propext, Classical.choice, Quot.sound |
| C31 | `Proadv.Props.C31_cdf` | propext, Classical.choice, Quot.sound |
| C31 | `Proadv.Props.C31_branches_agree` | propext, Classical.choice, Quot.sound |
| C32 | `Proadv.Props.C32_cdf_shape` | propext, Classical.choice, Quot.sound |
| C32 | `Proadv.Props.C32_cdf_strict` | propext, Classical.choice, Quot.sound |
| C32 | `Proadv.Props.C32_sf` | propext, Classical.choice, Quot.sound |
| C33 | `Proadv.Props.C33_pdf` | propext, Classical.choice, Quot.sound |
| C33 | `Proadv.Props.C33_pdf_shape` | propext, Classical.choice, Quot.sound |
| C33 | `Proadv.Props.C33_pdf_nonpos` | propext, Classical.choice, Quot.sound |
| C34 | `Proadv.Props.C34_errors` | propext, Classical.choice, Quot.sound |
| C34 | `Proadv.Props.C34_scalar` | propext, Classical.choice, Quot.sound |
| C34 | `Proadv.Props.C34_int` | propext, Classical.choice, Quot.sound |
| C35 | `Proadv.Props.C35_never_returns` | propext, Classical.choice, Quot.sound |
| C35 | `Proadv.Props.C35_exception` | propext, Classical.choice, Quot.sound |
| C36 | `Proadv.Props.C36_inside_bracket` | propext, Classical.choice, Quot.sound |
| C37 | `Proadv.Props.C37_near_zero` | propext, Classical.choice, Quot.sound |
| C38 | `Proadv.Props.C38_value_error` | propext, Classical.choice, Quot.sound |
| C38 | `Proadv.Props.C38_returns` | propext, Classical.choice, Quot.sound |
| C38 | `Proadv.Props.C38_maxiter_silent` | propext, Classical.choice, Quot.sound |
| C39 | `Proadv.Props.C39_function_calls` | propext, Classical.choice, Quot.sound |
| C40 | `Proadv.Props.C40_core` | propext, Classical.choice, Quot.sound |
| C40 | `Proadv.Props.C40_inside_bounds` | propext, Classical.choice, Quot.sound |
| C40 | `Proadv.Props.C40_value_error` | propext, Classical.choice, Quot.sound |
| C41 | `Proadv.Props.C41_any_float` | propext, Classical.choice, Quot.sound |
| C41 | `Proadv.Props.C41_least_value` | propext, Classical.choice, Quot.sound |
| C42 | `Proadv.Props.C42_terminates` | propext, Classical.choice, Quot.sound |
| C42 | `Proadv.Props.C42_budget` | propext, Classical.choice, Quot.sound |
| C43 | `Proadv.Props.C43_partial` | propext, Classical.choice, Quot.sound |
| C43 | `Proadv.Props.C43_false` | propext, Classical.choice, Quot.sound |
| C44 | `Proadv.Props.C44_cubic` | propext, Quot.sound |
| C44 | `Proadv.Props.C44_linear` | propext, Classical.choice, Quot.sound |
| C44 | `Proadv.Props.C44_last_valid` | propext, Quot.sound |
| C44 | `Proadv.Props.C44_mean` | propext, Quot.sound |
| C44 | `Proadv.Props.C44_median` | propext, Quot.sound |
| C44 | `Proadv.Props.C44_sma` | propext, Quot.sound |
| C44 | `Proadv.Props.C44_ema` | propext, Quot.sound |
| C44 | `Proadv.Props.C44_wma` | propext, Quot.sound |
| C44 | `Proadv.Props.C44_ssa` | propext, Quot.sound |
| C44 | `Proadv.Props.C58_kept` | propext, Classical.choice, Quot.sound |
| C45 | `Proadv.Props.C45_carry_forward` | propext, Classical.choice, Quot.sound |
| C45 | `Proadv.Props.C45_exists` | propext, Classical.choice, Quot.sound |
| C46 | `Proadv.Props.C46_wraps` | propext, Classical.choice, Quot.sound |
| C47 | `Proadv.Props.C47_idempotent` | propext, Classical.choice, Quot.sound |
| C47 | `Proadv.Props.C47_ends_false` | propext, Quot.sound |
| C47 | `Proadv.Props.C47_mean_not_idempotent` | propext, Classical.choice, Quot.sound |
| C48 | `Proadv.Props.C48_mean_value` | propext, Quot.sound |
| C48 | `Proadv.Props.C48_empty` | propext, Quot.sound |
| C48 | `Proadv.Props.C48_mean_value_exact` | propext, Classical.choice, Quot.sound |
| C48 | `Proadv.Props.C48_median_value` | propext, Classical.choice, Quot.sound |
| C49 | `Proadv.Props.C49_chord` | propext, Classical.choice, Quot.sound |
| C49 | `Proadv.Props.C49_line` | propext, Classical.choice, Quot.sound |
| C50 | `Proadv.Props.C50_boundary` | propext, Classical.choice, Quot.sound |
| C50 | `Proadv.Props.C50_not_mean_at_start` | propext, Classical.choice, Quot.sound |
| C51 | `Proadv.Props.C51_errors` | propext, Quot.sound |
| C51 | `Proadv.Props.C51_out_of_range` | propext, Quot.sound |
| C51 | `Proadv.Props.C51_all_missing` | propext, Classical.choice, Quot.sound |
| C52 | `Proadv.Props.C52_in_range` | propext, Classical.choice, Quot.sound |
| C53 | `Proadv.Props.C53_sma` | propext, Classical.choice, Quot.sound |
| C53 | `Proadv.Props.C53_ema` | propext, Classical.choice, Quot.sound |
| C53 | `Proadv.Props.C53_ema_store` | propext, Classical.choice, Quot.sound |
| C54 | `Proadv.Props.C54_looks_forward` | propext, Classical.choice, Quot.sound |
| C54 | `Proadv.Props.C54_fails` | propext, Classical.choice, Quot.sound |
| C55 | `Proadv.Props.C55_never_returns_data` | propext, Quot.sound |
| C55 | `Proadv.Props.C55_raises` | propext, Quot.sound |
| C56 | `Proadv.Props.C56_char` | propext, Classical.choice, Quot.sound |
| C56 | `Proadv.Props.C56_boundary` | propext, Classical.choice, Quot.sound |
| C56 | `Proadv.Props.C56_trailing` | propext, Classical.choice, Quot.sound |
| C56 | `Proadv.Props.C56_interior_needs_twelve` | propext, Classical.choice, Quot.sound |
| C56 | `Proadv.Props.C56_int` | propext, Quot.sound |
| C57 | `Proadv.Props.C57_error` | propext, Classical.choice, Quot.sound |
| C57 | `Proadv.Props.C57_partial` | propext, Classical.choice, Quot.sound |
| C57 | `Proadv.Props.C57_false` | propext, Classical.choice, Quot.sound |
| C58 | `Proadv.Props.C58_single` | propext, Quot.sound |
| C58 | `Proadv.Props.C58_no_lookahead` | propext, Classical.choice, Quot.sound |
| C58 | `Proadv.Props.C58_window` | propext, Quot.sound |
| C58 | `Proadv.Props.C58_early_errors` | propext, Classical.choice, Quot.sound |
| C59 | `Proadv.Props.C59_acceleration` | propext, Classical.choice, Quot.sound |
| C59 | `Proadv.Props.C59_correlation` | propext, Classical.choice, Quot.sound |
| C59 | `Proadv.Props.C59_correlation_one` | propext, Classical.choice, Quot.sound |
| C59 | `Proadv.Props.C59_kernel` | propext, Classical.choice, Quot.sound |
| C59 | `Proadv.Props.C59_phasespace` | propext, Classical.choice, Quot.sound |
| C59 | `Proadv.Props.C59_spherical` | propext, Classical.choice, Quot.sound |
| C60 | `Proadv.Props.C60_errors` | propext, Quot.sound |
| C60 | `Proadv.Props.C60_tag1` | propext, Classical.choice, Quot.sound |
| C60 | `Proadv.Props.C60_tag2` | propext, Classical.choice, Quot.sound |
| C60 | `Proadv.Props.C60_exact_up` | propext, Classical.choice, Quot.sound |
| C60 | `Proadv.Props.C60_exact_down` | propext, Classical.choice, Quot.sound |
| C61 | `Proadv.Props.C61_symmetry` | propext, Classical.choice, Quot.sound |
| C61 | `Proadv.Props.C61_disjoint` | propext, Classical.choice, Quot.sound |
| C61 | `Proadv.Props.C61_offset` | propext, Classical.choice, Quot.sound |
| C61 | `Proadv.Props.C61_mono` | propext, Classical.choice, Quot.sound |
| C61 | `Proadv.Props.C61_constant` | propext, Classical.choice, Quot.sound |
| C62 | `Proadv.Props.C62_general` | propext, Classical.choice, Quot.sound |
| C62 | `Proadv.Props.C62_noop` | propext, Classical.choice, Quot.sound |
| C62 | `Proadv.Props.C62_false` | propext, Classical.choice, Quot.sound |
| C63 | `Proadv.Props.C63_general` | propext, Classical.choice, Quot.sound |
| C63 | `Proadv.Props.C63_unremovable` | propext, Classical.choice, Quot.sound |
| C64 | `Proadv.Props.C64_errors` | propext, Quot.sound |
| C64 | `Proadv.Props.C64_char` | propext, Classical.choice, Quot.sound |
| C64 | `Proadv.Props.C64_ellipses` | propext, Classical.choice, Quot.sound |
| C65 | `Proadv.Props.C65_sign` | propext, Classical.choice, Quot.sound |
| C65 | `Proadv.Props.C65_reverse` | propext, Classical.choice, Quot.sound |
| C66 | `Proadv.Props.C66_origin` | propext, Classical.choice, Quot.sound |
| C66 | `Proadv.Props.C66_offset_flags_all` | propext, Classical.choice, Quot.sound |
| C66 | `Proadv.Props.C66_not_offset_invariant` | propext, Classical.choice, Quot.sound |
| C66 | `Proadv.Props.C66_constant` | propext, Classical.choice, Quot.sound |
| C67 | `Proadv.Props.C67_small` | propext, Classical.choice, Quot.sound |
| C67 | `Proadv.Props.C67_affine` | propext, Classical.choice, Quot.sound |
| C68 | `Proadv.Props.C68_success_iff` | propext, Classical.choice, Quot.sound |
| C68 | `Proadv.Props.C68_empty` | propext, Classical.choice, Quot.sound |
| C69 | `Proadv.Props.C69_constant` | propext, Classical.choice, Quot.sound |
| C70 | `Proadv.Props.C70_rho` | propext, Classical.choice, Quot.sound |
| C70 | `Proadv.Props.C70_array` | propext |
| C70 | `Proadv.Props.C70_mismatch` | propext |
| C70 | `Proadv.Props.C70_pair` | propext |
| C71 | `Proadv.Props.C71_axes` | propext, Classical.choice, Quot.sound |
| C71 | `Proadv.Props.C71_fallback` | propext, Classical.choice, Quot.sound |
| C72 | `Proadv.Props.C72_arguments` | propext, Quot.sound |
| C72 | `Proadv.Props.C72_offset` | propext, Classical.choice, Quot.sound |
| C73 | `Proadv.Props.C73_nonfinite` | propext, Classical.choice, Quot.sound |
| C74 | `Proadv.Props.C74_ellipsoid` | propext, Classical.choice, Quot.sound |
| C75 | `Proadv.Props.C75_errors` | propext, Quot.sound |
| C75 | `Proadv.Props.C75_constant` | propext, Classical.choice, Quot.sound |
| C76 | `Proadv.Props.C76_cutoff` | propext, Classical.choice, Quot.sound |
| C76 | `Proadv.Props.C76_unique` | propext, Quot.sound |
| C76 | `Proadv.Props.C76_errors` | propext, Classical.choice, Quot.sound |
| C77 | `Proadv.Props.C77_minmod` | propext, Classical.choice, Quot.sound |
| C77 | `Proadv.Props.C77_laws` | propext, Classical.choice, Quot.sound |
| C78 | `Proadv.Props.C78_count` | propext, Quot.sound |
| C78 | `Proadv.Props.C78_errors` | propext, Quot.sound |
| C78 | `Proadv.Props.C78_percentage` | propext, Classical.choice, Quot.sound |
| C78 | `Proadv.Props.C78_false` | propext, Classical.choice, Quot.sound |
| C79 | `Proadv.Props.C79_kernel_derivatives` | propext, Classical.choice, Quot.sound |
| C79 | `Proadv.Props.C79_kernel_laws` | propext, Classical.choice, Quot.sound |
| C79 | `Proadv.Props.C79_kernel_int` | propext, Classical.choice, Quot.sound |
| C79 | `Proadv.Props.C79_phase` | propext, Classical.choice, Quot.sound |
| C80 | `Proadv.Props.C80_angle` | propext, Classical.choice, Quot.sound |
| C80 | `Proadv.Props.C80_range` | propext, Classical.choice, Quot.sound |
| C80 | `Proadv.Props.C80_least_squares` | propext, Classical.choice, Quot.sound |
| C80 | `Proadv.Props.C80_offset` | propext, Classical.choice, Quot.sound |
| C80 | `Proadv.Props.C80_transform` | propext, Classical.choice, Quot.sound |
| C80 | `Proadv.Props.C80_residual` | propext, Classical.choice, Quot.sound |
| C80 | `Proadv.Props.C80_not_decorrelated` | propext, Classical.choice, Quot.sound |
| C81 | `Proadv.Props.C81_weights` | propext, Classical.choice, Quot.sound |
| C81 | `Proadv.Props.C81_covariance` | propext, Classical.choice, Quot.sound |
| C81 | `Proadv.Props.C81_density` | propext, Quot.sound |
| C82 | `Proadv.Props.C82_increasing` | propext, Classical.choice, Quot.sound |
| C82 | `Proadv.Props.C82_union` | propext, Classical.choice, Quot.sound |
| C82 | `Proadv.Props.C82_empty` | propext, Classical.choice, Quot.sound |
| C82 | `Proadv.Props.C82_degenerate` | propext, Classical.choice, Quot.sound |
| C82 | `Proadv.Props.C82_kernel` | propext, Classical.choice, Quot.sound |
| C82 | `Proadv.Props.C82_nan_density` | propext, Classical.choice, Quot.sound |
| C83 | `Proadv.Props.C83_histogram` | propext, Classical.choice, Quot.sound |
| C83 | `Proadv.Props.C83_no_grid` | propext, Classical.choice, Quot.sound |
| C84 | `Proadv.Props.C84_binning` | propext, Classical.choice, Quot.sound |
| C84 | `Proadv.Props.C84_nan` | propext, Classical.choice, Quot.sound |
| C84 | `Proadv.Props.C84_first_cell` | propext, Classical.choice, Quot.sound |
| C84 | `Proadv.Props.C84_interval` | propext, Classical.choice, Quot.sound |
| C85 | `Proadv.Props.C85_scaling` | propext, Classical.choice, Quot.sound |
| C85 | `Proadv.Props.C85_constant` | propext, Classical.choice, Quot.sound |
| C86 | `Proadv.Props.C86_k` | propext, Classical.choice, Quot.sound |
| C87 | `Proadv.Props.C87_terminates` | propext, Classical.choice, Quot.sound |
| C87 | `Proadv.Props.C87_sharp` | propext, Classical.choice, Quot.sound |
| C87 | `Proadv.Props.C87_result` | propext, Classical.choice, Quot.sound |
| C87 | `Proadv.Props.C87_range` | propext, Classical.choice, Quot.sound |
| C88 | `Proadv.Props.C88_reorder_length` | propext, Classical.choice, Quot.sound |
| C88 | `Proadv.Props.C88_reorder_perm` | propext, Quot.sound |
| C88 | `Proadv.Props.C88_square` | propext, Quot.sound |
| C88 | `Proadv.Props.C88_odd` | propext, Classical.choice, Quot.sound |
| C88 | `Proadv.Props.C88_empty` | propext, Quot.sound |
| C88 | `Proadv.Props.C88_even` | propext, Classical.choice, Quot.sound |
| C88 | `Proadv.Props.C88_order_one` | propext, Classical.choice, Quot.sound |
| C89 | `Proadv.Props.C89_axis` | propext, Classical.choice, Quot.sound |
| C89 | `Proadv.Props.C89_axis_end` | propext, Classical.choice, Quot.sound |
| C89 | `Proadv.Props.C89_kernel` | propext, Classical.choice, Quot.sound |
| C89 | `Proadv.Props.C89_nonneg` | propext, Classical.choice, Quot.sound |
| C89 | `Proadv.Props.C89_odd_grid` | propext, Classical.choice, Quot.sound |
| C89 | `Proadv.Props.C89_empty` | propext, Classical.choice, Quot.sound |
| C89 | `Proadv.Props.C89_no_grid` | propext, Classical.choice, Quot.sound |
| C89 | `Proadv.Props.C89_degenerate` | propext, Classical.choice, Quot.sound |
| C90 | `Proadv.Props.C90_calls` | propext, Classical.choice, Quot.sound |
| C90 | `Proadv.Props.C90_base` | propext, Classical.choice, Quot.sound |
| C90 | `Proadv.Props.C90_psi` | propext, Classical.choice, Quot.sound |
| C90 | `Proadv.Props.C90_sign` | propext, Classical.choice, Quot.sound |
| C90 | `Proadv.Props.C90_evolve` | propext, Classical.choice, Quot.sound |
| C91 | `Proadv.C91_low_to_low` | propext, Classical.choice, Quot.sound |
| C92 | `Proadv.C92_low_to_high` | propext, Classical.choice, Quot.sound |
| C92 | `Proadv.C92_side` | propext, Classical.choice, Quot.sound |
| C93 | `Proadv.C93_low_to_band` | propext, Classical.choice, Quot.sound |
| C94 | `Proadv.C94_low_to_stop` | propext, Classical.choice, Quot.sound |
| C95 | `Proadv.C95_bilinear` | propext, Classical.choice, Quot.sound |
| C95 | `Proadv.C95_side` | propext, Classical.choice, Quot.sound |
| C95 | `Proadv.C95_errors` | propext, Classical.choice, Quot.sound |
| C96 | `Proadv.C96_improper` | propext, Classical.choice, Quot.sound |
| C96 | `Proadv.C96_counts` | propext, Classical.choice, Quot.sound |
| C97 | `Proadv.C97_prototype` | propext, Classical.choice, Quot.sound |
| C97 | `Proadv.C97_rejects` | propext, Classical.choice, Quot.sound |
| C98 | `Proadv.C98_max_flat` | propext, Classical.choice, Quot.sound |
| C98 | `Proadv.C98_order_zero` | propext, Classical.choice, Quot.sound |
| C98 | `Proadv.C98_shape` | propext, Classical.choice, Quot.sound |
| C99 | `Proadv.C99_stable` | propext, Classical.choice, Quot.sound |
| C99 | `Proadv.C99_real` | propext, Classical.choice, Quot.sound |
| C100 | `Proadv.C100_analog` | propext, Classical.choice, Quot.sound |
| C100 | `Proadv.C100_digital` | propext, Classical.choice, Quot.sound |
| C100 | `Proadv.C100_ends` | propext, Classical.choice, Quot.sound |
| C100 | `Proadv.C100_half_power_analog` | propext, Classical.choice, Quot.sound |
| C100 | `Proadv.C100_half_power` | propext, Classical.choice, Quot.sound |
| C101 | `Proadv.C101_value_error` | propext, Classical.choice, Quot.sound |
| C101 | `Proadv.C101_not_implemented` | propext, Classical.choice, Quot.sound |
| C101 | `Proadv.C101_accepts` | propext, Classical.choice, Quot.sound |
| C101 | `Proadv.C101_butterworth` | propext, Classical.choice, Quot.sound |
| C101 | `Proadv.C101_extra_edges_ignored` | propext, Classical.choice, Quot.sound |
| C102 | `Proadv.C102_expansion` | propext, Classical.choice, Quot.sound |
| C102 | `Proadv.C102_transfer` | propext, Classical.choice, Quot.sound |
| C102 | `Proadv.C102_shape` | propext, Classical.choice, Quot.sound |
| C103 | `Proadv.Props.C103_partial` | propext, Classical.choice, Quot.sound |
| C103 | `Proadv.Props.C103_false` | propext, Classical.choice, Quot.sound |
| C104 | `Proadv.Props.C104_success_iff` | propext, Classical.choice, Quot.sound |
| C104 | `Proadv.Props.C104_steep` | propext, Classical.choice, Quot.sound |
| C104 | `Proadv.Props.C104_flagged` | propext, Classical.choice, Quot.sound |
| C105 | `Proadv.Props.C105_telescope` | propext, Classical.choice, Quot.sound |
| C105 | `Proadv.Props.C105_angle` | propext, Classical.choice, Quot.sound |
| C105 | `Proadv.Props.C105_no_rotation` | propext, Classical.choice, Quot.sound |
| C106 | `Proadv.Props.C106_sign` | propext, Classical.choice, Quot.sound |
| C107 | `Proadv.Props.C107_p_value` | propext, Classical.choice, Quot.sound |
| C107 | `Proadv.Props.C107_relations` | propext, Classical.choice, Quot.sound |
| C108 | `Proadv.Props.C108_bracket` | propext, Quot.sound |
| C109 | `Proadv.Props.C109_formula` | propext, Classical.choice, Quot.sound |
| C109 | `Proadv.Props.C109_intended` | propext, Classical.choice, Quot.sound |
| C109 | `Proadv.Props.C109_not_dct` | propext, Classical.choice, Quot.sound |
| C110 | `Proadv.Props.C110_not_normalised` | propext, Classical.choice, Quot.sound |
| C111 | `Proadv.C111_nearest` | propext, Classical.choice, Quot.sound |
| C111 | `Proadv.C111_response` | propext, Classical.choice, Quot.sound |
| C112 | `Proadv.C112_minimal` | propext, Classical.choice, Quot.sound |
| C112 | `Proadv.C112_response` | propext, Classical.choice, Quot.sound |
| C112 | `Proadv.C112_default` | propext, Classical.choice, Quot.sound |
| C112 | `Proadv.C112_constant` | propext, Classical.choice, Quot.sound |
| C113 | `Proadv.C113_sound` | propext, Classical.choice, Quot.sound |
| C113 | `Proadv.C113_value_error` | propext, Classical.choice, Quot.sound |
| C113 | `Proadv.C113_unmatched` | propext, Classical.choice, Quot.sound |
| C113 | `Proadv.C113_index_error` | propext, Classical.choice, Quot.sound |
| C113 | `Proadv.C113_keep_odd_index_error` | propext, Classical.choice, Quot.sound |
| C114 | `Proadv.C114_butterworth_sop` | propext, Classical.choice, Quot.sound |
| C115 | `Proadv.Props.C115_dictionary` | propext, Classical.choice, Quot.sound |
| C115 | `Proadv.Props.C115_cholesky` | propext, Classical.choice, Quot.sound |
| C116 | `Proadv.Props.C116_density` | propext, Classical.choice, Quot.sound |
| C116 | `Proadv.Props.C116_positive` | propext, Classical.choice, Quot.sound |
| C116 | `Proadv.Props.C116_integral` | propext, Classical.choice, Quot.sound |
| C116 | `Proadv.Props.C116_kernel_both` | propext, Classical.choice, Quot.sound |
| C116 | `Proadv.Props.C116_estimation` | propext, Classical.choice, Quot.sound |
| C117 | `Proadv.Props.C117_too_short` | propext, Classical.choice, Quot.sound |
| C117 | `Proadv.Props.C117_collinear` | propext, Classical.choice, Quot.sound |
| C117 | `Proadv.Props.C117_success` | propext, Classical.choice, Quot.sound |
| C117 | `Proadv.Props.C117_small_grid` | propext, Classical.choice, Quot.sound |
| C117 | `Proadv.Props.C117_nonfinite` | propext, Classical.choice, Quot.sound |
| C117 | `Proadv.Props.C117_three_constant` | propext, Classical.choice, Quot.sound |
| C117 | `Proadv.Props.C117_three_short` | propext, Classical.choice, Quot.sound |
| C117 | `Proadv.Props.C117_three_nonfinite` | propext, Classical.choice, Quot.sound |
| C117 | `Proadv.Props.C117_no_grid` | propext, Classical.choice, Quot.sound |
| C118 | `Proadv.Props.C118_kernel` | propext, Classical.choice, Quot.sound |
| C118 | `Proadv.Props.C118_three` | propext, Classical.choice, Quot.sound |
| C119 | `Proadv.Props.C119_scaled` | propext, Classical.choice, Quot.sound |
| C119 | `Proadv.Props.C119_small` | propext, Classical.choice, Quot.sound |
| C119 | `Proadv.Props.C119_large` | propext, Classical.choice, Quot.sound |
| C119 | `Proadv.Props.C119_unit_dependent` | propext, Classical.choice, Quot.sound |
| C120 | `Proadv.Props.C120_rotation` | propext, Classical.choice, Quot.sound |
| C120 | `Proadv.Props.C120_near` | propext, Classical.choice, Quot.sound |
| C120 | `Proadv.Props.C120_mean` | propext, Classical.choice, Quot.sound |
| C121 | `Proadv.Props.C121_point` | propext, Classical.choice, Quot.sound |
| C121 | `Proadv.Props.C121_flags` | propext, Classical.choice, Quot.sound |
| C122 | `Proadv.Props.C122_missed` | propext, Classical.choice, Quot.sound |
| C123 | `Proadv.Props.C123_text` | propext, Classical.choice, Quot.sound |
| C123 | `Proadv.Props.C123_never_invalid` | propext, Classical.choice, Quot.sound |
| C123 | `Proadv.Props.C123_values` | propext, Classical.choice, Quot.sound |
| C124 | `Proadv.Props.C124_rows` | propext, Classical.choice, Quot.sound |
| C124 | `Proadv.Props.C124_errors` | propext, Classical.choice, Quot.sound |
| C124 | `Proadv.Props.C124_documented_false` | propext, Classical.choice, Quot.sound |
| C125 | `Proadv.Props.C125_restore` | propext, Classical.choice, Quot.sound |
| C125 | `Proadv.Props.C125_contract` | propext, Classical.choice, Quot.sound |
| C126 | `Proadv.Props.C126_errors` | propext, Classical.choice, Quot.sound |
| C126 | `Proadv.Props.C126_value` | propext, Classical.choice, Quot.sound |
| C127 | `Proadv.Props.C127_tail` | propext, Classical.choice, Quot.sound |
| C128 | `Proadv.Props.C128_parseval` | propext, Classical.choice, Quot.sound |
| C129 | `Proadv.Props.C129_nonneg` | propext, Classical.choice, Quot.sound |
| C129 | `Proadv.Props.C129_affine` | propext, Classical.choice, Quot.sound |
| C130 | `Proadv.Props.C130_reverse` | propext, Classical.choice, Quot.sound |
| C131 | `Proadv.Props.C131_nan` | propext, Classical.choice, Quot.sound |
| C131 | `Proadv.Props.C131_block_two` | propext, Classical.choice, Quot.sound |
| C132 | `Proadv.Props.C132_forgets` | propext, Classical.choice, Quot.sound |
| C132 | `Proadv.Props.C132_steady` | propext, Classical.choice, Quot.sound |
| C132 | `Proadv.Props.C132_limit` | propext, Classical.choice, Quot.sound |
| C133 | `Proadv.Props.C133_linear` | propext, Classical.choice, Quot.sound |
| C134 | `Proadv.Props.C134_count` | propext, Classical.choice, Quot.sound |
| C134 | `Proadv.Props.C134_blind` | propext, Classical.choice, Quot.sound |
| C135 | `Proadv.Props.C135_order` | propext, Classical.choice, Quot.sound |
| C135 | `Proadv.Props.C135_reverse` | propext, Classical.choice, Quot.sound |
| C136 | `Proadv.Props.C136_flat` | propext, Classical.choice, Quot.sound |
| C136 | `Proadv.Props.C136_fine` | propext, Classical.choice, Quot.sound |
| C136 | `Proadv.Props.C136_integers` | propext, Classical.choice, Quot.sound |
| C136 | `Proadv.Props.C136_small_unit` | propext, Classical.choice, Quot.sound |
| C136 | `Proadv.Props.C136_unit_dependent` | propext, Classical.choice, Quot.sound |
| C137 | `Proadv.Props.C137_scale` | propext, Classical.choice, Quot.sound |
| C138 | `Proadv.Props.C138_step_shapes` | propext, Classical.choice, Quot.sound |
| C138 | `Proadv.Props.C138_rejects` | propext, Classical.choice, Quot.sound |
| C138 | `Proadv.Props.C138_empty` | propext, Quot.sound |
| C138 | `Proadv.Props.C138_columns` | propext, Quot.sound |
| C139 | `Proadv.Props.C139_moving_average` | propext, Classical.choice, Quot.sound |
| C139 | `Proadv.Props.C139_contamination` | propext, Classical.choice, Quot.sound |
| C139 | `Proadv.Props.C139_range_fails` | propext, Classical.choice, Quot.sound |
| C140 | `Proadv.Props.C140_weighted_moving_average` | propext, Classical.choice, Quot.sound |
| C141 | `Proadv.Props.C141_ema` | propext, Classical.choice, Quot.sound |
| C141 | `Proadv.Props.C141_constant_series` | propext, Classical.choice, Quot.sound |
| C142 | `Proadv.Props.C142_mean` | propext, Classical.choice, Quot.sound |
| C142 | `Proadv.Props.C142_mean_relative` | propext, Classical.choice, Quot.sound |
| C142 | `Proadv.Props.C142_variance` | propext, Classical.choice, Quot.sound |
| C142 | `Proadv.Props.C142_constant_series` | propext, Classical.choice, Quot.sound |
| C143 | `Proadv.Props.C143_phase_space` | propext, Classical.choice, Quot.sound |
| C143 | `Proadv.Props.C143_spherical` | propext, Classical.choice, Quot.sound |
| C143 | `Proadv.Props.C143_correlation` | propext, Classical.choice, Quot.sound |
| C143 | `Proadv.Props.C143_acceleration` | propext, Classical.choice, Quot.sound |
| C143 | `Proadv.Props.C143_frame` | propext, Classical.choice, Quot.sound |
| C143 | `Proadv.Props.C143_clean` | propext, Classical.choice, Quot.sound |
| C144 | `Proadv.Props.C144_total` | propext, Classical.choice, Quot.sound |
| C144 | `Proadv.Props.C144_errors` | propext, Classical.choice, Quot.sound |
| C145 | `Proadv.Props.C145_one_direction` | propext, Classical.choice, Quot.sound |
| C145 | `Proadv.Props.C145_upward` | propext, Classical.choice, Quot.sound |
| C145 | `Proadv.Props.C145_downward` | propext, Classical.choice, Quot.sound |
| C145 | `Proadv.Props.C145_stops_early` | propext, Classical.choice, Quot.sound |
| C146 | `Proadv.Props.C146_correlation` | propext, Classical.choice, Quot.sound |
| C146 | `Proadv.Props.C146_first_round` | propext, Classical.choice, Quot.sound |
| C147 | `Proadv.Props.C147_trivariate` | propext, Classical.choice, Quot.sound |
| C147 | `Proadv.Props.C147_bivariate` | propext, Classical.choice, Quot.sound |
| C148 | `Proadv.Props.C148_correlation` | propext, Classical.choice, Quot.sound |
| C148 | `Proadv.Props.C148_phase` | propext, Classical.choice, Quot.sound |
| C148 | `Proadv.Props.C148_acceleration` | propext, Classical.choice, Quot.sound |
| C149 | `Proadv.Props.C149_nan_density` | propext, Classical.choice, Quot.sound |
| C149 | `Proadv.Props.C149_ellipse` | propext, Classical.choice, Quot.sound |
| C149 | `Proadv.Props.C149_degenerate_first` | propext, Classical.choice, Quot.sound |
| C149 | `Proadv.Props.C149_degenerate_second` | propext, Classical.choice, Quot.sound |
| C149 | `Proadv.Props.C149_program` | propext, Classical.choice, Quot.sound |
| C150 | `Proadv.Props.C150_energy` | propext, Classical.choice, Quot.sound |
| C150 | `Proadv.Props.C150_bound` | propext, Classical.choice, Quot.sound |
| C151 | `Proadv.Props.C151_signs_order` | propext, Classical.choice, Quot.sound |
| C152 | `Proadv.Props.C152_long_window` | propext, Classical.choice, Quot.sound |
| C152 | `Proadv.Props.C152_constant` | propext, Classical.choice, Quot.sound |
| C153 | `Proadv.Props.C153_replacement` | propext, Classical.choice, Quot.sound |
| C154 | `Proadv.Props.C154_converges` | propext, Classical.choice, Quot.sound |
| C154 | `Proadv.Props.C154_defaults` | propext, Classical.choice, Quot.sound |
| C155 | `Proadv.Props.C155_core` | propext, Classical.choice, Quot.sound |
| C155 | `Proadv.Props.C155_stops` | propext, Classical.choice, Quot.sound |
| C156 | `Proadv.Props.C156_core` | propext, Classical.choice, Quot.sound |
| C156 | `Proadv.Props.C156_minimum` | propext, Classical.choice, Quot.sound |
| C157 | `Proadv.Props.C157_mean` | propext, Classical.choice, Quot.sound |
| C157 | `Proadv.Props.C157_median` | propext, Classical.choice, Quot.sound |
| C157 | `Proadv.Props.C157_mean_median` | propext, Classical.choice, Quot.sound |
| C158 | `Proadv.Props.C158_samuelson` | propext, Classical.choice, Quot.sound |
| C158 | `Proadv.Props.C158_moments` | propext, Classical.choice, Quot.sound |
| C158 | `Proadv.Props.C158_attained` | propext, Classical.choice, Quot.sound |
| C159 | `Proadv.Props.C159_mean` | propext, Classical.choice, Quot.sound |
| C159 | `Proadv.Props.C159_variance` | propext, Classical.choice, Quot.sound |
| C160 | `Proadv.Props.C160_ma` | propext, Classical.choice, Quot.sound |
| C160 | `Proadv.Props.C160_ema` | propext, Classical.choice, Quot.sound |
| C160 | `Proadv.Props.C160_ema_int` | propext, Classical.choice, Quot.sound |
| C160 | `Proadv.Props.C160_wma` | propext, Classical.choice, Quot.sound |
| C161 | `Proadv.Props.C161_ma` | propext, Classical.choice, Quot.sound |
| C161 | `Proadv.Props.C161_ema` | propext, Quot.sound |
| C161 | `Proadv.Props.C161_wma` | propext, Quot.sound |
| C161 | `Proadv.Props.C161_ma_prefix` | propext, Classical.choice, Quot.sound |
| C161 | `Proadv.Props.C161_wma_window` | propext, Quot.sound |
| C162 | `Proadv.Props.C162_ma` | propext, Classical.choice, Quot.sound |
| C162 | `Proadv.Props.C162_ema` | propext, Classical.choice, Quot.sound |
| C162 | `Proadv.Props.C162_wma` | propext, Classical.choice, Quot.sound |
| C163 | `Proadv.Props.C163_core` | propext, Classical.choice, Quot.sound |
| C163 | `Proadv.Props.C163_fminbound` | propext, Classical.choice, Quot.sound |
| C164 | `Proadv.Props.C164_units` | propext, Classical.choice, Quot.sound |
| C164 | `Proadv.Props.C164_mirror` | propext, Classical.choice, Quot.sound |
| C164 | `Proadv.Props.C164_mirror_needs` | propext, Classical.choice, Quot.sound |
| C165 | `Proadv.Props.C165_tensor` | propext, Classical.choice, Quot.sound |
| C165 | `Proadv.Props.C165_invariants` | propext, Classical.choice, Quot.sound |
| C165 | `Proadv.Props.C165_det` | propext, Classical.choice, Quot.sound |
| C166 | `Proadv.C166_lp_hp` | propext, Classical.choice, Quot.sound |
| C166 | `Proadv.C166_bp_bs` | propext, Classical.choice, Quot.sound |
| C167 | `Proadv.C167_le_one` | propext, Classical.choice, Quot.sound |
| C167 | `Proadv.C167_band` | propext, Classical.choice, Quot.sound |
| C167 | `Proadv.C167_monotone` | propext, Classical.choice, Quot.sound |
| C168 | `Proadv.C168_order` | propext, Classical.choice, Quot.sound |
| C168 | `Proadv.C168_limit` | propext, Classical.choice, Quot.sound |
| C168 | `Proadv.C168_rolloff` | propext, Classical.choice, Quot.sound |
| C169 | `Proadv.Props.C169_derivative` | propext, Classical.choice, Quot.sound |
| C169 | `Proadv.Props.C169_tails` | propext, Classical.choice, Quot.sound |
| C169 | `Proadv.Props.C169_limits` | propext, Classical.choice, Quot.sound |
| C170 | `Proadv.Props.C170_spike_values` | propext, Classical.choice, Quot.sound |
| C170 | `Proadv.Props.C170_leak` | propext, Classical.choice, Quot.sound |
| C170 | `Proadv.Props.C170_idempotent` | propext, Classical.choice, Quot.sound |
| C170 | `Proadv.Props.C170_second_pass` | propext, Classical.choice, Quot.sound |
| C171 | `Proadv.Props.C171_reversal` | propext, Classical.choice, Quot.sound |
| C171 | `Proadv.Props.C171_ends` | propext, Classical.choice, Quot.sound |
| C171 | `Proadv.Props.C171_affine` | propext, Classical.choice, Quot.sound |
| C172 | `Proadv.Props.C172_skew_value` | propext, Classical.choice, Quot.sound |
| C172 | `Proadv.Props.C172_skew_laws` | propext, Classical.choice, Quot.sound |
| C172 | `Proadv.Props.C172_skew_sharp` | propext, Classical.choice, Quot.sound |
| C172 | `Proadv.Props.C172_kurt_value` | propext, Classical.choice, Quot.sound |
| C172 | `Proadv.Props.C172_kurt_monotone` | propext, Classical.choice, Quot.sound |
| C172 | `Proadv.Props.C172_kurt_masked` | propext, Classical.choice, Quot.sound |
| C173 | `Proadv.Props.C173_order` | propext, Classical.choice, Quot.sound |
| C173 | `Proadv.Props.C173_repeat` | propext, Classical.choice, Quot.sound |
| C173 | `Proadv.Props.C173_units` | propext, Classical.choice, Quot.sound |
| C173 | `Proadv.Props.C173_bandwidth_sign` | propext, Classical.choice, Quot.sound |
| C173 | `Proadv.Props.C173_exchange` | propext, Classical.choice, Quot.sound |
| C174 | `Proadv.Props.C174_limit` | propext, Classical.choice, Quot.sound |
| C174 | `Proadv.Props.C174_not_uniform` | propext, Classical.choice, Quot.sound |
| C175 | `Proadv.Props.C175_displacement` | propext, Classical.choice, Quot.sound |
| C175 | `Proadv.Props.C175_short` | propext, Classical.choice, Quot.sound |
| C175 | `Proadv.Props.C175_range` | propext, Classical.choice, Quot.sound |
| C175 | `Proadv.Props.C175_ssa` | propext, Classical.choice, Quot.sound |
| C176 | `Proadv.Props.C176_kalman` | propext, Classical.choice, Quot.sound |
| C176 | `Proadv.Props.C176_forgets` | propext, Classical.choice, Quot.sound |
| C177 | `Proadv.Props.C177_short` | propext, Classical.choice, Quot.sound |
| C177 | `Proadv.Props.C177_line` | propext, Classical.choice, Quot.sound |
| C177 | `Proadv.Props.C177_constant` | propext, Classical.choice, Quot.sound |
| C178 | `Proadv.Props.C178_separable` | propext, Classical.choice, Quot.sound |
| C178 | `Proadv.Props.C178_program` | propext, Classical.choice, Quot.sound |
| C179 | `Proadv.Props.C179_median` | propext, Classical.choice, Quot.sound |
| C179 | `Proadv.Props.C179_median_sharp` | propext, Classical.choice, Quot.sound |
| C179 | `Proadv.Props.C179_mean` | propext, Classical.choice, Quot.sound |
| C179 | `Proadv.Props.C179_median_value` | propext, Classical.choice, Quot.sound |
| C179 | `Proadv.Props.C179_mean_value` | propext, Classical.choice, Quot.sound |
| C179 | `Proadv.Props.C179_last_valid` | propext, Classical.choice, Quot.sound |
| C180 | `Proadv.Props.C180_ma` | propext, Classical.choice, Quot.sound |
| C180 | `Proadv.Props.C180_ema` | propext, Classical.choice, Quot.sound |
| C180 | `Proadv.Props.C180_wma` | propext, Classical.choice, Quot.sound |
| C181 | `Proadv.Props.C181_ma` | propext, Classical.choice, Quot.sound |
| C181 | `Proadv.Props.C181_ema` | propext, Classical.choice, Quot.sound |
| C181 | `Proadv.Props.C181_wma` | propext, Classical.choice, Quot.sound |
| C182 | `Proadv.Props.C182_ema` | propext, Classical.choice, Quot.sound |
| C182 | `Proadv.Props.C182_wma` | propext, Classical.choice, Quot.sound |
| C182 | `Proadv.Props.C182_kalman` | propext, Classical.choice, Quot.sound |
| C183 | `Proadv.Props.C183_mean_variance` | propext, Quot.sound |
| C183 | `Proadv.Props.C183_moments` | propext, Classical.choice, Quot.sound |
| C183 | `Proadv.Props.C183_stresses` | propext, Classical.choice, Quot.sound |
| C183 | `Proadv.Props.C183_energy` | propext, Classical.choice, Quot.sound |
| C184 | `Proadv.Props.C184_mean` | propext, Classical.choice, Quot.sound |
| C184 | `Proadv.Props.C184_median` | propext, Classical.choice, Quot.sound |
| C184 | `Proadv.Props.C184_sma` | propext, Classical.choice, Quot.sound |
| C184 | `Proadv.Props.C184_ema` | propext, Classical.choice, Quot.sound |
| C184 | `Proadv.Props.C184_wma` | propext, Classical.choice, Quot.sound |
| C185 | `Proadv.Props.C185_last_valid` | propext, Classical.choice, Quot.sound |
| C185 | `Proadv.Props.C185_linear` | propext, Classical.choice, Quot.sound |
| C186 | `Proadv.Props.C186_acceleration` | propext, Classical.choice, Quot.sound |
| C186 | `Proadv.Props.C186_phasespace` | propext, Classical.choice, Quot.sound |
| C186 | `Proadv.Props.C186_correlation` | propext, Classical.choice, Quot.sound |
| C187 | `Proadv.Props.C187_unique` | propext, Classical.choice, Quot.sound |
| C187 | `Proadv.Props.C187_superposition` | propext, Classical.choice, Quot.sound |
| C187 | `Proadv.Props.C187_translation` | propext, Classical.choice, Quot.sound |
| C187 | `Proadv.Props.C187_forecast` | propext, Classical.choice, Quot.sound |
| C187 | `Proadv.Props.C187_weights_sum` | propext, Classical.choice, Quot.sound |
| C187 | `Proadv.Props.C187_replacement` | propext, Classical.choice, Quot.sound |
| C188 | `Proadv.Props.C188_gain` | propext, Classical.choice, Quot.sound |
| C188 | `Proadv.Props.C188_sensitivity` | propext, Classical.choice, Quot.sound |
| C189 | `Proadv.Props.C189_optimal` | propext, Classical.choice, Quot.sound |
| C190 | `Proadv.Props.C190_moving_average` | propext, Classical.choice, Quot.sound |
| C190 | `Proadv.Props.C190_ema` | propext, Classical.choice, Quot.sound |
| C190 | `Proadv.Props.C190_wma` | propext, Classical.choice, Quot.sound |
| C191 | `Proadv.C191_units` | propext, Classical.choice, Quot.sound |
| C191 | `Proadv.C191_default_rate` | propext, Classical.choice, Quot.sound |
| C192 | `Proadv.C192_inversion` | propext, Classical.choice, Quot.sound |
| C192 | `Proadv.C192_lists` | propext, Classical.choice, Quot.sound |
| C193 | `Proadv.C193_scaling` | propext, Classical.choice, Quot.sound |
| C193 | `Proadv.C193_accepts` | propext, Classical.choice, Quot.sound |
| C194 | `Proadv.Props.C194_two_dimensional` | propext, Quot.sound |
| C194 | `Proadv.Props.C194_rejects` | propext, Quot.sound |
| C194 | `Proadv.Props.C194_no_type_error` | propext, Classical.choice, Quot.sound |
| C194 | `Proadv.Props.C194_scalars` | propext, Classical.choice, Quot.sound |
| C194 | `Proadv.Props.C194_rows_rejected` | propext, Classical.choice, Quot.sound |
| C195 | `Proadv.Props.C195_errors` | propext, Classical.choice, Quot.sound |
| C195 | `Proadv.Props.C195_double` | propext |
| C195 | `Proadv.Props.C195_float` | propext, Classical.choice, Quot.sound |
| C195 | `Proadv.Props.C195_complex` | propext, Classical.choice, Quot.sound |
| C195 | `Proadv.Props.C195_half` | propext |
| C195 | `Proadv.Props.C195_promotes` | propext, Classical.choice, Quot.sound |
| C196 | `Proadv.Props.C196_raises` | propext, Classical.choice, Quot.sound |
| C196 | `Proadv.Props.C196_always` | propext, Classical.choice, Quot.sound |
| C196 | `Proadv.Props.C196_common` | propext, Classical.choice, Quot.sound |
| C197 | `Proadv.Props.C197_detects` | propext, Classical.choice, Quot.sound |
| C198 | `Proadv.Props.C198_flags_all` | propext, Classical.choice, Quot.sound |
| C199 | `Proadv.Props.C199_count` | propext, Classical.choice, Quot.sound |
| C199 | `Proadv.Props.C199_uncorrelated` | propext, Classical.choice, Quot.sound |
| C200 | `Proadv.Props.C200_spike` | propext, Classical.choice, Quot.sound |
| C201 | `Proadv.Props.C201_detects` | propext, Classical.choice, Quot.sound |
| C201 | `Proadv.Props.C201_first` | propext, Classical.choice, Quot.sound |
| C202 | `Proadv.Props.C202_mean` | propext, Classical.choice, Quot.sound |
| C202 | `Proadv.Props.C202_variance` | propext, Classical.choice, Quot.sound |
| C202 | `Proadv.Props.C202_moments` | propext, Classical.choice, Quot.sound |
| C202 | `Proadv.Props.C202_median` | propext, Classical.choice, Quot.sound |
| C202 | `Proadv.Props.C202_ema` | propext, Classical.choice, Quot.sound |
| C202 | `Proadv.Props.C202_kalman` | propext, Classical.choice, Quot.sound |
| C202 | `Proadv.Props.C202_moving_average` | propext, Classical.choice, Quot.sound |
| C202 | `Proadv.Props.C202_wma` | propext, Classical.choice, Quot.sound |
| C203 | `Proadv.Props.C203_acceleration` | propext, Classical.choice, Quot.sound |
| C203 | `Proadv.Props.C203_phasespace` | propext, Classical.choice, Quot.sound |
| C203 | `Proadv.Props.C203_correlation` | propext, Classical.choice, Quot.sound |
| C203 | `Proadv.Props.C203_mean_value` | propext, Classical.choice, Quot.sound |
| C203 | `Proadv.Props.C203_median_value` | propext, Classical.choice, Quot.sound |
| C204 | `Proadv.Props.C204_fit` | propext, Classical.choice, Quot.sound |
| C204 | `Proadv.Props.C204_rejects` | propext, Classical.choice, Quot.sound |
| C204 | `Proadv.Props.C204_least_squares` | propext, Classical.choice, Quot.sound |
| C204 | `Proadv.Props.C204_weights` | propext, Classical.choice, Quot.sound |
| C204 | `Proadv.Props.C204_one_sample` | propext, Classical.choice, Quot.sound |
| C204 | `Proadv.Props.C204_two_samples` | propext, Classical.choice, Quot.sound |
| C204 | `Proadv.Props.C204_overfit` | propext, Classical.choice, Quot.sound |
| C205 | `Proadv.Props.C205_missing` | propext, Classical.choice, Quot.sound |
| C205 | `Proadv.Props.C205_parameters` | propext, Classical.choice, Quot.sound |
| C205 | `Proadv.Props.C205_last_valid` | propext, Classical.choice, Quot.sound |
| C205 | `Proadv.Props.C205_constant` | propext, Classical.choice, Quot.sound |
| C206 | `Proadv.Props.C206_gain` | propext, Classical.choice, Quot.sound |
| C206 | `Proadv.Props.C206_approach` | propext, Classical.choice, Quot.sound |
| C206 | `Proadv.Props.C206_settled` | propext, Classical.choice, Quot.sound |
| C206 | `Proadv.Props.C206_every_alpha` | propext, Classical.choice, Quot.sound |
| C207 | `Proadv.Props.C207_interp` | propext, Classical.choice, Quot.sound |
| C207 | `Proadv.Props.C207_success` | propext, Classical.choice, Quot.sound |
| C207 | `Proadv.Props.C207_value` | propext, Classical.choice, Quot.sound |
| C207 | `Proadv.Props.C207_few` | propext, Classical.choice, Quot.sound |
| C208 | `Proadv.Props.C208_leak` | propext, Classical.choice, Quot.sound |
| C208 | `Proadv.Props.C208_range` | propext, Classical.choice, Quot.sound |
| C208 | `Proadv.Props.C208_overshoot` | propext, Classical.choice, Quot.sound |
| C208 | `Proadv.Props.C208_parabola` | propext, Classical.choice, Quot.sound |
| C209 | `Proadv.Props.C209_exists` | propext, Classical.choice, Quot.sound |
| C209 | `Proadv.Props.C209_solver_independent` | propext, Classical.choice, Quot.sound |
| C209 | `Proadv.Props.C209_ambiguous` | propext, Classical.choice, Quot.sound |
| C210 | `Proadv.Props.C210_alternating_erased` | propext, Classical.choice, Quot.sound |
| C211 | `Proadv.Props.C211_periodic` | propext, Classical.choice, Quot.sound |
| C211 | `Proadv.Props.C211_sinusoid` | propext, Classical.choice, Quot.sound |
| C212 | `Proadv.Props.C212_sinusoid` | propext, Classical.choice, Quot.sound |
| C212 | `Proadv.Props.C212_gain` | propext, Classical.choice, Quot.sound |
| C212 | `Proadv.Props.C212_no_gain` | propext, Classical.choice, Quot.sound |
| C213 | `Proadv.Props.C213_count` | propext, Classical.choice, Quot.sound |
| C213 | `Proadv.Props.C213_count_unreal` | propext, Classical.choice, Quot.sound |
| C213 | `Proadv.Props.C213_centred` | propext, Classical.choice, Quot.sound |
| C214 | `Proadv.Props.C214_exact` | propext, Classical.choice, Quot.sound |
| C214 | `Proadv.Props.C214_inside_bracket` | propext, Classical.choice, Quot.sound |
| C214 | `Proadv.Props.C214_converged` | propext, Classical.choice, Quot.sound |
| C214 | `Proadv.Props.C214_binary64` | propext, Classical.choice, Quot.sound |
| C215 | `Proadv.Props.C215_inside_bounds` | propext, Classical.choice, Quot.sound |
| C215 | `Proadv.Props.C215_binary64` | propext, Classical.choice, Quot.sound |
| C216 | `Proadv.Props.C216_kalman_bounded` | propext, Classical.choice, Quot.sound |
| C216 | `Proadv.Props.C216_covariance` | propext, Classical.choice, Quot.sound |
| C216 | `Proadv.Props.C216_diffuse_prior` | propext, Classical.choice, Quot.sound |
| C216 | `Proadv.Props.C216_diffuse_prior_binary64` | propext, Classical.choice, Quot.sound |
| C217 | `Proadv.Props.C217_interpolation` | propext, Classical.choice, Quot.sound |
| C217 | `Proadv.Props.C217_median` | propext, Classical.choice, Quot.sound |
| C217 | `Proadv.Props.C217_interpolation_binary64` | propext, Classical.choice, Quot.sound |
| C217 | `Proadv.Props.C217_median_binary64` | propext, Classical.choice, Quot.sound |
| C217 | `Proadv.Props.C217_mean_leaves_range` | propext, Classical.choice, Quot.sound |
| C217 | `Proadv.Props.C217_end_block_leaves_range` | propext, Classical.choice, Quot.sound |
| C218 | `Proadv.Props.C218_error` | propext, Classical.choice, Quot.sound |
| C218 | `Proadv.Props.C218_fixed` | propext, Classical.choice, Quot.sound |
| C218 | `Proadv.Props.C218_lossless` | propext, Classical.choice, Quot.sound |
| C218 | `Proadv.Props.C218_attained` | propext, Classical.choice, Quot.sound |
| C219 | `Proadv.Props.C219_statistics` | propext, Quot.sound |
| C219 | `Proadv.Props.C219_averages` | propext, Quot.sound |
| C219 | `Proadv.Props.C219_ssa` | propext, Quot.sound |
| C219 | `Proadv.Props.C219_repeats` | propext, Classical.choice, Quot.sound |
| C219 | `Proadv.Props.C219_last_descending` | propext, Classical.choice, Quot.sound |
| C219 | `Proadv.Props.C219_linear_unsorted` | propext, Classical.choice, Quot.sound |
| C219 | `Proadv.Props.C219_cubic` | propext, Classical.choice, Quot.sound |
| C220 | `Proadv.Props.C220_spike` | propext, Classical.choice, Quot.sound |
| C221 | `Proadv.Props.C221_same` | propext, Classical.choice, Quot.sound |
| C221 | `Proadv.Props.C221_ssa` | propext, Quot.sound |
| C221 | `Proadv.Props.C221_last` | propext, Quot.sound |
| C221 | `Proadv.Props.C221_last_error` | propext, Classical.choice, Quot.sound |
| C221 | `Proadv.Props.C221_weighted` | propext, Classical.choice, Quot.sound |
| C221 | `Proadv.Props.C221_linear` | propext, Classical.choice, Quot.sound |
| C221 | `Proadv.Props.C221_cubic` | propext, Classical.choice, Quot.sound |
| C222 | `Proadv.Props.C222_target` | propext, Classical.choice, Quot.sound |
| C222 | `Proadv.Props.C222_root` | propext, Classical.choice, Quot.sound |
| C222 | `Proadv.Props.C222_fallback` | propext, Classical.choice, Quot.sound |
| C223 | `Proadv.Props.C223_mean` | propext, Classical.choice, Quot.sound |
| C223 | `Proadv.Props.C223_mean_fits` | propext, Classical.choice, Quot.sound |
| C223 | `Proadv.Props.C223_variance` | propext, Classical.choice, Quot.sound |
| C223 | `Proadv.Props.C223_moving_average` | propext, Classical.choice, Quot.sound |
| C223 | `Proadv.Props.C223_weighted` | propext, Classical.choice, Quot.sound |
| C223 | `Proadv.Props.C223_ema` | propext, Classical.choice, Quot.sound |
| C223 | `Proadv.Props.C223_mean_overflows` | propext, Classical.choice, Quot.sound |
| C223 | `Proadv.Props.C223_median_overflows` | propext, Classical.choice, Quot.sound |
| C223 | `Proadv.Props.C223_contamination` | propext, Classical.choice, Quot.sound |
| C223 | `Proadv.Props.C223_kalman` | propext, Classical.choice, Quot.sound |
| C224 | `Proadv.Props.C224_kernel` | propext, Classical.choice, Quot.sound |
| C224 | `Proadv.Props.C224_reverse` | propext, Classical.choice, Quot.sound |
| C225 | `Proadv.Props.C225_unsigned` | propext, Classical.choice, Quot.sound |
| C225 | `Proadv.Props.C225_signed` | propext, Classical.choice, Quot.sound |
| C225 | `Proadv.Props.C225_unsigned_iff` | propext, Classical.choice, Quot.sound |
| C225 | `Proadv.Props.C225_signed_small` | propext, Classical.choice, Quot.sound |
| C226 | `Proadv.Props.C226_up` | propext, Classical.choice, Quot.sound |
| C226 | `Proadv.Props.C226_down` | propext, Classical.choice, Quot.sound |
| C226 | `Proadv.Props.C226_unsigned_down` | propext, Classical.choice, Quot.sound |
| C226 | `Proadv.Props.C226_unsigned_up` | propext, Classical.choice, Quot.sound |
| C226 | `Proadv.Props.C226_agrees` | propext, Classical.choice, Quot.sound |
| C226 | `Proadv.Props.C226_derivatives` | propext, Classical.choice, Quot.sound |
| C227 | `Proadv.Props.C227_exchange` | propext, Classical.choice, Quot.sound |
| C227 | `Proadv.Props.C227_any_order` | propext, Classical.choice, Quot.sound |
| C227 | `Proadv.Props.C227_order` | propext, Classical.choice, Quot.sound |
| C228 | `Proadv.Props.C228_angle` | propext, Classical.choice, Quot.sound |
| C228 | `Proadv.Props.C228_reversal` | propext, Classical.choice, Quot.sound |
| C228 | `Proadv.Props.C228_direction` | propext, Classical.choice, Quot.sound |
| C229 | `Proadv.Props.C229_sinusoid` | propext, Classical.choice, Quot.sound |
| C229 | `Proadv.Props.C229_gain` | propext, Classical.choice, Quot.sound |
| C229 | `Proadv.Props.C229_strict` | propext, Classical.choice, Quot.sound |
| C229 | `Proadv.Props.C229_nyquist` | propext, Classical.choice, Quot.sound |
| C230 | `Proadv.Props.C230_reversal` | propext, Classical.choice, Quot.sound |
| C230 | `Proadv.Props.C230_unit` | propext, Classical.choice, Quot.sound |
| C230 | `Proadv.Props.C230_sign` | propext, Classical.choice, Quot.sound |
| C231 | `Proadv.Props.C231_exact` | propext, Classical.choice, Quot.sound |
| C231 | `Proadv.Props.C231_dip` | propext, Classical.choice, Quot.sound |
| C231 | `Proadv.Props.C231_coarse` | propext, Classical.choice, Quot.sound |
| C232 | `Proadv.Props.C232_unsigned` | propext, Classical.choice, Quot.sound |
| C232 | `Proadv.Props.C232_signed` | propext, Classical.choice, Quot.sound |
| C232 | `Proadv.Props.C232_exact` | propext, Classical.choice, Quot.sound |
| C232 | `Proadv.Props.C232_apart` | propext, Classical.choice, Quot.sound |
| C233 | `Proadv.Props.C233_order` | propext, Classical.choice, Quot.sound |
| C233 | `Proadv.Props.C233_sound` | propext, Classical.choice, Quot.sound |
| C233 | `Proadv.Props.C233_run` | propext, Classical.choice, Quot.sound |
| C233 | `Proadv.Props.C233_rejected` | propext, Classical.choice, Quot.sound |
| C234 | `Proadv.Props.C234_mean` | propext, Classical.choice, Quot.sound |
| C234 | `Proadv.Props.C234_variance` | propext, Classical.choice, Quot.sound |
| C234 | `Proadv.Props.C234_moving_average` | propext, Classical.choice, Quot.sound |
| C234 | `Proadv.Props.C234_weighted_moving_average` | propext, Classical.choice, Quot.sound |
| C234 | `Proadv.Props.C234_ema` | propext, Classical.choice, Quot.sound |
| C234 | `Proadv.Props.C234_variance_vanishes` | propext, Classical.choice, Quot.sound |
| C234 | `Proadv.Props.C234_ema_stalls` | propext, Classical.choice, Quot.sound |
| C235 | `Proadv.Props.C235_stresses` | propext, Classical.choice, Quot.sound |
| C235 | `Proadv.Props.C235_energy` | propext, Classical.choice, Quot.sound |
| C236 | `Proadv.Props.C236_tone` | propext, Classical.choice, Quot.sound |
| C237 | `Proadv.Props.C237_std` | propext, Classical.choice, Quot.sound |
| C237 | `Proadv.Props.C237_up` | propext, Classical.choice, Quot.sound |
| C237 | `Proadv.Props.C237_down` | propext, Classical.choice, Quot.sound |
| C237 | `Proadv.Props.C237_agree_up` | propext, Classical.choice, Quot.sound |
| C237 | `Proadv.Props.C237_agree_down` | propext, Classical.choice, Quot.sound |
| C238 | `Proadv.Props.C238_exact` | propext, Classical.choice, Quot.sound |
| C238 | `Proadv.Props.C238_slow` | propext, Classical.choice, Quot.sound |
| C238 | `Proadv.Props.C238_smooth` | propext, Classical.choice, Quot.sound |
| C238 | `Proadv.Props.C238_step` | propext, Classical.choice, Quot.sound |
| C239 | `Proadv.Props.C239_first` | propext, Classical.choice, Quot.sound |
| C239 | `Proadv.Props.C239_halving` | propext, Classical.choice, Quot.sound |
| C239 | `Proadv.Props.C239_stretch` | propext, Classical.choice, Quot.sound |
| C239 | `Proadv.Props.C239_trace` | propext, Classical.choice, Quot.sound |
| C240 | `Proadv.Props.C240_stops` | propext, Classical.choice, Quot.sound |
| C240 | `Proadv.Props.C240_minimum` | propext, Classical.choice, Quot.sound |
| C240 | `Proadv.Props.C240_parabola` | propext, Classical.choice, Quot.sound |
| C240 | `Proadv.Props.C240_fminbound_stops` | propext, Classical.choice, Quot.sound |
| C240 | `Proadv.Props.C240_fminbound_minimum` | propext, Classical.choice, Quot.sound |
| C240 | `Proadv.Props.C240_binary64` | propext, Classical.choice, Quot.sound |
| C241 | `Proadv.Props.C241_converges` | propext, Classical.choice, Quot.sound |
| C241 | `Proadv.Props.C241_binary64` | propext, Classical.choice, Quot.sound |
| C242 | `Proadv.Props.C242_cdf` | propext, Classical.choice, Quot.sound |
| C242 | `Proadv.Props.C242_sf` | propext, Classical.choice, Quot.sound |
| C242 | `Proadv.Props.C242_sf_zero` | propext, Classical.choice, Quot.sound |
| C243 | `Proadv.Props.C243_pdf` | propext, Classical.choice, Quot.sound |
| C244 | `Proadv.Props.C244_log_pdf` | propext, Classical.choice, Quot.sound |
| C244 | `Proadv.Props.C244_log_cdf` | propext, Classical.choice, Quot.sound |
| C245 | `Proadv.Props.C245_skewness` | propext, Classical.choice, Quot.sound |
| C245 | `Proadv.Props.C245_kurtosis` | propext, Classical.choice, Quot.sound |
| C245 | `Proadv.Props.C245_constant` | propext, Classical.choice, Quot.sound |
| C245 | `Proadv.Props.C245_constant_binary64` | propext, Classical.choice, Quot.sound |
| C246 | `Proadv.Props.C246_stable` | propext, Classical.choice, Quot.sound |
| C247 | `Proadv.Props.C247_stable` | propext, Classical.choice, Quot.sound |
| C247 | `Proadv.Props.C247_ties` | propext, Classical.choice, Quot.sound |
| C247 | `Proadv.Props.C247_unstable` | propext, Classical.choice, Quot.sound |
| C248 | `Proadv.Props.C248_rate` | propext, Classical.choice, Quot.sound |
| C248 | `Proadv.Props.C248_tie` | propext, Classical.choice, Quot.sound |
| C249 | `Proadv.Props.C249_noop` | propext, Classical.choice, Quot.sound |
| C249 | `Proadv.Props.C249_unremovable` | propext, Classical.choice, Quot.sound |
| C250 | `Proadv.Props.C250_ties` | propext, Classical.choice, Quot.sound |
| C251 | `Proadv.Props.C251_kept` | propext, Classical.choice, Quot.sound |
| C251 | `Proadv.Props.C251_kept_cubic` | propext, Classical.choice, Quot.sound |
| C251 | `Proadv.Props.C251_kept_polynomial` | propext, Classical.choice, Quot.sound |
| C251 | `Proadv.Props.C251_between` | propext, Classical.choice, Quot.sound |
| C251 | `Proadv.Props.C251_error` | propext, Classical.choice, Quot.sound |
| C251 | `Proadv.Props.C251_not_nearest` | propext, Classical.choice, Quot.sound |
| C252 | `Proadv.Props.C252_samples` | propext, Classical.choice, Quot.sound |
| C252 | `Proadv.Props.C252_gap` | propext, Classical.choice, Quot.sound |
| C252 | `Proadv.Props.C252_block` | propext, Classical.choice, Quot.sound |
| C252 | `Proadv.Props.C252_binary64` | propext, Classical.choice, Quot.sound |
| C253 | `Proadv.Props.C253_geometric` | propext, Classical.choice, Quot.sound |
| C254 | `Proadv.Props.C254_stresses` | propext, Classical.choice, Quot.sound |
| C254 | `Proadv.Props.C254_energy` | propext, Classical.choice, Quot.sound |
| C254 | `Proadv.Props.C254_fits` | propext, Classical.choice, Quot.sound |
| C254 | `Proadv.Props.C254_normal` | propext, Classical.choice, Quot.sound |
| C254 | `Proadv.Props.C254_energy_real` | propext, Classical.choice, Quot.sound |
| C254 | `Proadv.Props.C254_binary64` | propext, Classical.choice, Quot.sound |
| C255 | `Proadv.Props.C255_mean` | propext, Classical.choice, Quot.sound |
| C255 | `Proadv.Props.C255_variance` | propext, Classical.choice, Quot.sound |
| C255 | `Proadv.Props.C255_moving_average` | propext, Classical.choice, Quot.sound |
| C255 | `Proadv.Props.C255_weighted_moving_average` | propext, Classical.choice, Quot.sound |
| C255 | `Proadv.Props.C255_ema` | propext, Classical.choice, Quot.sound |
| C255 | `Proadv.Props.C255_binary64` | propext, Classical.choice, Quot.sound |
| C256 | `Proadv.Props.C256_no_nodes` | none |
| C256 | `Proadv.Props.C256_mesh` | propext, Quot.sound |
| C256 | `Proadv.Props.C256_scaling` | propext, Quot.sound |
| C256 | `Proadv.Props.C256_cover` | propext, Classical.choice, Quot.sound |
| C256 | `Proadv.Props.C256_factor` | propext, Classical.choice, Quot.sound |
| C257 | `Proadv.Props.C257_nonnegative` | propext, Classical.choice, Quot.sound |
| C257 | `Proadv.Props.C257_sign` | propext, Classical.choice, Quot.sound |
| C257 | `Proadv.Props.C257_negative_succeeds` | propext, Classical.choice, Quot.sound |
| C258 | `Proadv.Props.C258_std` | propext, Classical.choice, Quot.sound |
| C258 | `Proadv.Props.C258_silent` | propext, Classical.choice, Quot.sound |
| C258 | `Proadv.Props.C258_pollution` | propext, Classical.choice, Quot.sound |
| C258 | `Proadv.Props.C258_same_up` | propext, Classical.choice, Quot.sound |
| C258 | `Proadv.Props.C258_same_down` | propext, Classical.choice, Quot.sound |
| C258 | `Proadv.Props.C258_missed` | propext, Classical.choice, Quot.sound |
| C259 | `Proadv.Props.C259_min_iff` | propext, Quot.sound |
| C259 | `Proadv.Props.C259_max_iff` | propext, Quot.sound |
| C259 | `Proadv.Props.C259_set` | propext, Classical.choice, Quot.sound |
| C259 | `Proadv.Props.C259_min_append` | propext, Quot.sound |
| C259 | `Proadv.Props.C259_neg` | propext, Classical.choice, Quot.sound |
| C259 | `Proadv.Props.C259_map` | propext, Quot.sound |
| C259 | `Proadv.Props.C259_mode_iff` | propext, Classical.choice, Quot.sound |
| C259 | `Proadv.Props.C259_mode_repeat` | propext, Classical.choice, Quot.sound |
| C259 | `Proadv.Props.C259_mode_map` | propext, Classical.choice, Quot.sound |
| C259 | `Proadv.Props.C259_mode_reverse` | propext, Classical.choice, Quot.sound |
| C260 | `Proadv.Props.C260_correlation` | propext, Classical.choice, Quot.sound |
| C260 | `Proadv.Props.C260_phasespace` | propext, Classical.choice, Quot.sound |
| C260 | `Proadv.Props.C260_std` | propext, Classical.choice, Quot.sound |
| C260 | `Proadv.Props.C260_correlation_binary64` | propext, Classical.choice, Quot.sound |
| C260 | `Proadv.Props.C260_phasespace_binary64` | propext, Classical.choice, Quot.sound |
| C261 | `Proadv.Props.C261_mean_value` | propext, Classical.choice, Quot.sound |
| C261 | `Proadv.Props.C261_median` | propext, Classical.choice, Quot.sound |
| C261 | `Proadv.Props.C261_median_value` | propext, Quot.sound |
| C261 | `Proadv.Props.C261_binary64` | propext, Classical.choice, Quot.sound |
| C262 | `Proadv.Props.C262_ellipsoid` | propext, Classical.choice, Quot.sound |
| C262 | `Proadv.Props.C262_spherical` | propext, Classical.choice, Quot.sound |
| C262 | `Proadv.Props.C262_angle` | propext, Classical.choice, Quot.sound |
| C262 | `Proadv.Props.C262_binary64` | propext, Classical.choice, Quot.sound |
| C263 | `Proadv.Props.C263_phase_space` | propext, Classical.choice, Quot.sound |
| C263 | `Proadv.Props.C263_spherical` | propext, Classical.choice, Quot.sound |
| C263 | `Proadv.Props.C263_correlation` | propext, Classical.choice, Quot.sound |
| C263 | `Proadv.Props.C263_acceleration` | propext, Classical.choice, Quot.sound |
| C263 | `Proadv.Props.C263_binary64` | propext, Classical.choice, Quot.sound |
| C264 | `Proadv.C264_low_high` | propext, Classical.choice, Quot.sound |
| C264 | `Proadv.C264_band_stop` | propext, Classical.choice, Quot.sound |
| C264 | `Proadv.C264_band_zero` | propext, Classical.choice, Quot.sound |
| C264 | `Proadv.C264_bilinear` | propext, Classical.choice, Quot.sound |
| C264 | `Proadv.C264_low_low` | propext, Classical.choice, Quot.sound |
| C264 | `Proadv.C264_high_high` | propext, Classical.choice, Quot.sound |
| C265 | `Proadv.C265_real` | propext, Classical.choice, Quot.sound |
| C265 | `Proadv.C265_substitution` | propext, Classical.choice, Quot.sound |
| C265 | `Proadv.C265_lost` | propext, Classical.choice, Quot.sound |
| C266 | `Proadv.C266_low_high` | propext, Classical.choice, Quot.sound |
| C266 | `Proadv.C266_high_low` | propext, Classical.choice, Quot.sound |
| C266 | `Proadv.C266_low_band` | propext, Classical.choice, Quot.sound |
| C266 | `Proadv.C266_low_stop` | propext, Classical.choice, Quot.sound |
| C266 | `Proadv.C266_low_bilinear` | propext, Classical.choice, Quot.sound |
| C266 | `Proadv.C266_stop` | propext, Classical.choice, Quot.sound |
