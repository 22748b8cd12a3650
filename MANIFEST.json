{
 "claims": [
  {
   "property": "C01",
   "status": "proved",
   "theorems": [
    "GW.C01_partition_of_unity",
    "GW.C01_partition_of_unity_explicit",
    "GW.C01_clamped_right_end_fails",
    "GW.C01_order_one_right_end_fails",
    "GW.C01_tiny_domain_fails"
   ],
   "note": "Proved for default knots and for explicit knots with a knot strictly right of the domain; the three boundary theorems (_fails) show exactly where it stops holding: clamped knots, order 1 and sub-1e-6 domains."
  },
  {
   "property": "C02",
   "status": "proved",
   "theorems": [
    "GW.C02_nonneg",
    "GW.C02_C03_default_hyps"
   ],
   "note": ""
  },
  {
   "property": "C03",
   "status": "proved",
   "theorems": [
    "GW.C03_local_support",
    "GW.C03_at_most_k_nonzero",
    "GW.C02_C03_default_hyps"
   ],
   "note": ""
  },
  {
   "property": "C04",
   "status": "proved",
   "theorems": [
    "GW.C04_convex_hull",
    "GW.C04_constant"
   ],
   "note": ""
  },
  {
   "property": "C05",
   "status": "proved",
   "theorems": [
    "GW.C05_linear",
    "GW.C05_scale_free",
    "GW.C05_scale_free_logX",
    "GW.C05_scale_free_mspline"
   ],
   "note": ""
  },
  {
   "property": "C06",
   "status": "proved",
   "theorems": [
    "GW.C06_bspline_unit_integral",
    "GW.C06_mspline_unit_integral",
    "GW.C06_logX_unit_integral",
    "GW.C06_logY_unit_integral",
    "GW.C06_logXlogY_unit_integral"
   ],
   "note": ""
  },
  {
   "property": "C07",
   "status": "proved",
   "theorems": [
    "GW.C07_unit_area",
    "GW.C07_centre_of_mass",
    "GW.C07_tiny_span_fails"
   ],
   "note": "Area and centre of mass for every knot vector (repeated knots allowed); a component whose span is below the 1e-6 threshold is identically zero (C07_tiny_span_fails)."
  },
  {
   "property": "C08",
   "status": "partial",
   "theorems": [
    "GW.C08_uniform_interior_knots_partial",
    "GW.C08_user_interior_knots_ignored_fails"
   ],
   "note": "Holds for equally spaced interior knots; false in general: the constructor only uses the first spacing and the count (counterexample theorem)."
  },
  {
   "property": "C09",
   "status": "proved",
   "theorems": [
    "GW.C09_logX_partition_of_unity",
    "GW.C09_logX_zero_outside",
    "GW.C09_logX_scale_covariant",
    "GW.C09_negative_x_is_nan_fails"
   ],
   "note": "Zero outside for all positive x; negative x yields NaN (boundary theorem)."
  },
  {
   "property": "C10",
   "status": "proved",
   "theorems": [
    "GW.C10_logY_zero_outside_positive_inside",
    "GW.C10_logY_shift_invariant",
    "GW.C10_logXlogY_zero_outside_positive_inside"
   ],
   "note": ""
  },
  {
   "property": "C11",
   "status": "proved",
   "theorems": [
    "GW.C11_interpolates_C2",
    "GW.C11_reproduces_lines"
   ],
   "note": ""
  },
  {
   "property": "C12",
   "status": "partial",
   "theorems": [
    "GW.C12_right_end_partial",
    "GW.C12_right_end_fails"
   ],
   "note": "False of the code: the last matrix row is c[n-1]-c[n-2]=0, so the last piece is quadratic; for every abscissa vector there is data with non-zero second derivative at the right end."
  },
  {
   "property": "C13",
   "status": "proved",
   "theorems": [
    "GW.C13_unique_solution",
    "GW.C13_init"
   ],
   "note": ""
  },
  {
   "property": "C14",
   "status": "proved",
   "theorems": [
    "GW.C14_residual_orthogonal",
    "GW.C14_least_squares",
    "GW.C14_exact_recovery"
   ],
   "note": ""
  },
  {
   "property": "C15",
   "status": "partial",
   "theorems": [
    "GW.C15_bases_fails",
    "GW.C15_construct_fails",
    "GW.C15_construct_partial",
    "GW.C15_layout_transposed",
    "GW.C15_layout_fails",
    "GW.C15_project_partial"
   ],
   "note": "False of the code: bases() calls the non-existent reset_bases, so every evaluation and every default construction raises; the layout is also wrong."
  },
  {
   "property": "C16",
   "status": "proved",
   "theorems": [
    "GW.C16_default_knots",
    "GW.C16_default_too_few",
    "GW.C16_explicit_knots"
   ],
   "note": ""
  },
  {
   "property": "C17",
   "status": "proved",
   "theorems": [
    "GW.C17_powerlaw_normalised"
   ],
   "note": ""
  },
  {
   "property": "C18",
   "status": "proved",
   "theorems": [
    "GW.C18_powerlaw_shape",
    "GW.C18_powerlaw_total"
   ],
   "note": ""
  },
  {
   "property": "C19",
   "status": "partial",
   "theorems": [
    "GW.C19_taper_window_partial",
    "GW.C19_below_window_fails",
    "GW.C19_above_window_fails",
    "GW.C19_upper_edge_fails"
   ],
   "note": "Inside the open window and at the lower edge the claim holds; below, above and at the upper edge it is false because the window test joins its two halves with `|` (three _fails theorems)."
  },
  {
   "property": "C20",
   "status": "proved",
   "theorems": [
    "GW.C20_logistic_bounds",
    "GW.C20_logistic_monotone",
    "GW.C20_powerlaw_logit_bounds"
   ],
   "note": ""
  },
  {
   "property": "C21",
   "status": "proved",
   "theorems": [
    "GW.C21_log_logistic"
   ],
   "note": ""
  },
  {
   "property": "C22",
   "status": "proved",
   "theorems": [
    "GW.C22_truncnorm_normalised",
    "GW.C22_lognormal_normalised"
   ],
   "note": ""
  },
  {
   "property": "C23",
   "status": "partial",
   "theorems": [
    "GW.C23_betadist_normalised_partial",
    "GW.C23_nan_at_zero_fails",
    "GW.C23_nan_at_scale_fails",
    "GW.C23_endpoint_values"
   ],
   "note": "Normalised and positive on the open interval, floor outside; at an end point with the matching shape equal to 1 the code returns NaN (two _fails theorems)."
  },
  {
   "property": "C24",
   "status": "partial",
   "theorems": [
    "GW.C24_sine_inverse",
    "GW.C24_sine_cdf",
    "GW.C24_sine_density_full_range_partial",
    "GW.C24_sine_density_subrange_fails",
    "GW.C24_cosine_inverse",
    "GW.C24_cosine_cdf",
    "GW.C24_cosine_density_full_range_partial",
    "GW.C24_cosine_density_subrange_fails"
   ],
   "note": "cdf/icdf claims hold on every sub-range; the density is normalised only on the full default range, because log_prob ignores minimum and maximum (two _fails theorems quantify over every proper sub-range)."
  },
  {
   "property": "C25",
   "status": "partial",
   "theorems": [
    "GW.C25_powerlaw_inverse",
    "GW.C25_powerlaw_cdf_partial",
    "GW.C25_cdf_left_of_zero_fails"
   ],
   "note": "Inverse pair proved for every slope; cdf monotone on positive arguments. For negative arguments it fails (slope 1 gives cdf(-max)=1)."
  },
  {
   "property": "C26",
   "status": "partial",
   "theorems": [
    "GW.C26_powerlaw_density_partial",
    "GW.C26_density_is_derivative_of_cdf_partial",
    "GW.C26_slope_minus_one_fails",
    "GW.C26_slope_jump_fails"
   ],
   "note": "Proved for every slope except -1; at slope -1 the total mass is log(r)/r<1 for every r=max/min (_fails theorem)."
  },
  {
   "property": "C27",
   "status": "partial",
   "theorems": [
    "GW.C27_continuous_partial",
    "GW.C27_never_normalised_fails"
   ],
   "note": "Continuity proved; normalisation fails for every valid parameter set (NaN everywhere or mass > 1) because of a sign error in the amplitude."
  },
  {
   "property": "C28",
   "status": "partial",
   "theorems": [
    "GW.C28_redshift_cdf_partial",
    "GW.C28_cdf_is_not_running_integral_fails",
    "GW.C28_cdf_exceeds_one_fails",
    "GW.C28_bspline_cdf_partial"
   ],
   "note": "On equally spaced grids: starts at 0, ends at 1, monotone, icdf inverse. The claim that the cdf is the running integral is false (off-by-one in cumtrapz), and on uneven grids the cdf can exceed 1."
  },
  {
   "property": "C29",
   "status": "proved",
   "theorems": [
    "GW.C29_redshift_density",
    "GW.C29_redshift_explicit_volume"
   ],
   "note": ""
  },
  {
   "property": "C30",
   "status": "proved",
   "theorems": [
    "GW.C30_penalty_nonpos",
    "GW.C30_penalty_null_space",
    "GW.C30_penalty_invariant",
    "GW.C30_penalty_scaling",
    "GW.C30_penalty_reverse",
    "GW.C30_distribution_agrees"
   ],
   "note": ""
  },
  {
   "property": "C31",
   "status": "proved",
   "theorems": [
    "GW.C31_masked_evaluation",
    "GW.C31_entrywise",
    "GW.C31_spline_value",
    "GW.C31_default_ranges",
    "GW.C31_default_pairs"
   ],
   "note": "Every 1-D model, every sample array (any mask pattern, infinities and NaN included), every basis class; multi-dimensional arrays as their row-major flattening."
  },
  {
   "property": "C32",
   "status": "proved",
   "theorems": [
    "GW.C32_even",
    "GW.C32_half_density",
    "GW.C32_mass"
   ],
   "note": "Evenness, half density at |chi| and preservation of total mass."
  },
  {
   "property": "C33",
   "status": "proved",
   "theorems": [
    "GW.C33_iid_spin_magnitudes",
    "GW.C33_independent_spin_magnitudes",
    "GW.C33_iid_spin_tilts",
    "GW.C33_independent_spin_tilts",
    "GW.C33_effective_spins",
    "GW.C33_primary_ratio",
    "GW.C33_primary_powerlaw_ratio",
    "GW.C33_plpeak_ratio"
   ],
   "note": "All eight separable classes; the extra keyword arguments are the same for both components (kwargs1/kwargs2 not modelled)."
  },
  {
   "property": "C34",
   "status": "partial",
   "theorems": [
    "GW.C34_iid_component_masses",
    "GW.C34_independent_value_partial",
    "GW.C34_independent_fails"
   ],
   "note": "Proved for BSplineIIDComponentMasses with positive masses. False for BSplineIndependentComponentMasses, which has no cut (C34_independent_fails)."
  },
  {
   "property": "C35",
   "status": "partial",
   "theorems": [
    "GW.C35_redshift_spline_partial",
    "GW.C35_outside_range_fails",
    "GW.C35_default_normalisation_fails",
    "GW.C35_powerlaw_spline_partial",
    "GW.C35_powerlaw_below_zmin_fails"
   ],
   "note": "Unit integral proved for BSplineRedshift with normalize=False and for PowerlawSplineRedshiftModel. False with BSplineRedshift's default normalize=True, and neither model vanishes outside the range (the _fails theorems)."
  },
  {
   "property": "C36",
   "status": "proved",
   "theorems": [
    "GW.C36_joint_density",
    "GW.C36_corner_fails"
   ],
   "note": "Proved on the whole region; the single corner m1=mmin, q=1 evaluates to an infinity (C36_corner_fails)."
  },
  {
   "property": "C37",
   "status": "proved",
   "theorems": [
    "GW.C37_tapered_joint",
    "GW.C37_mixture",
    "GW.C37_joint",
    "GW.C37_tapered_fails"
   ],
   "note": "Proved without tapering (the property's scope) and, inside the secondary's taper window, with tapering (C37_tapered_joint); outside the window the model inherits the smooth() defect (C37_tapered_fails)."
  },
  {
   "property": "C38",
   "status": "proved",
   "theorems": [
    "GW.C38_isoalign_normalised",
    "GW.C38_iid_tilt_normalised",
    "GW.C38_default_tilt_normalised",
    "GW.C38_exchange_symmetric",
    "GW.C38_iid_is_independent"
   ],
   "note": ""
  },
  {
   "property": "C39",
   "status": "proved",
   "theorems": [
    "GW.C39_redshift_model",
    "GW.C39_below_range_fails",
    "GW.C39_other_array_fails"
   ],
   "note": "Proved; two boundary theorems: no truncation below zmin, and evaluation on an array other than the construction array reuses stale volume elements."
  },
  {
   "property": "C40",
   "status": "proved",
   "theorems": [
    "GW.C40_log_linear_agree",
    "GW.C40_value"
   ],
   "note": ""
  },
  {
   "property": "C41",
   "status": "proved",
   "theorems": [
    "GW.C41_neff_bounds"
   ],
   "note": ""
  },
  {
   "property": "C42",
   "status": "proved",
   "theorems": [
    "GW.C42_sample_order",
    "GW.C42_injection_order",
    "GW.C42_rescale_events",
    "GW.C42_rescale_injections"
   ],
   "note": ""
  },
  {
   "property": "C43",
   "status": "partial",
   "theorems": [
    "GW.C43_neff_partial",
    "GW.C43_variance_is_double_subtracted",
    "GW.C43_variance_fails"
   ],
   "note": "The effective sample size is correct (C43_neff_partial). The returned variance subtracts 1/Ninj twice (C43_variance_is_double_subtracted), so it is not the relative Monte Carlo variance (C43_variance_fails)."
  },
  {
   "property": "C44",
   "status": "proved",
   "theorems": [
    "GW.C44_log_linear_agree"
   ],
   "note": ""
  },
  {
   "property": "C45",
   "status": "proved",
   "theorems": [
    "GW.C45_factor_finite"
   ],
   "note": ""
  },
  {
   "property": "C46",
   "status": "proved",
   "theorems": [
    "GW.C46_incompatible_flags",
    "GW.C46_neff_cut",
    "GW.C46_selection_cut",
    "GW.C46_variance_cut"
   ],
   "note": ""
  },
  {
   "property": "C47",
   "status": "proved",
   "theorems": [
    "GW.C47_value",
    "GW.C47_event_order",
    "GW.C47_common_rescaling"
   ],
   "note": ""
  },
  {
   "property": "C48",
   "status": "proved",
   "theorems": [
    "GW.C48_rate",
    "GW.C48_no_rate"
   ],
   "note": ""
  },
  {
   "property": "C49",
   "status": "proved",
   "theorems": [
    "GW.C49_draws_respect_cuts",
    "GW.C49_missing_column"
   ],
   "note": "C49_draws_respect_cuts for complete data; without a mass column the check ends with a KeyError naming it after all likelihood statements (C49_missing_column)."
  },
  {
   "property": "C50",
   "status": "partial",
   "theorems": [
    "GW.C50_iid_sharing_fails",
    "GW.C50_configured_iid_fails"
   ],
   "note": "False of the code: the roles in iid_mapping are swapped, so any shared parameter makes every call raise (C50_iid_sharing_fails; end to end from a parsed configuration: C50_configured_iid_fails). What holds without sharing is C51_run_partial."
  },
  {
   "property": "C51",
   "status": "partial",
   "theorems": [
    "GW.C51_class_without_grid_fails",
    "GW.C51_powerlaw_redshift_fails",
    "GW.C51_run_partial",
    "GW.C51_missing_column",
    "GW.C51_missing_mass_fails",
    "GW.C51_prior_sites",
    "GW.C51_construct",
    "GW.C51_missing_redshift_fails"
   ],
   "note": "False of the code for the shipped PowerlawRedshift (the keyword grid is not accepted: C51_powerlaw_redshift_fails, C51_class_without_grid_fails), for configurations without redshift (C51_missing_redshift_fails) and, with the default predictive check, for data without mass columns (C51_missing_mass_fails; C51_missing_column for a column the model needs). C51_run_partial: with a class that accepts grid every call evaluates the likelihood of the configured densities."
  },
  {
   "property": "C52",
   "status": "proved",
   "theorems": [
    "GW.Cosmo.C52_tables_increasing",
    "GW.Cosmo.C52_constructor"
   ],
   "note": ""
  },
  {
   "property": "C53",
   "status": "proved",
   "theorems": [
    "GW.Cosmo.C53_table_error",
    "GW.Cosmo.C53_query_error",
    "GW.Cosmo.C53_published"
   ],
   "note": "The statement bounds the error on both sides: the integrand c/(H0 E) is concave at low redshift, so the table is not a one-sided bound."
  },
  {
   "property": "C54",
   "status": "proved",
   "theorems": [
    "GW.Cosmo.C54_inverse"
   ],
   "note": ""
  },
  {
   "property": "C55",
   "status": "partial",
   "theorems": [
    "GW.Cosmo.C55_query_partial",
    "GW.Cosmo.C55_history_fails"
   ],
   "note": "Proved for redshifts inside the constructor's table under every history of queries with the constructor's step; for redshifts beyond it the answer depends on earlier queries (C55_history_fails)."
  },
  {
   "property": "C56",
   "status": "partial",
   "theorems": [
    "GW.Cosmo.C56_distance_fails",
    "GW.Cosmo.C56_redshift_fails",
    "GW.Cosmo.C56_distance_partial"
   ],
   "note": "Beyond the table, two redshifts in the same step get the same distance (C56_distance_fails) and DL2z raises TypeError (C56_redshift_fails); the distance is proved within one step times c/H0 of the exact integral."
  },
  {
   "property": "C57",
   "status": "proved",
   "theorems": [
    "GW.Cosmo.C57_log",
    "GW.Cosmo.C57_value",
    "GW.Cosmo.C57_sequence"
   ],
   "note": ""
  },
  {
   "property": "C58",
   "status": "proved",
   "theorems": [
    "GW.C58_chieff_between",
    "GW.C58_chip_range",
    "GW.C58_exchange",
    "GW.C58_special"
   ],
   "note": ""
  },
  {
   "property": "C59",
   "status": "proved",
   "theorems": [
    "GW.C59_shapes_roundtrip",
    "GW.C59_moments_roundtrip",
    "GW.C59_moments_of_betadist"
   ],
   "note": ""
  },
  {
   "property": "C60",
   "status": "proved",
   "theorems": [
    "GW.C60_expectation",
    "GW.C60_density",
    "GW.C60_shape",
    "GW.C60_normalised"
   ],
   "note": ""
  },
  {
   "property": "C61",
   "status": "partial",
   "theorems": [
    "GW.C61_scaling",
    "GW.C61_finite",
    "GW.C61_edge_fails",
    "GW.C61_even",
    "GW.C61_support",
    "GW.C61_terminates_partial",
    "GW.C61_recursion_fails"
   ],
   "note": "Evenness, support, scaling, finiteness away from break points proved for every input. Termination proved except when two break points are exactly one 1e-6 shift apart, where the recursion never ends (C61_recursion_fails); NaN at q*a/(1+q) for every q in (1/2,1) (C61_edge_fails)."
  },
  {
   "property": "C62",
   "status": "partial",
   "theorems": [
    "GW.C62_shape_partial",
    "GW.C62_normalised",
    "GW.C62_distribution",
    "GW.C62_negative_fails"
   ],
   "note": "Normalisation and agreement with the distribution of max of projected spins proved; for negative chi_p the code returns negative values (C62_negative_fails)."
  },
  {
   "property": "C63",
   "status": "partial",
   "theorems": [
    "GW.C63_accepted_partial",
    "GW.C63_kept",
    "GW.C63_unreachable_fails",
    "GW.C63_nan_fails",
    "GW.C63_support",
    "GW.C63_amax_fails",
    "GW.C63_amax_nan_fails",
    "GW.C63_density",
    "GW.C63_extreme_fails"
   ],
   "note": "Accepted rows, support and normalisation proved for a_max=1; endless loop for unreachable chi_eff, NaN cosines at measure-zero draws, wrong support for a_max<1, 0/0 at the extreme chi_eff (_fails theorems)."
  },
  {
   "property": "C64",
   "status": "proved",
   "theorems": [
    "GW.C64_o4a",
    "GW.C64_o3",
    "GW.C64_no_time",
    "GW.C64_monotone"
   ],
   "note": "Kept index list, aligned rows and monotonicity for both readers. SNR is compared with >= by the O4a reader and > by the O3 reader; the O3 reader applies the SNR criterion only to O1/O2 injections (this is the criterion of the code, spelled out in passesO3)."
  },
  {
   "property": "C65",
   "status": "partial",
   "theorems": [
    "GW.C65_cuts_fails"
   ],
   "note": "False of the code: additional cuts are OR-ed into the mask, so they add injections (C65_cuts_fails). Nothing weaker of the English claim holds for non-empty cuts."
  },
  {
   "property": "C66",
   "status": "proved",
   "theorems": [
    "GW.C66_prior_o4a",
    "GW.C66_prior_o3",
    "GW.C66_jacobian"
   ],
   "note": "Formula of the stored row for finite real columns, plus the Jacobian determinant computed from partial derivatives."
  },
  {
   "property": "C67",
   "status": "proved",
   "theorems": [
    "GW.C67_draws",
    "GW.C67_unbiased",
    "GW.C67_neff"
   ],
   "note": "Expectation is over independent draws from the probabilities passed to random.choice; the generator itself is trusted."
  },
  {
   "property": "C68",
   "status": "partial",
   "theorems": [
    "GW.C68_ignored_fails",
    "GW.C68_count_partial",
    "GW.C68_aligned"
   ],
   "note": "Columns stay aligned with the kept events (C68_aligned); nObs is right when no ignored event is in the file and too large otherwise (C68_ignored_fails), because it is taken from the unfiltered array."
  },
  {
   "property": "C69",
   "status": "proved",
   "theorems": [
    "GW.C69_joint",
    "GW.C69_count"
   ],
   "note": "Every stored sample is one original row, indices distinct, same number for every event, and that number is the largest allowed."
  },
  {
   "property": "C70",
   "status": "partial",
   "theorems": [
    "GW.C70_flatten_partial",
    "GW.C70_models_partial",
    "GW.C70_collision_fails",
    "GW.C70_missing_prior_fails"
   ],
   "note": "Holds when the flat names are distinct (C70_flatten_partial, C70_models_partial). False in general: name collisions silently replace a prior (C70_collision_fails) and hyper-parameters without prior or value are skipped (C70_missing_prior_fails)."
  },
  {
   "property": "C71",
   "status": "partial",
   "theorems": [
    "GW.C71_posterior_partial",
    "GW.C71_posterior_altered_fails",
    "GW.C71_curves",
    "GW.C71_redshift_lost_fails",
    "GW.C71_subpopulations_partial",
    "GW.C71_collision_fails",
    "GW.C71_wrong_draw_count"
   ],
   "note": "Every quantity is kept and named (C71_posterior_partial, C71_curves, C71_subpopulations_partial); a wrong draw count is refused. False in general: posterior_dict_to_xarray replaces the arrays in the caller's dictionary, the sub-population branch drops redshift from the result and from the caller's dictionary, and colliding names overwrite each other."
  },
  {
   "property": "C72",
   "status": "partial",
   "theorems": [
    "GW.C72_bspline_spins",
    "GW.C72_bspline_independent_spins",
    "GW.C72_bspline_masses",
    "GW.C72_plpeak_masses",
    "GW.C72_logpeak_masses",
    "GW.C72_mixture_tilts",
    "GW.C72_beta_partial",
    "GW.C72_beta_fails"
   ],
   "note": "Proved for B-spline masses, power law plus peak, log peak, B-spline spins and mixture tilts (with the marginal consistency of mass and ratio curves). False for the Beta spin magnitudes when a shape is at most 1 (C72_beta_fails: a NaN entry); C72_beta_partial covers both shapes above 1."
  },
  {
   "property": "C73",
   "status": "proved",
   "theorems": [
    "GW.C73_distinct_sites",
    "GW.C73_repeated_refused",
    "GW.C73_sizes",
    "GW.C73_missing_arguments"
   ],
   "note": ""
  },
  {
   "property": "C74",
   "status": "partial",
   "theorems": [
    "GW.C74_bspline_density_partial",
    "GW.C74_outside_support_fails"
   ],
   "note": "Holds whenever the design matrix is finite; NaN log-density on cells whose two ends are outside the support."
  },
  {
   "property": "C75",
   "status": "partial",
   "theorems": [
    "GW.C75_knots_are_default",
    "GW.C75_order_parameter_fails",
    "GW.C75_primary_mass_density_partial",
    "GW.C75_ratio_normalised"
   ],
   "note": "Proved for the default order k=4; every other k raises (C75_order_parameter_fails)."
  },
  {
   "property": "C76",
   "status": "partial",
   "theorems": [
    "GW.C76_never_constructs_fails"
   ],
   "note": "False: the constructor always raises (self.qknots is never assigned). Only the failure is proved; what the remaining methods would do is C146."
  },
  {
   "property": "C77",
   "status": "partial",
   "theorems": [
    "GW.C77_value_partial",
    "GW.C77_upper_fall_off_fails"
   ],
   "note": "False of the code: fall_off controls only the lower edge, the upper edge has the fixed steepness 4 (C77_value_partial, C77_upper_fall_off_fails)."
  },
  {
   "property": "C78",
   "status": "proved",
   "theorems": [
    "GW.C78_history_independent"
   ],
   "note": ""
  },
  {
   "property": "C79",
   "status": "partial",
   "theorems": [
    "GW.C79_categorical_ppc_fails",
    "GW.C79_labels_select_partial"
   ],
   "note": "C79_labels_select_partial holds without the predictive check; with it every categorical run raises (C79_categorical_ppc_fails)."
  },
  {
   "property": "C80",
   "status": "partial",
   "theorems": [
    "GW.C80_caller_arrays_fails",
    "GW.C80_values_partial"
   ],
   "note": "False for numpy arrays when xmax is not 1 (in-place /=); returned values are right and immutable inputs are unaffected."
  },
  {
   "property": "C81",
   "status": "partial",
   "theorems": [
    "GW.C81_inplane_fails"
   ],
   "note": "False of the code: IndexError unless every injection is found (C81_inplane_fails)."
  },
  {
   "property": "C82",
   "status": "partial",
   "theorems": [
    "GW.C82_zero_spin_fails"
   ],
   "note": "False of the code at exactly zero spin (C82_zero_spin_fails); for non-zero spins C66 gives the finite positive value."
  },
  {
   "property": "C83",
   "status": "partial",
   "theorems": [
    "GW.C83_mass_cut_partial",
    "GW.C83_gwtc1_fails"
   ],
   "note": "Holds for all catalogues but GWTC-1, whose branch ignores the maximum (C83_gwtc1_fails: any GWTC-1 event with a heavier sample keeps one)."
  },
  {
   "property": "C84",
   "status": "proved",
   "theorems": [
    "GW.C84_redshift",
    "GW.C84_rows",
    "GW.C84_jacobian",
    "GW.C84_euclidean",
    "GW.C84_validation"
   ],
   "note": "Redshift densities normalised, rows equal the product at every sample, factors shown to be the Jacobian and dDL/dz; wrong names raise AssertionError."
  },
  {
   "property": "C85",
   "status": "partial",
   "theorems": [
    "GW.C85_emptied_fails",
    "GW.C85_nonempty_partial"
   ],
   "note": "False: one event with all samples above the cut empties every event (C85_emptied_fails). Proved when every event keeps a sample."
  },
  {
   "property": "C86",
   "status": "partial",
   "theorems": [
    "GW.C86_value_partial",
    "GW.C86_density_fails",
    "GW.C86_injection_fails"
   ],
   "note": "False: the code divides by (2 pi a1^2)(2 pi a2^2) although the stored prior is a density in magnitude and cosine tilt; C86_value_partial gives what is computed, the two _fails theorems quantify over all affected samples."
  },
  {
   "property": "C87",
   "status": "partial",
   "theorems": [
    "GW.C87_missing_fails",
    "GW.C87_given_partial"
   ],
   "note": "False for neither: TypeError from open(None) before the assertion can run."
  },
  {
   "property": "C88",
   "status": "partial",
   "theorems": [
    "GW.C88_chip_fails"
   ],
   "note": "False: the reshape/dimension names never match, so the conversion always raises (C88_chip_fails, for every catalogue). No positive part exists."
  },
  {
   "property": "C89",
   "status": "proved",
   "theorems": [
    "GW.C89_rows",
    "GW.C89_errors"
   ],
   "note": ""
  },
  {
   "property": "C90",
   "status": "proved",
   "theorems": [
    "GW.C90_powerlaw_rate",
    "GW.C90_powerlaw_spline_rate"
   ],
   "note": ""
  },
  {
   "property": "C91",
   "status": "partial",
   "theorems": [
    "GW.C91_sizes_fails",
    "GW.C91_sizes_partial",
    "GW.C91_save_plots_fails",
    "GW.C91_numbers_partial"
   ],
   "note": "Defaults and the int/float options behave; false for the spline sizes (parsed as text, TypeError later) and for --save-plots (any non-empty text is True)."
  },
  {
   "property": "C92",
   "status": "partial",
   "theorems": [
    "GW.C92_masses",
    "GW.C92_independent_spins",
    "GW.C92_iid_spins",
    "GW.C92_redshift_partial",
    "GW.C92_spin_defaults_fails"
   ],
   "note": "Proved for every successful set-up; the default arguments of setup_bspline_spin_models never succeed, and the redshift model does not vanish below the common range (C35_powerlaw_below_zmin_fails)."
  },
  {
   "property": "C93",
   "status": "proved",
   "theorems": [
    "GW.C93_density",
    "GW.C93_expectation",
    "GW.C93_normalised"
   ],
   "note": "The dilogarithm called by the code is modelled by its defining integral (Verif/Dilog.lean). All six closed forms are shown equal to the convolution of the two one-spin densities, and the convolution to the law of chi_eff. What happens at the break points is C61."
  },
  {
   "property": "C94",
   "status": "partial",
   "theorems": [
    "GW.C94_band_partial",
    "GW.C94_coverage",
    "GW.C94_order",
    "GW.C94_nan_draw_fails"
   ],
   "note": "Proved at every grid point whose draws are all finite (C94_band_partial, C94_coverage, C94_order). False where one draw is NaN: median and band vanish there (C94_nan_draw_fails)."
  },
  {
   "property": "C95",
   "status": "partial",
   "theorems": [
    "GW.C95_mass_partial",
    "GW.C95_spin_partial",
    "GW.C95_default_colors_fails",
    "GW.C95_rate"
   ],
   "note": "Proved when names and colours cover every population. False with the default colours for more than three populations: the call raises and writes nothing (C95_default_colors_fails)."
  },
  {
   "property": "C96",
   "status": "partial",
   "theorems": [
    "GW.C96_mean_partial",
    "GW.C96_variance_fails",
    "GW.C96_variance_decreases_fails",
    "GW.C96_ends_fails",
    "GW.C96_curve_fails"
   ],
   "note": "mu_a is the mean. False of var_a: the variance is mu(1-mu)/(1+var), decreasing in var_a; for every draw inside the prior both Beta shapes are below 1, and the plotted curve is 0 inside and NaN at both ends."
  },
  {
   "property": "C97",
   "status": "partial",
   "theorems": [
    "GW.C97_binding",
    "GW.C97_plpeak_fails",
    "GW.C97_plpeak_weights_partial",
    "GW.C97_plpeak_complete_fails",
    "GW.C97_bspline_fails",
    "GW.C97_bspline_draws_partial",
    "GW.C97_bspline_weights_partial",
    "GW.C97_config_model_fails",
    "GW.C97_constructed_partial"
   ],
   "note": "The weights of the power-law-peak example are proved for complete data. False of all three examples: no evaluation completes, because hierarchical_likelihood is called with keywords it does not have, or PowerlawRedshift without its grids."
  },
  {
   "property": "C98",
   "status": "partial",
   "theorems": [
    "GW.C98_import_fails",
    "GW.C98_data_partial",
    "GW.C98_python_file_fails",
    "GW.C98_single_sample_fails"
   ],
   "note": "Row i is event i in the data set-up. False of the command as a whole: its first import raises ImportError; a model given as a Python file additionally asks for a data column called file_path."
  },
  {
   "property": "C99",
   "status": "partial",
   "theorems": [
    "GW.C99_fresh_partial",
    "GW.C99_second_file_fails",
    "GW.C99_shadowed_fails",
    "GW.C99_no_directory_fails"
   ],
   "note": "Proved for a module name not imported before and not present earlier on the search path. False otherwise: a second file of the same name returns the first file's model, an earlier search-path directory wins, and a path without a directory is not found."
  },
  {
   "property": "C100",
   "status": "partial",
   "theorems": [
    "GW.C100_reuse",
    "GW.C100_nothing_stored",
    "GW.C100_distinct_partial",
    "GW.C100_overwrite_fails"
   ],
   "note": "Re-use with --skip-inference is proved for all settings, separation for runs that differ in directory, label, seed, warm-up or samples (labels without a slash). False for every other setting: the second run overwrites the first."
  },
  {
   "property": "C101",
   "status": "partial",
   "theorems": [
    "GW.C101_settings_partial",
    "GW.C101_tasks_apart",
    "GW.C101_time",
    "GW.C101_left_out_fails",
    "GW.C101_blank_label_fails",
    "GW.C101_empty_label_fails",
    "GW.C101_resources",
    "GW.C101_defaults_fails",
    "GW.C101_scripts_apart",
    "GW.C101_script_replaced_fails"
   ],
   "note": "Proved when every value is one plain word (no blanks, no shell syntax) and the seed list has no underscore. False otherwise: a label with a blank makes every task fail, an omitted data file becomes a file called None, the script's own defaults (mass range, samples) replace those of the analysis, and a second script with the same job name and seeds replaces the first whatever its label."
  },
  {
   "property": "C102",
   "status": "partial",
   "theorems": [
    "GW.C102_sine",
    "GW.C102_cosine",
    "GW.C102_powerlaw_partial",
    "GW.C102_powerlaw_support_fails",
    "GW.C102_redshift_partial",
    "GW.C102_redshift_maximum_fails",
    "GW.C102_bspline_partial",
    "GW.C102_bspline_shape_fails",
    "GW.C102_smoothed_powerlaw_fails",
    "GW.C102_pspline_fails",
    "GW.C102_sine_density_partial",
    "GW.C102_cosine_density_partial",
    "GW.C102_powerlaw_density_partial"
   ],
   "note": "Proved for Sine and Cosine on every sub-range, for Powerlaw on every positive range (given a support that contains it), for the gridded distributions on equally spaced grids. False: Powerlaw's default support is [0,1] whatever its range, PowerlawRedshift draws exceed maximum, BSplineDistribution returns one number per coefficient, PowerlawSmoothedPowerlaw always returns 1, PSplineCoeficientPrior's draw is rejected by its own log_prob."
  },
  {
   "property": "C103",
   "status": "partial",
   "theorems": [
    "GW.C103_o4a_partial",
    "GW.C103_o3_partial",
    "GW.C103_o3_no_cuts",
    "GW.C103_flags",
    "GW.C103_o4a_cuts_fails",
    "GW.C103_secondary_spin_fails",
    "GW.C103_o4a_chieff_partial",
    "GW.C103_o3_chieff_partial",
    "GW.C103_chieff_names_fails",
    "GW.C103_both_masses_fails"
   ],
   "note": "Proved for component spins requested together with a_1 and, with the rows spelled out, for chi_eff. False: a_2 or a tilt without a_1 raises KeyError, the additional cuts are ignored for O4a, and with chi_eff the rows are fixed (mass_1 and redshift always there, never both mass_2 and mass_ratio)."
  },
  {
   "property": "C104",
   "status": "partial",
   "theorems": [
    "GW.C104_posterior",
    "GW.C104_chip_fails",
    "GW.C104_posterior_chieff_partial",
    "GW.C104_round_trip",
    "GW.C104_ignored_partial",
    "GW.C104_ignored_count_fails",
    "GW.C104_name",
    "GW.C104_extension_fails"
   ],
   "note": "Proved for masses, redshift and component spins (C104_posterior) and the round trip; with chi_eff the rows are spelled out (C104_posterior_chieff_partial), the spin density being wrong as in C86. False: chi_p can never be loaded, any name containing .h5 is accepted whatever its extension, and the number of events still counts the ignored ones (C104_ignored_count_fails)."
  },
  {
   "property": "C105",
   "status": "proved",
   "theorems": [
    "GW.C105_weights",
    "GW.C105_marginal",
    "GW.C105_loop",
    "GW.C105_conditional",
    "GW.C105_joint"
   ],
   "note": "Random numbers are independent uniform triples on an arbitrary probability space; the kernel estimate is scipy's formula with an arbitrary width. The kernel smoothing and the 52-point grid themselves are approximations of the code: only the law of the draws and weights, and the exactness of the marginal, are claimed."
  },
  {
   "property": "C106",
   "status": "partial",
   "theorems": [
    "GW.C106_bayes_factor",
    "GW.C106_selection_partial",
    "GW.C106_selection_variance_fails",
    "GW.C106_likelihood",
    "GW.C106_unbiased",
    "GW.C106_unbiased_selection"
   ],
   "note": "(a)-(d) proved with the strong law of large numbers; square integrability of the weights under the posterior and the injection law is assumed (without it the variance limits are meaningless). (e) is false of the code: C106_selection_variance_fails proves n times the reported variance tends to the true limit minus one."
  },
  {
   "property": "C107",
   "status": "proved",
   "theorems": [
    "GW.C107_rate_posterior",
    "GW.C107_marginal_likelihood"
   ],
   "note": "Builds on C47_value and C48_rate. The unscaled rate is any random variable with the law the model declares for that site."
  },
  {
   "property": "C108",
   "status": "partial",
   "theorems": [
    "GW.C108_law_partial",
    "GW.C108_calls_fails"
   ],
   "note": "(a) proved for an arbitrary probability space carrying independent uniform numbers per key. (b) is false of the code: C108_calls_fails."
  },
  {
   "property": "C109",
   "status": "partial",
   "theorems": [
    "GW.C109_parse",
    "GW.C109_models_required",
    "GW.C109_reuse_fails",
    "GW.C109_run_partial",
    "GW.C109_defaults_fails",
    "GW.C109_options",
    "GW.C109_defaults_partial"
   ],
   "note": "The imports of the command are taken as working here (C98 shows they are not). Fresh readers, runs and options proved; reuse and the defaults are false of the code: C109_reuse_fails, C109_defaults_fails."
  },
  {
   "property": "C110",
   "status": "proved",
   "theorems": [
    "GW.C110_switch_on",
    "GW.C110_step",
    "GW.C110_not_finite"
   ],
   "note": "Exact arithmetic: the overflow of exp close to mmin is not modelled."
  },
  {
   "property": "C111",
   "status": "proved",
   "theorems": [
    "GW.C111_smooth",
    "GW.C111_logX_smooth",
    "GW.C111_logY_smooth",
    "GW.C111_derivative",
    "GW.C111_lipschitz"
   ],
   "note": "Default (equally spaced) knots, real arithmetic. Outside the range the value is 0, so smoothness is claimed on the closed range only."
  },
  {
   "property": "C112",
   "status": "proved",
   "theorems": [
    "GW.C112_logY",
    "GW.C112_logXlogY",
    "GW.C112_bspline"
   ],
   "note": "Default knots, real arithmetic."
  },
  {
   "property": "C113",
   "status": "proved",
   "theorems": [
    "GW.C113_bspline",
    "GW.C113_bspline_normalised",
    "GW.C113_logY",
    "GW.C113_logXlogY"
   ],
   "note": "Default knots, real arithmetic."
  },
  {
   "property": "C114",
   "status": "proved",
   "theorems": [
    "GW.C114_logY_concave",
    "GW.C114_logXlogY_concave",
    "GW.C114_gradient"
   ],
   "note": "Default knots, real arithmetic; coefficients above -1.8e308, as for C10."
  },
  {
   "property": "C115",
   "status": "proved",
   "theorems": [
    "GW.C115_powerlaw",
    "GW.C115_truncnorm",
    "GW.C115_betadist",
    "GW.C115_plpeak",
    "GW.C115_isoalign",
    "GW.C115_redshift"
   ],
   "note": "About the mathematical functions in real arithmetic, not about what automatic differentiation computes for them. The numpyro Powerlaw distribution does not have this property, see C26_slope_jump_fails."
  },
  {
   "property": "C116",
   "status": "proved",
   "theorems": [
    "GW.C116_powerlaw",
    "GW.C116_truncnorm",
    "GW.C116_betadist",
    "GW.C116_plpeak",
    "GW.C116_plpeak_ratio",
    "GW.C116_isoalign",
    "GW.C116_redshift"
   ],
   "note": "Real arithmetic. For a fraction of exactly 1 in the peak the slope is unused and cannot be determined."
  },
  {
   "property": "C117",
   "status": "proved",
   "theorems": [
    "GW.C117_smooth",
    "GW.C117_gradient"
   ],
   "note": "About the mathematical function in real arithmetic, not about what automatic differentiation computes for it. Single weight array (categorical=False), no posterior predictive check."
  },
  {
   "property": "C118",
   "status": "proved",
   "theorems": [
    "GW.C118_stability"
   ],
   "note": "Real arithmetic: the theorem bounds the effect of relative errors in the weights, not of rounding inside the likelihood. Single weight array (categorical=False), no posterior predictive check."
  },
  {
   "property": "C119",
   "status": "proved",
   "theorems": [
    "GW.C119_powerlaw",
    "GW.C119_powerlaw_spline",
    "GW.C119_spline"
   ],
   "note": "Real arithmetic. BSplineRedshift with normalize=False on a spline range covering the overlap (its default normalisation is wrong, C35_default_normalisation_fails); LogXBSpline interpolators with knot spacing above the comparison tolerance."
  },
  {
   "property": "C120",
   "status": "partial",
   "theorems": [
    "GW.C120_saved_partial",
    "GW.C120_distinct",
    "GW.C120_new_directory_fails",
    "GW.C120_no_rate_fails",
    "GW.C120_collision_fails"
   ],
   "note": "Proved for the command from the sampling on, when the output directory exists, the flat names are distinct, the model comes from the configuration and the label has no slash (as shipped the command stops earlier, at an import: C98). The claim fails otherwise: nothing creates the directory, and the trace plot is made before the samples are saved, so a missing directory, a model without a quantity called rate, or a sampled name overwritten by a fixed value loses the samples. File contents are the stored names; the numbers are not modelled."
  },
  {
   "property": "C121",
   "status": "partial",
   "theorems": [
    "GW.C121_scaled",
    "GW.C121_partial",
    "GW.C121_fails",
    "GW.C121_wide_fails",
    "GW.C121_logy_fails",
    "GW.C121_logy_outside",
    "GW.C121_logy_partial"
   ],
   "note": "False: the innermost basis functions are stored in np.zeros_like(xs), so 1/spacing is truncated for integer points. With default knots of spacing h every value is h*floor(1/h) times the right one (C121_scaled): equal when 1/h is an integer (C121_partial), smaller otherwise, and zero for knots more than 1 apart. Splines in log x are not concerned. For splines of the logarithm of the density, C121_logy_outside and C121_logy_partial say the same."
  },
  {
   "property": "C122",
   "status": "partial",
   "theorems": [
    "GW.C122_o4a",
    "GW.C122_o3",
    "GW.C122_ignored_fails"
   ],
   "note": "Proved for O4a and O3 injection files (C122_o4a, C122_o3) with component parameters, for every density that reads the requested columns only. False when events are ignored at reading (C122_ignored_fails): the selection term keeps the number of events of the file. Missing: effective-spin parameters (their prior is not the density, C86)."
  },
  {
   "property": "C123",
   "status": "partial",
   "theorems": [
    "GW.C123_plpeak_partial",
    "GW.C123_plpeak_draw_count_fails",
    "GW.C123_plpeak_sampled_partial",
    "GW.C123_posterior_kept",
    "GW.C123_plpeak_chains_fails",
    "GW.C123_bspline_partial",
    "GW.C123_bspline_draw_count_fails",
    "GW.C123_bspline_chains_fails"
   ],
   "note": "Proved when the posterior has exactly --samples draws (C123_plpeak_partial, C123_bspline_partial, C123_plpeak_sampled_partial): all files are written, every stored value is the calculator's. False otherwise: with two or more chains the sampler returns chains x samples draws but main packs --samples of them, so after posterior and figures it ends with ValueError and the curves are never saved (C123_*_chains_fails, C123_*_draw_count_fails). At this commit the sampling branch is itself unreachable (C97: the model's call to the likelihood raises TypeError), the --skip-inference branch is not. The posterior file is kept in all these cases (C123_posterior_kept)."
  },
  {
   "property": "C124",
   "status": "partial",
   "theorems": [
    "GW.C124_plpeak_partial",
    "GW.C124_bspline",
    "GW.C124_magnitudes_fails"
   ],
   "note": "Proved for all curves of the spline example (C124_bspline) and for masses, tilts and rate of the power-law example (C124_plpeak_partial). False of the power-law example's spin magnitudes for every draw inside its priors (C124_magnitudes_fails): the shapes mu*var and (1-mu)*var are always below 1, so the stored curve is NaN at both ends of the grid and exactly 0 at the 798 points in between."
  },
  {
   "property": "C125",
   "status": "partial",
   "theorems": [
    "GW.C125_gradient",
    "GW.C125_truncated_plain",
    "GW.C125_truncated_log_fails",
    "GW.C125_cut_flat",
    "GW.C125_empty_event_fails"
   ],
   "note": "Reverse-mode differentiation modelled in the same extended arithmetic as the values (Model/AutoDiff.lean); its value is the model's likelihood for all inputs (likelihoodD_f). Proved for plain and log weights incl. weights 0 / -inf and the marginalised selection term: C125_gradient; C125_cut_flat: zero where a cut fires. False: log weights of a product of densities, one of them truncated, give a NaN gradient with a finite likelihood (C125_truncated_log_fails; fine with plain weights, C125_truncated_plain); an event without support gives NaN instead of zero under every flag (C125_empty_event_fails)."
  },
  {
   "property": "C126",
   "status": "partial",
   "theorems": [
    "GW.C126_fractions_partial",
    "GW.C126_log_fails"
   ],
   "note": "Proved for plain weights (C126_fractions_partial). False for log weights (C126_log_fails): pe_weights is exponentiated before the check but indv_weights is not, so a log weight is divided by a weight; every recorded value is negative whenever the weights are below 1."
  },
  {
   "property": "C127",
   "status": "partial",
   "theorems": [
    "GW.C127_powerlaw_partial",
    "GW.C127_powerlaw_log_partial",
    "GW.C127_truncnorm",
    "GW.C127_beta_partial",
    "GW.C127_powerlaw_fails",
    "GW.C127_powerlaw_log_fails",
    "GW.C127_beta_outside_fails",
    "GW.C127_beta_zero_fails",
    "GW.C127_likelihood",
    "GW.C127_plpeak_partial",
    "GW.C127_plpeak_fails"
   ],
   "note": "Reverse mode modelled in the extended arithmetic (Model/AutoDiffDensities.lean); both branches of a where are pulled back. Proved: C127_truncnorm (all points off the bounds); C127_powerlaw_partial, C127_powerlaw_log_partial (slope != -1, inside and outside); C127_beta_partial (inside); C127_likelihood (any entry-wise sound weights) and C127_plpeak_partial (the seven mass hyper-parameters through hierarchical_likelihood for any catalogue off the edges). False: at slope -1 all three entries are NaN at every point although the density is smooth (C127_powerlaw_fails, C127_powerlaw_log_fails), so a likelihood differentiable there has a NaN gradient in alpha or beta for every catalogue (C127_plpeak_fails); betadist at points outside its range gives NaN in all entries (C127_beta_outside_fails), and at 0 with alpha > 1 in alpha (C127_beta_zero_fails)."
  },
  {
   "property": "C128",
   "status": "partial",
   "theorems": [
    "GW.C128_spline",
    "GW.C128_model",
    "GW.C128_redshift",
    "GW.C128_difference_prior",
    "GW.C128_outside_fails",
    "GW.C128_bspline"
   ],
   "note": "Reverse mode of the spline classes modelled in Model/AutoDiffSplines.lean (nan_to_num passes no cotangent where its input is not finite). Proved: C128_spline (all classes, in range), C128_model (all samples, out-of-range, infinite and NaN ones included: the models only evaluate the spline in range), C128_redshift (PowerlawSplineRedshiftModel in slope and coefficients), C128_difference_prior, C128_bspline (through hierarchical_likelihood for the example's models, any catalogue). False for the log-Y classes evaluated directly at a point outside their range: the value is 0 for all coefficients nearby, every entry of the gradient is NaN (C128_outside_fails)."
  },
  {
   "property": "C129",
   "status": "partial",
   "theorems": [
    "GW.C129_smooth",
    "GW.C129_log_logistic",
    "GW.C129_logit",
    "GW.C129_falloff_partial",
    "GW.C129_falloff_fails",
    "GW.C129_plpeak_smooth_partial",
    "GW.C129_plpeak_smooth_fails",
    "GW.C129_tilt",
    "GW.C129_magnitude_partial",
    "GW.C129_redshift",
    "GW.C129_plpeak_example_partial",
    "GW.C129_plpeak_example_fails",
    "GW.C129_plpeak_edge_fails"
   ],
   "note": "Reverse mode of the parametric models in Model/AutoDiffParametric.lean. Proved: C129_smooth, C129_log_logistic, C129_logit, C129_tilt, C129_redshift at all their points; C129_plpeak_example_partial: the likelihood of the example, all fourteen hyper-parameters, every catalogue, samples outside the mass range or beyond the redshift maximum included. False: at alpha = -1 or beta = -1 the log likelihood is differentiable but the entry of its gradient for that slope is NaN (C129_plpeak_example_fails, also C129_falloff_fails and C129_plpeak_smooth_fails for the other mass models); one sample with m1 exactly mmin makes the gradient in beta NaN for all hyper-parameters (C129_plpeak_edge_fails). The edges of the taper and spin magnitudes at 0 or outside the range (C127_beta_zero_fails, C127_beta_outside_fails) are excluded from the partial theorems."
  },
  {
   "property": "C130",
   "status": "partial",
   "theorems": [
    "GW.C130_bayes_factor",
    "GW.C130_selection_partial",
    "GW.C130_selection_variance_fails",
    "GW.C130_likelihood",
    "GW.C130_likelihood_variance_fails"
   ],
   "note": "C130_bayes_factor, C130_selection_partial and C130_likelihood prove it for the Bayes factors, for the log efficiency with one over the returned effective number, and for the log likelihood with the errors put together from those. It is false of the variance detection_efficiency returns, which subtracts 1/Ninj although the effective number already contains it, and of the recorded variance_log_likelihood that contains it: C130_selection_variance_fails and C130_likelihood_variance_fails give the limits that hold instead, and that they differ from the normal probability for every c other than 0."
  },
  {
   "property": "C131",
   "status": "proved",
   "theorems": [
    "GW.C131_posterior",
    "GW.C131_powerlaw_population"
   ],
   "note": "C131_posterior; C131_powerlaw_population shows that the density of powerlaw_pdf with a moving slope (\u22121 included) and moving ends is such a population although it jumps at its ends. The hyper-parameters range over a compact set, and every Bayes factor and the efficiency must be positive at each of them: the claim is about those cases, the sampler's own convergence is not part of it."
  },
  {
   "property": "C132",
   "status": "partial",
   "theorems": [
    "GW.C132_small_partial",
    "GW.C132_effective_number_fails",
    "GW.C132_selection_cut_fails",
    "GW.C132_variance_cut_fails"
   ],
   "note": "C132_small_partial proves it up to 46340 injections. It is false of all larger numbers: Ninj**2 is computed in 32-bit integers inside the compiled function. C132_effective_number_fails: the effective number is then never the right one. C132_selection_cut_fails and C132_variance_cut_fails: with n injections of which at most n^2/2^32 are found (a hundred million and two million, say), the default cut and the variance cut fire at every hyper-parameter, so that the selection effects drop out of the sampled density. The model assumes JAX's default 32-bit integers, which nothing in the repository changes."
  },
  {
   "property": "C133",
   "status": "partial",
   "theorems": [
    "GW.C133_exact",
    "GW.C133_accuracy_partial"
   ],
   "note": "C133_exact: without rounding the model with explicit summation orders is the model of the other properties. C133_accuracy_partial proves the bound in the stated range for every flag setting; only the largest weight of an event is restricted, and with log weights hardly, so entries that underflow are covered; binary32_contract shows that IEEE single precision satisfies the contract. Partial: largest weights outside the range, more than half of the injections found, and fused multiply-add are not covered."
  },
  {
   "property": "C134",
   "status": "partial",
   "theorems": [
    "GW.C134_cut_partial",
    "GW.C134_underflow_fails",
    "GW.C134_linear_underflow_fails"
   ],
   "note": "C134_cut_partial and C133_accuracy_partial: in the range of C133 the cuts are decided correctly up to the margin. False of small weights. C134_underflow_fails: if the weights of the found injections are zero or between 2^-85 and 2^-77, their squares underflow, the effective number comes out infinite and the selection cut is absent, with weights and with log weights; the likelihood there is large because the efficiency is small. C134_linear_underflow_fails: with weights rather than log weights, an event whose weights are all below 2^-92 is always cut."
  },
  {
   "property": "C135",
   "status": "partial",
   "theorems": [
    "GW.C135_reach",
    "GW.C135_reach_default",
    "GW.C135_keys",
    "GW.C135_stationary_partial",
    "GW.C135_steady_slope",
    "GW.C135_far_fails",
    "GW.C135_interval_fails",
    "GW.C135_second_step"
   ],
   "note": "False of the defaults. C135_reach and C135_reach_default: whatever the gradients are, a parameter ends within 7.28 lr Niter of its start in the unconstrained coordinate, within 2.31 with the defaults. C135_far_fails: a MAP 50 units away is missed by more than 40. C135_interval_fails: a parameter with a uniform prior, started in the middle, stays in the inner 82 percent of the range in every model. Proved: the names of the result, that a stationary starting point is returned unchanged (C135_stationary_partial), and the exact path on a steady slope. Not proved: that a MAP within reach is approached, which fails for some models and holds for others."
  },
  {
   "property": "C136",
   "status": "partial",
   "theorems": [
    "GW.C136_jit_fails",
    "GW.C136_unflatten_fails",
    "GW.C136_round_trip_partial",
    "GW.C136_repaired",
    "GW.C136_few_points"
   ],
   "note": "False: every transformation raises. tree_flatten returns three values where JAX asks for a pair (C136_jit_fails) and tree_unflatten takes one argument where JAX passes two (C136_unflatten_fails). The two methods called by hand give back the spline (C136_round_trip_partial), and C136_repaired shows that nothing else is in the way."
  },
  {
   "property": "C137",
   "status": "partial",
   "theorems": [
    "GW.C137_component",
    "GW.C137_components",
    "GW.C137_primary_ratio",
    "GW.C137_defaults",
    "GW.C137_ranges",
    "GW.C137_private",
    "GW.C137_override_fails",
    "GW.C137_shared_range_fails",
    "GW.C137_limits_ignored_fails",
    "GW.C137_order_fails"
   ],
   "note": "Proved for six single and ten two-component classes: which arguments reach each basis spline, for every set of keywords (C137_component, C137_components, C137_primary_ratio), the defaults, and that private dictionaries are private. False: a keyword that is both shared and private raises TypeError instead of taking precedence (C137_override_fails); an xrange silently discards the mass limits (C137_limits_ignored_fails), and a shared xrange gives the ratio the range of the mass (C137_shared_range_fails); the order keyword k is refused (C137_order_fails). Not modelled: BSplineSymmetricChiEffective and BSplineRedshift, which no two-component class uses."
  },
  {
   "property": "C138",
   "status": "partial",
   "theorems": [
    "GW.C138_powerlaw_partial",
    "GW.C138_slope_minus_one_fails",
    "GW.C138_lower_bound_zero_fails",
    "GW.C138_truncnorm_partial",
    "GW.C138_mass_models_partial",
    "GW.C138_tilt_partial",
    "GW.C138_powerlaw_dist_partial",
    "GW.C138_default_minimum_fails",
    "GW.C138_batched_partial"
   ],
   "note": "Proved for 0 < low < high: exactly when each function raises, for every combination of Python numbers and arrays, and that it otherwise returns the value of the array model. False: slope -1 with Python bounds raises ZeroDivisionError although that branch is not selected (C138_slope_minus_one_fails), a Python lower bound 0 always raises (C138_lower_bound_zero_fails), and Powerlaw with its default minimum=0.0 and a scalar slope raises in every method (C138_default_minimum_fails)."
  },
  {
   "property": "C139",
   "status": "partial",
   "theorems": [
    "GW.C139_scalar_ratio_partial",
    "GW.C139_array_ratio_partial",
    "GW.C139_array_ratio_fails",
    "GW.C139_all_boundary_partial",
    "GW.C139_one_spin_many_ratios_fails"
   ],
   "note": "Proved for a scalar mass ratio (all entries), for an array of mass ratios without boundary entries, and for one with boundary entries only. False: with an array of mass ratios, some but not all of them at a boundary entry, the nested call gets arrays of different lengths and raises ValueError (C139_array_ratio_fails); one effective spin with many mass ratios raises as well (C139_one_spin_many_ratios_fails)."
  },
  {
   "property": "C140",
   "status": "partial",
   "theorems": [
    "GW.C140_error",
    "GW.C140_error_log",
    "GW.C140_exact",
    "GW.C140_infinite_fails",
    "GW.C140_norm_fails"
   ],
   "note": "Proved: an error bound 9\u03ba + 4\u03ba (1 + |1+\u03b1| L)(1 + 2 / (|1+\u03b1| ln(high/low))) on the logarithm of computed over exact density (C140_error), and one for slope exactly -1 (C140_error_log), for every arithmetic meeting the contract. False near slope -1: with slope -1 + 2^-24 single precision returns +inf at every point for low = 1 and any high up to 3/2 (C140_infinite_fails), and at least 1.4 times the exact density on [5, 100] (C140_norm_fails)."
  },
  {
   "property": "C141",
   "status": "partial",
   "theorems": [
    "GW.C141_powerlaw",
    "GW.C141_spline_call",
    "GW.C141_spline_log_prob_fails"
   ],
   "note": "Proved for PowerlawRedshiftModel, and for the call of PowerlawSplineRedshiftModel. False for log_prob of PowerlawSplineRedshiftModel: it is inherited, calls the overridden normalization without coefficients, and raises TypeError for every list of arguments (C141_spline_log_prob_fails)."
  },
  {
   "property": "C142",
   "status": "partial",
   "theorems": [
    "GW.C142_error",
    "GW.C142_tail_fails",
    "GW.C142_exact"
   ],
   "note": "Proved: an error bound \u03ba (13 + 12 ((x-\u03bc)/\u03c3)\u00b2 + 40 / P) on the logarithm of computed over exact density, P the probability of the interval under the untruncated normal, for points within eight standard deviations (C142_error). False for small P: if the interval is eight or more standard deviations from the mean the result is +inf or NaN at every point (C142_tail_fails). The log-normal branch is modelled but its error is not bounded."
  },
  {
   "property": "C143",
   "status": "proved",
   "theorems": [
    "GW.C143_basis",
    "GW.C143_design"
   ],
   "note": "C143_basis bounds one basis function of the recursion (relative error 10 k \u03ba), C143_design one entry of the design matrix (14 order \u03ba), each up to an absolute amount that is a power of two (depending on the knot spacing) times the smallest normal number."
  },
  {
   "property": "C144",
   "status": "partial",
   "theorems": [
    "GW.C144_exact",
    "GW.C144_project",
    "GW.C144_density",
    "GW.C144_overflow_fails"
   ],
   "note": "Proved for coefficients up to 30 in absolute value: relative error 2 (10 order + 5 + 2 D) \u03ba A + (16 + 2 D') \u03ba with A the largest coefficient and D, D' the depths of the two summations (C144_density); the unnormalised density up to 78 (C144_project). False without the condition: with all coefficients 100 the exact density is uniform, and single precision returns NaN at every point (C144_overflow_fails)."
  },
  {
   "property": "C145",
   "status": "proved",
   "theorems": [
    "GW.C145_weight",
    "GW.C145_likelihood",
    "GW.C145_spline"
   ],
   "note": "C145_weight: product and quotient of computed densities. C145_likelihood: the likelihood of computed weights against the likelihood of exact weights (C118 and C133 combined). C145_spline: the composition with C144 for one log-spline density."
  },
  {
   "property": "C146",
   "status": "partial",
   "theorems": [
    "GW.C146_minimum_on_grid_fails",
    "GW.C146_default_fails",
    "GW.C146_density_partial",
    "GW.C146_keywords"
   ],
   "note": "C146_density_partial: minimum masses that are not points of the mass grid. On a grid point the claim is false of the code: C146_minimum_on_grid_fails, C146_default_fails. C146_keywords covers the calls that raise. All of it is about the class without line 220 of its constructor."
  },
  {
   "property": "C147",
   "status": "proved",
   "theorems": [
    "GW.C147_truncnorm",
    "GW.C147_primary",
    "GW.C147_ratio",
    "GW.C147_masses",
    "GW.C147_exact",
    "GW.C147_redshift_exact",
    "GW.C147_value",
    "GW.C147_tilt",
    "GW.C147_tilts",
    "GW.C147_beta",
    "GW.C147_magnitudes",
    "GW.C147_redshift_prob",
    "GW.C147_redshift",
    "GW.C147_redshift_outside"
   ],
   "note": "C147_truncnorm (tails included), C147_primary, C147_ratio, C147_masses, C147_tilt, C147_tilts, C147_beta, C147_magnitudes, C147_redshift_prob, C147_redshift, C147_redshift_outside; the ranges are the structures PLRange, PeakOK, RatioRange, TiltOK, BetaOK, RedshiftOK. C147_exact, C147_redshift_exact and C147_value tie the rounded functions and the reference values to the exact model."
  },
  {
   "property": "C148",
   "status": "proved",
   "theorems": [
    "GW.C148_weight",
    "GW.C148_exact",
    "GW.C148_likelihood"
   ],
   "note": "C148_weight: one weight. C148_likelihood: all of them through the likelihood. C148_exact: without rounding the weight is the product of the exact densities over the prior."
  },
  {
   "property": "C149",
   "status": "proved",
   "theorems": [
    "GW.C149_project",
    "GW.C149_density",
    "GW.C149_exponent",
    "GW.C149_redshift_prob",
    "GW.C149_redshift",
    "GW.C149_exact",
    "GW.C149_outside",
    "GW.C149_edge_fails"
   ],
   "note": "C149_project, C149_density (mass), C149_exponent, C149_redshift_prob, C149_redshift; Spline.Steady and Spline.LogPoint are the conditions. C149_exact: the values without rounding. C149_outside and C149_edge_fails: a logarithm rounded past the end of the range costs the density there, so the condition on the computed logarithm cannot be dropped."
  },
  {
   "property": "C150",
   "status": "proved",
   "theorems": [
    "GW.C150_weight",
    "GW.C150_exact",
    "GW.C150_outside",
    "GW.C150_likelihood"
   ],
   "note": "C150_weight: one weight. C150_likelihood: all of them through the likelihood. C150_exact: without rounding the weight is the product of the exact densities over the prior. The example covers all coefficients up to one and all samples inside the ranges. C150_outside: moving one parameter of a sample beyond the limits of its model makes the weight exactly zero."
  },
  {
   "property": "C151",
   "status": "proved",
   "theorems": [
    "GW.C151_mono",
    "GW.C151_inside",
    "GW.C151_grid",
    "GW.C151_limit_fails",
    "GW.C151_density_fails"
   ],
   "note": "C151_mono: rounding to single precision is monotone. C151_inside, C151_grid: the positive part. C151_limit_fails (the limit 1.3) and C151_density_fails (what the lost end costs) are the stated failure."
  },
  {
   "property": "C152",
   "status": "proved",
   "theorems": [
    "GW.C152_unit",
    "GW.C152_log",
    "GW.C152_exact",
    "GW.C152_linear_fails",
    "GW.C152_powerlaw",
    "GW.C152_falloff",
    "GW.C152_exact_density"
   ],
   "note": "C152_unit, C152_log: the two forms. C152_powerlaw, C152_falloff: the densities with soft ends. C152_linear_fails: the overflow of the linear form, which the claim states. C152_exact, C152_exact_density: without rounding these are the functions of C20, C21 and C77."
  },
  {
   "property": "C153",
   "status": "proved",
   "theorems": [
    "GW.C153_taper",
    "GW.C153_exact",
    "GW.C153_edge_fails"
   ],
   "note": "C153_taper: the bound (TaperPoint is the condition). C153_edge_fails: the stated failure at the upper end. C153_exact: without rounding this is the taper of C19."
  },
  {
   "property": "C154",
   "status": "proved",
   "theorems": [
    "GW.C154_primary",
    "GW.C154_masses",
    "GW.C154_exact"
   ],
   "note": "C154_primary and C154_masses: the bounds (TaperedOK is the condition). C154_exact: without rounding these are plpeak_primary_pdf and plpeak_primary_ratio_pdf with a number delta, for masses in the window."
  },
  {
   "property": "C155",
   "status": "proved",
   "theorems": [
    "GW.C155_penalty",
    "GW.C155_first",
    "GW.C155_constant",
    "GW.C155_exact",
    "GW.C155_second_fails"
   ],
   "note": "C155_first: the relative bound for first differences. C155_penalty: the absolute bound for every degree. C155_constant: equal coefficients. C155_second_fails: the stated failure of a relative bound at degree 2. C155_exact: without rounding this is the penalty of C30."
  },
  {
   "property": "C156",
   "status": "proved",
   "theorems": [
    "GW.C156_independent",
    "GW.C156_iid",
    "GW.C156_ratio_le",
    "GW.C156_powerlaw_ratio",
    "GW.C156_spline_ratio",
    "GW.C156_symmetric",
    "GW.C156_exact"
   ],
   "note": "C156_independent, C156_iid, C156_powerlaw_ratio, C156_spline_ratio, C156_symmetric: the bounds. C156_ratio_le: the computed ratio of ordered masses is at most one. C156_exact: without rounding these are the documented products."
  },
  {
   "property": "C157",
   "status": "proved",
   "theorems": [
    "GW.C157_grid",
    "GW.C157_numerator",
    "GW.C157_norm",
    "GW.C157_quotient",
    "GW.C157_rate",
    "GW.C157_outside_fails",
    "GW.C157_exact"
   ],
   "note": "C157_norm, C157_rate: the bounds. C157_outside_fails: samples outside the limits are not cut (the claim says so). C157_exact: without rounding this is the documented rate. The default normalize=True is outside the claim (C35)."
  },
  {
   "property": "C158",
   "status": "proved",
   "theorems": [
    "GW.C158_weight",
    "GW.C158_primary",
    "GW.C158_masses",
    "GW.C158_outside",
    "GW.C158_exact"
   ],
   "note": "C158_primary, C158_masses: the bounds. C158_outside: zero outside the sampled limits. C158_exact: without rounding this is the documented density."
  },
  {
   "property": "C159",
   "status": "proved",
   "theorems": [
    "GW.C159_error",
    "GW.C159_outside"
   ],
   "note": "C159_error: the bound. C159_outside: zero outside the limits. C142_exact covers log=True: without rounding the rounded model is the model of distributions.py."
  }
 ]
}