'GW.C01_clamped_right_end_fails' depends on axioms: [propext, Classical.choice, Quot.sound]
'GW.C01_order_one_right_end_fails' depends on axioms: [propext, Classical.choice, Quot.sound]
'GW.C01_partition_of_unity' depends on axioms: [propext, Classical.choice, Quot.sound]
'GW.C01_partition_of_unity_explicit' depends on axioms: [propext, Classical.choice, Quot.sound]
'GW.C01_tiny_domain_fails' depends on axioms: [propext, Classical.choice, Quot.sound]
'GW.C02_C03_default_hyps' depends on axioms: [propext, Classical.choice, Quot.sound]
'GW.C02_nonneg' depends on axioms: [propext, Classical.choice, Quot.sound]
'GW.C03_at_most_k_nonzero' depends on axioms: [propext, Classical.choice, Quot.sound]
'GW.C03_local_support' depends on axioms: [propext, Classical.choice, Quot.sound]
'GW.C04_constant' depends on axioms: [propext, Classical.choice, Quot.sound]
'GW.C04_convex_hull' depends on axioms: [propext, Classical.choice, Quot.sound]
'GW.C05_linear' depends on axioms: [propext, Classical.choice, Quot.sound]
'GW.C05_scale_free' depends on axioms: [propext, Classical.choice, Quot.sound]
'GW.C05_scale_free_logX' depends on axioms: [propext, Classical.choice, Quot.sound]
'GW.C05_scale_free_mspline' depends on axioms: [propext, Classical.choice, Quot.sound]
'GW.C06_bspline_unit_integral' depends on axioms: [propext, Classical.choice, Quot.sound]
'GW.C06_logX_unit_integral' depends on axioms: [propext, Classical.choice, Quot.sound]
'GW.C06_logXlogY_unit_integral' depends on axioms: [propext, Classical.choice, Quot.sound]
'GW.C06_logY_unit_integral' depends on axioms: [propext, Classical.choice, Quot.sound]
'GW.C06_mspline_unit_integral' depends on axioms: [propext, Classical.choice, Quot.sound]
'GW.C07_centre_of_mass' depends on axioms: [propext, Classical.choice, Quot.sound]
'GW.C07_tiny_span_fails' depends on axioms: [propext, Classical.choice, Quot.sound]
'GW.C07_unit_area' depends on axioms: [propext, Classical.choice, Quot.sound]
'GW.C08_uniform_interior_knots_partial' depends on axioms: [propext, Classical.choice, Quot.sound]
'GW.C08_user_interior_knots_ignored_fails' depends on axioms: [propext, Classical.choice, Quot.sound]
'GW.C09_logX_partition_of_unity' depends on axioms: [propext, Classical.choice, Quot.sound]
'GW.C09_logX_scale_covariant' depends on axioms: [propext, Classical.choice, Quot.sound]
'GW.C09_logX_zero_outside' depends on axioms: [propext, Classical.choice, Quot.sound]
'GW.C09_negative_x_is_nan_fails' depends on axioms: [propext, Classical.choice, Quot.sound]
'GW.C100_distinct_partial' depends on axioms: [propext, Classical.choice, Quot.sound]
'GW.C100_nothing_stored' depends on axioms: [propext, Classical.choice, Quot.sound]
'GW.C100_overwrite_fails' depends on axioms: [propext, Classical.choice, Quot.sound]
'GW.C100_reuse' depends on axioms: [propext, Classical.choice, Quot.sound]
'GW.C101_blank_label_fails' depends on axioms: [propext, Classical.choice, Quot.sound]
'GW.C101_defaults_fails' depends on axioms: [propext, Classical.choice, Quot.sound]
'GW.C101_empty_label_fails' depends on axioms: [propext, Classical.choice, Quot.sound]
'GW.C101_left_out_fails' depends on axioms: [propext, Classical.choice, Quot.sound]
'GW.C101_resources' depends on axioms: [propext, Classical.choice, Quot.sound]
'GW.C101_script_replaced_fails' depends on axioms: [propext, Classical.choice, Quot.sound]
'GW.C101_scripts_apart' depends on axioms: [propext, Classical.choice, Quot.sound]
'GW.C101_settings_partial' depends on axioms: [propext, Classical.choice, Quot.sound]
'GW.C101_tasks_apart' depends on axioms: [propext, Classical.choice, Quot.sound]
'GW.C101_time' depends on axioms: [propext, Classical.choice, Quot.sound]
'GW.C102_bspline_partial' depends on axioms: [propext, Classical.choice, Quot.sound]
'GW.C102_bspline_shape_fails' depends on axioms: [propext, Classical.choice, Quot.sound]
'GW.C102_cosine' depends on axioms: [propext, Classical.choice, Quot.sound]
'GW.C102_cosine_density_partial' depends on axioms: [propext, Classical.choice, Quot.sound]
'GW.C102_powerlaw_density_partial' depends on axioms: [propext, Classical.choice, Quot.sound]
'GW.C102_powerlaw_partial' depends on axioms: [propext, Classical.choice, Quot.sound]
'GW.C102_powerlaw_support_fails' depends on axioms: [propext, Classical.choice, Quot.sound]
'GW.C102_pspline_fails' depends on axioms: [propext, Classical.choice, Quot.sound]
'GW.C102_redshift_maximum_fails' depends on axioms: [propext, Classical.choice, Quot.sound]
'GW.C102_redshift_partial' depends on axioms: [propext, Classical.choice, Quot.sound]
'GW.C102_sine' depends on axioms: [propext, Classical.choice, Quot.sound]
'GW.C102_sine_density_partial' depends on axioms: [propext, Classical.choice, Quot.sound]
'GW.C102_smoothed_powerlaw_fails' depends on axioms: [propext, Classical.choice, Quot.sound]
'GW.C103_both_masses_fails' depends on axioms: [propext, Classical.choice, Quot.sound]
'GW.C103_chieff_names_fails' depends on axioms: [propext, Classical.choice, Quot.sound]
'GW.C103_flags' depends on axioms: [propext, Classical.choice, Quot.sound]
'GW.C103_o3_chieff_partial' depends on axioms: [propext, Classical.choice, Quot.sound]
'GW.C103_o3_no_cuts' depends on axioms: [propext, Classical.choice, Quot.sound]
'GW.C103_o3_partial' depends on axioms: [propext, Classical.choice, Quot.sound]
'GW.C103_o4a_chieff_partial' depends on axioms: [propext, Classical.choice, Quot.sound]
'GW.C103_o4a_cuts_fails' depends on axioms: [propext, Classical.choice, Quot.sound]
'GW.C103_o4a_partial' depends on axioms: [propext, Classical.choice, Quot.sound]
'GW.C103_secondary_spin_fails' depends on axioms: [propext, Classical.choice, Quot.sound]
'GW.C104_chip_fails' depends on axioms: [propext, Classical.choice, Quot.sound]
'GW.C104_extension_fails' depends on axioms: [propext, Classical.choice, Quot.sound]
'GW.C104_ignored_count_fails' depends on axioms: [propext, Classical.choice, Quot.sound]
'GW.C104_ignored_partial' depends on axioms: [propext, Classical.choice, Quot.sound]
'GW.C104_name' depends on axioms: [propext, Classical.choice, Quot.sound]
'GW.C104_posterior' depends on axioms: [propext, Classical.choice, Quot.sound]
'GW.C104_posterior_chieff_partial' depends on axioms: [propext, Classical.choice, Quot.sound]
'GW.C104_round_trip' depends on axioms: [propext, Classical.choice, Quot.sound]
'GW.C105_conditional' depends on axioms: [propext, Classical.choice, Quot.sound]
'GW.C105_joint' depends on axioms: [propext, Classical.choice, Quot.sound]
'GW.C105_loop' depends on axioms: [propext, Classical.choice, Quot.sound]
'GW.C105_marginal' depends on axioms: [propext, Classical.choice, Quot.sound]
'GW.C105_weights' depends on axioms: [propext, Classical.choice, Quot.sound]
'GW.C106_bayes_factor' depends on axioms: [propext, Classical.choice, Quot.sound]
'GW.C106_likelihood' depends on axioms: [propext, Classical.choice, Quot.sound]
'GW.C106_selection_partial' depends on axioms: [propext, Classical.choice, Quot.sound]
'GW.C106_selection_variance_fails' depends on axioms: [propext, Classical.choice, Quot.sound]
'GW.C106_unbiased' depends on axioms: [propext, Classical.choice, Quot.sound]
'GW.C106_unbiased_selection' depends on axioms: [propext, Classical.choice, Quot.sound]
'GW.C107_marginal_likelihood' depends on axioms: [propext, Classical.choice, Quot.sound]
'GW.C107_rate_posterior' depends on axioms: [propext, Classical.choice, Quot.sound]
'GW.C108_calls_fails' depends on axioms: [propext, Classical.choice, Quot.sound]
'GW.C108_law_partial' depends on axioms: [propext, Classical.choice, Quot.sound]
'GW.C109_defaults_fails' depends on axioms: [propext, Classical.choice, Quot.sound]
'GW.C109_defaults_partial' depends on axioms: [propext, Classical.choice, Quot.sound]
'GW.C109_models_required' depends on axioms: [propext, Classical.choice, Quot.sound]
'GW.C109_options' depends on axioms: [propext, Classical.choice, Quot.sound]
'GW.C109_parse' depends on axioms: [propext, Classical.choice, Quot.sound]
'GW.C109_reuse_fails' depends on axioms: [propext, Classical.choice, Quot.sound]
'GW.C109_run_partial' depends on axioms: [propext, Classical.choice, Quot.sound]
'GW.C10_logXlogY_zero_outside_positive_inside' depends on axioms: [propext, Classical.choice, Quot.sound]
'GW.C10_logY_shift_invariant' depends on axioms: [propext, Classical.choice, Quot.sound]
'GW.C10_logY_zero_outside_positive_inside' depends on axioms: [propext, Classical.choice, Quot.sound]
'GW.C110_not_finite' depends on axioms: [propext, Classical.choice, Quot.sound]
'GW.C110_step' depends on axioms: [propext, Classical.choice, Quot.sound]
'GW.C110_switch_on' depends on axioms: [propext, Classical.choice, Quot.sound]
'GW.C111_derivative' depends on axioms: [propext, Classical.choice, Quot.sound]
'GW.C111_lipschitz' depends on axioms: [propext, Classical.choice, Quot.sound]
'GW.C111_logX_smooth' depends on axioms: [propext, Classical.choice, Quot.sound]
'GW.C111_logY_smooth' depends on axioms: [propext, Classical.choice, Quot.sound]
'GW.C111_smooth' depends on axioms: [propext, Classical.choice, Quot.sound]
'GW.C112_bspline' depends on axioms: [propext, Classical.choice, Quot.sound]
'GW.C112_logXlogY' depends on axioms: [propext, Classical.choice, Quot.sound]
'GW.C112_logY' depends on axioms: [propext, Classical.choice, Quot.sound]
'GW.C113_bspline' depends on axioms: [propext, Classical.choice, Quot.sound]
'GW.C113_bspline_normalised' depends on axioms: [propext, Classical.choice, Quot.sound]
'GW.C113_logXlogY' depends on axioms: [propext, Classical.choice, Quot.sound]
'GW.C113_logY' depends on axioms: [propext, Classical.choice, Quot.sound]
'GW.C114_gradient' depends on axioms: [propext, Classical.choice, Quot.sound]
'GW.C114_logXlogY_concave' depends on axioms: [propext, Classical.choice, Quot.sound]
'GW.C114_logY_concave' depends on axioms: [propext, Classical.choice, Quot.sound]
'GW.C115_betadist' depends on axioms: [propext, Classical.choice, Quot.sound]
'GW.C115_isoalign' depends on axioms: [propext, Classical.choice, Quot.sound]
'GW.C115_plpeak' depends on axioms: [propext, Classical.choice, Quot.sound]
'GW.C115_powerlaw' depends on axioms: [propext, Classical.choice, Quot.sound]
'GW.C115_redshift' depends on axioms: [propext, Classical.choice, Quot.sound]
'GW.C115_truncnorm' depends on axioms: [propext, Classical.choice, Quot.sound]
'GW.C116_betadist' depends on axioms: [propext, Classical.choice, Quot.sound]
'GW.C116_isoalign' depends on axioms: [propext, Classical.choice, Quot.sound]
'GW.C116_plpeak' depends on axioms: [propext, Classical.choice, Quot.sound]
'GW.C116_plpeak_ratio' depends on axioms: [propext, Classical.choice, Quot.sound]
'GW.C116_powerlaw' depends on axioms: [propext, Classical.choice, Quot.sound]
'GW.C116_redshift' depends on axioms: [propext, Classical.choice, Quot.sound]
'GW.C116_truncnorm' depends on axioms: [propext, Classical.choice, Quot.sound]
'GW.C117_gradient' depends on axioms: [propext, Classical.choice, Quot.sound]
'GW.C117_smooth' depends on axioms: [propext, Classical.choice, Quot.sound]
'GW.C118_stability' depends on axioms: [propext, Classical.choice, Quot.sound]
'GW.C119_powerlaw' depends on axioms: [propext, Classical.choice, Quot.sound]
'GW.C119_powerlaw_spline' depends on axioms: [propext, Classical.choice, Quot.sound]
'GW.C119_spline' depends on axioms: [propext, Classical.choice, Quot.sound]
'GW.C11_interpolates_C2' depends on axioms: [propext, Classical.choice, Quot.sound]
'GW.C11_reproduces_lines' depends on axioms: [propext, Classical.choice, Quot.sound]
'GW.C120_collision_fails' depends on axioms: [propext, Classical.choice, Quot.sound]
'GW.C120_distinct' depends on axioms: [propext, Classical.choice, Quot.sound]
'GW.C120_new_directory_fails' depends on axioms: [propext, Classical.choice, Quot.sound]
'GW.C120_no_rate_fails' depends on axioms: [propext, Classical.choice, Quot.sound]
'GW.C120_saved_partial' depends on axioms: [propext, Classical.choice, Quot.sound]
'GW.C121_fails' depends on axioms: [propext, Classical.choice, Quot.sound]
'GW.C121_logy_fails' depends on axioms: [propext, Classical.choice, Quot.sound]
'GW.C121_logy_outside' depends on axioms: [propext, Classical.choice, Quot.sound]
'GW.C121_logy_partial' depends on axioms: [propext, Classical.choice, Quot.sound]
'GW.C121_partial' depends on axioms: [propext, Classical.choice, Quot.sound]
'GW.C121_scaled' depends on axioms: [propext, Classical.choice, Quot.sound]
'GW.C121_wide_fails' depends on axioms: [propext, Classical.choice, Quot.sound]
'GW.C122_ignored_fails' depends on axioms: [propext, Classical.choice, Quot.sound]
'GW.C122_o3' depends on axioms: [propext, Classical.choice, Quot.sound]
'GW.C122_o4a' depends on axioms: [propext, Classical.choice, Quot.sound]
'GW.C123_bspline_chains_fails' depends on axioms: [propext, Classical.choice, Quot.sound]
'GW.C123_bspline_draw_count_fails' depends on axioms: [propext, Classical.choice, Quot.sound]
'GW.C123_bspline_partial' depends on axioms: [propext, Classical.choice, Quot.sound]
'GW.C123_plpeak_chains_fails' depends on axioms: [propext, Classical.choice, Quot.sound]
'GW.C123_plpeak_draw_count_fails' depends on axioms: [propext, Classical.choice, Quot.sound]
'GW.C123_plpeak_partial' depends on axioms: [propext, Classical.choice, Quot.sound]
'GW.C123_plpeak_sampled_partial' depends on axioms: [propext, Classical.choice, Quot.sound]
'GW.C123_posterior_kept' depends on axioms: [propext, Classical.choice, Quot.sound]
'GW.C124_bspline' depends on axioms: [propext, Classical.choice, Quot.sound]
'GW.C124_magnitudes_fails' depends on axioms: [propext, Classical.choice, Quot.sound]
'GW.C124_plpeak_partial' depends on axioms: [propext, Classical.choice, Quot.sound]
'GW.C125_cut_flat' depends on axioms: [propext, Classical.choice, Quot.sound]
'GW.C125_empty_event_fails' depends on axioms: [propext, Classical.choice, Quot.sound]
'GW.C125_gradient' depends on axioms: [propext, Classical.choice, Quot.sound]
'GW.C125_truncated_log_fails' depends on axioms: [propext, Classical.choice, Quot.sound]
'GW.C125_truncated_plain' depends on axioms: [propext, Classical.choice, Quot.sound]
'GW.C126_fractions_partial' depends on axioms: [propext, Classical.choice, Quot.sound]
'GW.C126_log_fails' depends on axioms: [propext, Classical.choice, Quot.sound]
'GW.C127_beta_outside_fails' depends on axioms: [propext, Classical.choice, Quot.sound]
'GW.C127_beta_partial' depends on axioms: [propext, Classical.choice, Quot.sound]
'GW.C127_beta_zero_fails' depends on axioms: [propext, Classical.choice, Quot.sound]
'GW.C127_likelihood' depends on axioms: [propext, Classical.choice, Quot.sound]
'GW.C127_plpeak_fails' depends on axioms: [propext, Classical.choice, Quot.sound]
'GW.C127_plpeak_partial' depends on axioms: [propext, Classical.choice, Quot.sound]
'GW.C127_powerlaw_fails' depends on axioms: [propext, Classical.choice, Quot.sound]
'GW.C127_powerlaw_log_fails' depends on axioms: [propext, Classical.choice, Quot.sound]
'GW.C127_powerlaw_log_partial' depends on axioms: [propext, Classical.choice, Quot.sound]
'GW.C127_powerlaw_partial' depends on axioms: [propext, Classical.choice, Quot.sound]
'GW.C127_truncnorm' depends on axioms: [propext, Classical.choice, Quot.sound]
'GW.C128_bspline' depends on axioms: [propext, Classical.choice, Quot.sound]
'GW.C128_difference_prior' depends on axioms: [propext, Classical.choice, Quot.sound]
'GW.C128_model' depends on axioms: [propext, Classical.choice, Quot.sound]
'GW.C128_outside_fails' depends on axioms: [propext, Classical.choice, Quot.sound]
'GW.C128_redshift' depends on axioms: [propext, Classical.choice, Quot.sound]
'GW.C128_spline' depends on axioms: [propext, Classical.choice, Quot.sound]
'GW.C129_falloff_fails' depends on axioms: [propext, Classical.choice, Quot.sound]
'GW.C129_falloff_partial' depends on axioms: [propext, Classical.choice, Quot.sound]
'GW.C129_log_logistic' depends on axioms: [propext, Classical.choice, Quot.sound]
'GW.C129_logit' depends on axioms: [propext, Classical.choice, Quot.sound]
'GW.C129_magnitude_partial' depends on axioms: [propext, Classical.choice, Quot.sound]
'GW.C129_plpeak_edge_fails' depends on axioms: [propext, Classical.choice, Quot.sound]
'GW.C129_plpeak_example_fails' depends on axioms: [propext, Classical.choice, Quot.sound]
'GW.C129_plpeak_example_partial' depends on axioms: [propext, Classical.choice, Quot.sound]
'GW.C129_plpeak_smooth_fails' depends on axioms: [propext, Classical.choice, Quot.sound]
'GW.C129_plpeak_smooth_partial' depends on axioms: [propext, Classical.choice, Quot.sound]
'GW.C129_redshift' depends on axioms: [propext, Classical.choice, Quot.sound]
'GW.C129_smooth' depends on axioms: [propext, Classical.choice, Quot.sound]
'GW.C129_tilt' depends on axioms: [propext, Classical.choice, Quot.sound]
'GW.C12_right_end_fails' depends on axioms: [propext, Classical.choice, Quot.sound]
'GW.C12_right_end_partial' depends on axioms: [propext, Classical.choice, Quot.sound]
'GW.C130_bayes_factor' depends on axioms: [propext, Classical.choice, Quot.sound]
'GW.C130_likelihood' depends on axioms: [propext, Classical.choice, Quot.sound]
'GW.C130_likelihood_variance_fails' depends on axioms: [propext, Classical.choice, Quot.sound]
'GW.C130_selection_partial' depends on axioms: [propext, Classical.choice, Quot.sound]
'GW.C130_selection_variance_fails' depends on axioms: [propext, Classical.choice, Quot.sound]
'GW.C131_posterior' depends on axioms: [propext, Classical.choice, Quot.sound]
'GW.C131_powerlaw_population' depends on axioms: [propext, Classical.choice, Quot.sound]
'GW.C132_effective_number_fails' depends on axioms: [propext, Classical.choice, Quot.sound]
'GW.C132_selection_cut_fails' depends on axioms: [propext, Classical.choice, Quot.sound]
'GW.C132_small_partial' depends on axioms: [propext, Classical.choice, Quot.sound]
'GW.C132_variance_cut_fails' depends on axioms: [propext, Classical.choice, Quot.sound]
'GW.C133_accuracy_partial' depends on axioms: [propext, Classical.choice, Quot.sound]
'GW.C133_exact' depends on axioms: [propext, Classical.choice, Quot.sound]
'GW.C134_cut_partial' depends on axioms: [propext, Classical.choice, Quot.sound]
'GW.C134_linear_underflow_fails' depends on axioms: [propext, Classical.choice, Quot.sound]
'GW.C134_underflow_fails' depends on axioms: [propext, Classical.choice, Quot.sound]
'GW.C135_far_fails' depends on axioms: [propext, Classical.choice, Quot.sound]
'GW.C135_interval_fails' depends on axioms: [propext, Classical.choice, Quot.sound]
'GW.C135_keys' depends on axioms: [propext, Classical.choice, Quot.sound]
'GW.C135_reach' depends on axioms: [propext, Classical.choice, Quot.sound]
'GW.C135_reach_default' depends on axioms: [propext, Classical.choice, Quot.sound]
'GW.C135_second_step' depends on axioms: [propext, Classical.choice, Quot.sound]
'GW.C135_stationary_partial' depends on axioms: [propext, Classical.choice, Quot.sound]
'GW.C135_steady_slope' depends on axioms: [propext, Classical.choice, Quot.sound]
'GW.C136_few_points' depends on axioms: [propext, Classical.choice, Quot.sound]
'GW.C136_jit_fails' depends on axioms: [propext, Classical.choice, Quot.sound]
'GW.C136_repaired' depends on axioms: [propext, Classical.choice, Quot.sound]
'GW.C136_round_trip_partial' depends on axioms: [propext, Classical.choice, Quot.sound]
'GW.C136_unflatten_fails' depends on axioms: [propext, Classical.choice, Quot.sound]
'GW.C137_component' depends on axioms: [propext, Classical.choice, Quot.sound]
'GW.C137_components' depends on axioms: [propext, Classical.choice, Quot.sound]
'GW.C137_defaults' depends on axioms: [propext, Classical.choice, Quot.sound]
'GW.C137_limits_ignored_fails' depends on axioms: [propext, Classical.choice, Quot.sound]
'GW.C137_order_fails' depends on axioms: [propext, Classical.choice, Quot.sound]
'GW.C137_override_fails' depends on axioms: [propext, Classical.choice, Quot.sound]
'GW.C137_primary_ratio' depends on axioms: [propext, Classical.choice, Quot.sound]
'GW.C137_private' depends on axioms: [propext, Classical.choice, Quot.sound]
'GW.C137_ranges' depends on axioms: [propext, Classical.choice, Quot.sound]
'GW.C137_shared_range_fails' depends on axioms: [propext, Classical.choice, Quot.sound]
'GW.C138_batched_partial' depends on axioms: [propext, Classical.choice, Quot.sound]
'GW.C138_default_minimum_fails' depends on axioms: [propext, Classical.choice, Quot.sound]
'GW.C138_lower_bound_zero_fails' depends on axioms: [propext, Classical.choice, Quot.sound]
'GW.C138_mass_models_partial' depends on axioms: [propext, Classical.choice, Quot.sound]
'GW.C138_powerlaw_dist_partial' depends on axioms: [propext, Classical.choice, Quot.sound]
'GW.C138_powerlaw_partial' depends on axioms: [propext, Classical.choice, Quot.sound]
'GW.C138_slope_minus_one_fails' depends on axioms: [propext, Classical.choice, Quot.sound]
'GW.C138_tilt_partial' depends on axioms: [propext, Classical.choice, Quot.sound]
'GW.C138_truncnorm_partial' depends on axioms: [propext, Classical.choice, Quot.sound]
'GW.C139_all_boundary_partial' depends on axioms: [propext, Classical.choice, Quot.sound]
'GW.C139_array_ratio_fails' depends on axioms: [propext, Classical.choice, Quot.sound]
'GW.C139_array_ratio_partial' depends on axioms: [propext, Classical.choice, Quot.sound]
'GW.C139_one_spin_many_ratios_fails' depends on axioms: [propext, Classical.choice, Quot.sound]
'GW.C139_scalar_ratio_partial' depends on axioms: [propext, Classical.choice, Quot.sound]
'GW.C13_init' depends on axioms: [propext, Classical.choice, Quot.sound]
'GW.C13_unique_solution' depends on axioms: [propext, Classical.choice, Quot.sound]
'GW.C140_error' depends on axioms: [propext, Classical.choice, Quot.sound]
'GW.C140_error_log' depends on axioms: [propext, Classical.choice, Quot.sound]
'GW.C140_exact' depends on axioms: [propext, Classical.choice, Quot.sound]
'GW.C140_infinite_fails' depends on axioms: [propext, Classical.choice, Quot.sound]
'GW.C140_norm_fails' depends on axioms: [propext, Classical.choice, Quot.sound]
'GW.C141_powerlaw' depends on axioms: [propext, Classical.choice, Quot.sound]
'GW.C141_spline_call' depends on axioms: [propext, Classical.choice, Quot.sound]
'GW.C141_spline_log_prob_fails' depends on axioms: [propext, Classical.choice, Quot.sound]
'GW.C142_error' depends on axioms: [propext, Classical.choice, Quot.sound]
'GW.C142_exact' depends on axioms: [propext, Classical.choice, Quot.sound]
'GW.C142_tail_fails' depends on axioms: [propext, Classical.choice, Quot.sound]
'GW.C143_basis' depends on axioms: [propext, Classical.choice, Quot.sound]
'GW.C143_design' depends on axioms: [propext, Classical.choice, Quot.sound]
'GW.C144_density' depends on axioms: [propext, Classical.choice, Quot.sound]
'GW.C144_exact' depends on axioms: [propext, Classical.choice, Quot.sound]
'GW.C144_overflow_fails' depends on axioms: [propext, Classical.choice, Quot.sound]
'GW.C144_project' depends on axioms: [propext, Classical.choice, Quot.sound]
'GW.C145_likelihood' depends on axioms: [propext, Classical.choice, Quot.sound]
'GW.C145_spline' depends on axioms: [propext, Classical.choice, Quot.sound]
'GW.C145_weight' depends on axioms: [propext, Classical.choice, Quot.sound]
'GW.C146_default_fails' depends on axioms: [propext, Classical.choice, Quot.sound]
'GW.C146_density_partial' depends on axioms: [propext, Classical.choice, Quot.sound]
'GW.C146_keywords' depends on axioms: [propext, Classical.choice, Quot.sound]
'GW.C146_minimum_on_grid_fails' depends on axioms: [propext, Classical.choice, Quot.sound]
'GW.C147_beta' depends on axioms: [propext, Classical.choice, Quot.sound]
'GW.C147_exact' depends on axioms: [propext, Classical.choice, Quot.sound]
'GW.C147_magnitudes' depends on axioms: [propext, Classical.choice, Quot.sound]
'GW.C147_masses' depends on axioms: [propext, Classical.choice, Quot.sound]
'GW.C147_primary' depends on axioms: [propext, Classical.choice, Quot.sound]
'GW.C147_ratio' depends on axioms: [propext, Classical.choice, Quot.sound]
'GW.C147_redshift' depends on axioms: [propext, Classical.choice, Quot.sound]
'GW.C147_redshift_exact' depends on axioms: [propext, Classical.choice, Quot.sound]
'GW.C147_redshift_outside' depends on axioms: [propext, Classical.choice, Quot.sound]
'GW.C147_redshift_prob' depends on axioms: [propext, Classical.choice, Quot.sound]
'GW.C147_tilt' depends on axioms: [propext, Classical.choice, Quot.sound]
'GW.C147_tilts' depends on axioms: [propext, Classical.choice, Quot.sound]
'GW.C147_truncnorm' depends on axioms: [propext, Classical.choice, Quot.sound]
'GW.C147_value' depends on axioms: [propext, Classical.choice, Quot.sound]
'GW.C148_exact' depends on axioms: [propext, Classical.choice, Quot.sound]
'GW.C148_likelihood' depends on axioms: [propext, Classical.choice, Quot.sound]
'GW.C148_weight' depends on axioms: [propext, Classical.choice, Quot.sound]
'GW.C149_density' depends on axioms: [propext, Classical.choice, Quot.sound]
'GW.C149_edge_fails' depends on axioms: [propext, Classical.choice, Quot.sound]
'GW.C149_exact' depends on axioms: [propext, Classical.choice, Quot.sound]
'GW.C149_exponent' depends on axioms: [propext, Classical.choice, Quot.sound]
'GW.C149_outside' depends on axioms: [propext, Classical.choice, Quot.sound]
'GW.C149_project' depends on axioms: [propext, Classical.choice, Quot.sound]
'GW.C149_redshift' depends on axioms: [propext, Classical.choice, Quot.sound]
'GW.C149_redshift_prob' depends on axioms: [propext, Classical.choice, Quot.sound]
'GW.C14_exact_recovery' depends on axioms: [propext, Classical.choice, Quot.sound]
'GW.C14_least_squares' depends on axioms: [propext, Classical.choice, Quot.sound]
'GW.C14_residual_orthogonal' depends on axioms: [propext, Classical.choice, Quot.sound]
'GW.C150_exact' depends on axioms: [propext, Classical.choice, Quot.sound]
'GW.C150_likelihood' depends on axioms: [propext, Classical.choice, Quot.sound]
'GW.C150_outside' depends on axioms: [propext, Classical.choice, Quot.sound]
'GW.C150_weight' depends on axioms: [propext, Classical.choice, Quot.sound]
'GW.C151_density_fails' depends on axioms: [propext, Classical.choice, Quot.sound]
'GW.C151_grid' depends on axioms: [propext, Classical.choice, Quot.sound]
'GW.C151_inside' depends on axioms: [propext, Classical.choice, Quot.sound]
'GW.C151_limit_fails' depends on axioms: [propext, Classical.choice, Quot.sound]
'GW.C151_mono' depends on axioms: [propext, Classical.choice, Quot.sound]
'GW.C152_exact' depends on axioms: [propext, Classical.choice, Quot.sound]
'GW.C152_exact_density' depends on axioms: [propext, Classical.choice, Quot.sound]
'GW.C152_falloff' depends on axioms: [propext, Classical.choice, Quot.sound]
'GW.C152_linear_fails' depends on axioms: [propext, Classical.choice, Quot.sound]
'GW.C152_log' depends on axioms: [propext, Classical.choice, Quot.sound]
'GW.C152_powerlaw' depends on axioms: [propext, Classical.choice, Quot.sound]
'GW.C152_unit' depends on axioms: [propext, Classical.choice, Quot.sound]
'GW.C153_edge_fails' depends on axioms: [propext, Classical.choice, Quot.sound]
'GW.C153_exact' depends on axioms: [propext, Classical.choice, Quot.sound]
'GW.C153_taper' depends on axioms: [propext, Classical.choice, Quot.sound]
'GW.C154_exact' depends on axioms: [propext, Classical.choice, Quot.sound]
'GW.C154_masses' depends on axioms: [propext, Classical.choice, Quot.sound]
'GW.C154_primary' depends on axioms: [propext, Classical.choice, Quot.sound]
'GW.C155_constant' depends on axioms: [propext, Classical.choice, Quot.sound]
'GW.C155_exact' depends on axioms: [propext, Classical.choice, Quot.sound]
'GW.C155_first' depends on axioms: [propext, Classical.choice, Quot.sound]
'GW.C155_penalty' depends on axioms: [propext, Classical.choice, Quot.sound]
'GW.C155_second_fails' depends on axioms: [propext, Classical.choice, Quot.sound]
'GW.C156_exact' depends on axioms: [propext, Classical.choice, Quot.sound]
'GW.C156_iid' depends on axioms: [propext, Classical.choice, Quot.sound]
'GW.C156_independent' depends on axioms: [propext, Classical.choice, Quot.sound]
'GW.C156_powerlaw_ratio' depends on axioms: [propext, Classical.choice, Quot.sound]
'GW.C156_ratio_le' depends on axioms: [propext, Classical.choice, Quot.sound]
'GW.C156_spline_ratio' depends on axioms: [propext, Classical.choice, Quot.sound]
'GW.C156_symmetric' depends on axioms: [propext, Classical.choice, Quot.sound]
'GW.C157_exact' depends on axioms: [propext, Classical.choice, Quot.sound]
'GW.C157_grid' depends on axioms: [propext, Classical.choice, Quot.sound]
'GW.C157_norm' depends on axioms: [propext, Classical.choice, Quot.sound]
'GW.C157_numerator' depends on axioms: [propext, Classical.choice, Quot.sound]
'GW.C157_outside_fails' depends on axioms: [propext, Classical.choice, Quot.sound]
'GW.C157_quotient' depends on axioms: [propext, Classical.choice, Quot.sound]
'GW.C157_rate' depends on axioms: [propext, Classical.choice, Quot.sound]
'GW.C158_exact' depends on axioms: [propext, Classical.choice, Quot.sound]
'GW.C158_masses' depends on axioms: [propext, Classical.choice, Quot.sound]
'GW.C158_outside' depends on axioms: [propext, Classical.choice, Quot.sound]
'GW.C158_primary' depends on axioms: [propext, Classical.choice, Quot.sound]
'GW.C158_weight' depends on axioms: [propext, Classical.choice, Quot.sound]
'GW.C159_error' depends on axioms: [propext, Classical.choice, Quot.sound]
'GW.C159_outside' depends on axioms: [propext, Classical.choice, Quot.sound]
'GW.C15_bases_fails' depends on axioms: [propext, Classical.choice, Quot.sound]
'GW.C15_construct_fails' depends on axioms: [propext, Classical.choice, Quot.sound]
'GW.C15_construct_partial' depends on axioms: [propext, Classical.choice, Quot.sound]
'GW.C15_layout_fails' depends on axioms: [propext, Classical.choice, Quot.sound]
'GW.C15_layout_transposed' depends on axioms: [propext, Classical.choice, Quot.sound]
'GW.C15_project_partial' depends on axioms: [propext, Classical.choice, Quot.sound]
'GW.C16_default_knots' depends on axioms: [propext, Classical.choice, Quot.sound]
'GW.C16_default_too_few' depends on axioms: [propext, Classical.choice, Quot.sound]
'GW.C16_explicit_knots' depends on axioms: [propext, Classical.choice, Quot.sound]
'GW.C17_powerlaw_normalised' depends on axioms: [propext, Classical.choice, Quot.sound]
'GW.C18_powerlaw_shape' depends on axioms: [propext, Classical.choice, Quot.sound]
'GW.C18_powerlaw_total' depends on axioms: [propext, Classical.choice, Quot.sound]
'GW.C19_above_window_fails' depends on axioms: [propext, Classical.choice, Quot.sound]
'GW.C19_below_window_fails' depends on axioms: [propext, Classical.choice, Quot.sound]
'GW.C19_taper_window_partial' depends on axioms: [propext, Classical.choice, Quot.sound]
'GW.C19_upper_edge_fails' depends on axioms: [propext, Classical.choice, Quot.sound]
'GW.C20_logistic_bounds' depends on axioms: [propext, Classical.choice, Quot.sound]
'GW.C20_logistic_monotone' depends on axioms: [propext, Classical.choice, Quot.sound]
'GW.C20_powerlaw_logit_bounds' depends on axioms: [propext, Classical.choice, Quot.sound]
'GW.C21_log_logistic' depends on axioms: [propext, Classical.choice, Quot.sound]
'GW.C22_lognormal_normalised' depends on axioms: [propext, Classical.choice, Quot.sound]
'GW.C22_truncnorm_normalised' depends on axioms: [propext, Classical.choice, Quot.sound]
'GW.C23_betadist_normalised_partial' depends on axioms: [propext, Classical.choice, Quot.sound]
'GW.C23_endpoint_values' depends on axioms: [propext, Classical.choice, Quot.sound]
'GW.C23_nan_at_scale_fails' depends on axioms: [propext, Classical.choice, Quot.sound]
'GW.C23_nan_at_zero_fails' depends on axioms: [propext, Classical.choice, Quot.sound]
'GW.C24_cosine_cdf' depends on axioms: [propext, Classical.choice, Quot.sound]
'GW.C24_cosine_density_full_range_partial' depends on axioms: [propext, Classical.choice, Quot.sound]
'GW.C24_cosine_density_subrange_fails' depends on axioms: [propext, Classical.choice, Quot.sound]
'GW.C24_cosine_inverse' depends on axioms: [propext, Classical.choice, Quot.sound]
'GW.C24_sine_cdf' depends on axioms: [propext, Classical.choice, Quot.sound]
'GW.C24_sine_density_full_range_partial' depends on axioms: [propext, Classical.choice, Quot.sound]
'GW.C24_sine_density_subrange_fails' depends on axioms: [propext, Classical.choice, Quot.sound]
'GW.C24_sine_inverse' depends on axioms: [propext, Classical.choice, Quot.sound]
'GW.C25_cdf_left_of_zero_fails' depends on axioms: [propext, Classical.choice, Quot.sound]
'GW.C25_powerlaw_cdf_partial' depends on axioms: [propext, Classical.choice, Quot.sound]
'GW.C25_powerlaw_inverse' depends on axioms: [propext, Classical.choice, Quot.sound]
'GW.C26_density_is_derivative_of_cdf_partial' depends on axioms: [propext, Classical.choice, Quot.sound]
'GW.C26_powerlaw_density_partial' depends on axioms: [propext, Classical.choice, Quot.sound]
'GW.C26_slope_jump_fails' depends on axioms: [propext, Classical.choice, Quot.sound]
'GW.C26_slope_minus_one_fails' depends on axioms: [propext, Classical.choice, Quot.sound]
'GW.C27_continuous_partial' depends on axioms: [propext, Classical.choice, Quot.sound]
'GW.C27_never_normalised_fails' depends on axioms: [propext, Classical.choice, Quot.sound]
'GW.C28_bspline_cdf_partial' depends on axioms: [propext, Classical.choice, Quot.sound]
'GW.C28_cdf_exceeds_one_fails' depends on axioms: [propext, Classical.choice, Quot.sound]
'GW.C28_cdf_is_not_running_integral_fails' depends on axioms: [propext, Classical.choice, Quot.sound]
'GW.C28_redshift_cdf_partial' depends on axioms: [propext, Classical.choice, Quot.sound]
'GW.C29_redshift_density' depends on axioms: [propext, Classical.choice, Quot.sound]
'GW.C29_redshift_explicit_volume' depends on axioms: [propext, Classical.choice, Quot.sound]
'GW.C30_distribution_agrees' depends on axioms: [propext, Classical.choice, Quot.sound]
'GW.C30_penalty_invariant' depends on axioms: [propext, Classical.choice, Quot.sound]
'GW.C30_penalty_nonpos' depends on axioms: [propext, Classical.choice, Quot.sound]
'GW.C30_penalty_null_space' depends on axioms: [propext, Classical.choice, Quot.sound]
'GW.C30_penalty_reverse' depends on axioms: [propext, Classical.choice, Quot.sound]
'GW.C30_penalty_scaling' depends on axioms: [propext, Classical.choice, Quot.sound]
'GW.C31_default_pairs' depends on axioms: [propext, Classical.choice, Quot.sound]
'GW.C31_default_ranges' depends on axioms: [propext, Classical.choice, Quot.sound]
'GW.C31_entrywise' depends on axioms: [propext, Classical.choice, Quot.sound]
'GW.C31_masked_evaluation' depends on axioms: [propext, Classical.choice, Quot.sound]
'GW.C31_spline_value' depends on axioms: [propext, Classical.choice, Quot.sound]
'GW.C32_even' depends on axioms: [propext, Classical.choice, Quot.sound]
'GW.C32_half_density' depends on axioms: [propext, Classical.choice, Quot.sound]
'GW.C32_mass' depends on axioms: [propext, Classical.choice, Quot.sound]
'GW.C33_effective_spins' depends on axioms: [propext, Classical.choice, Quot.sound]
'GW.C33_iid_spin_magnitudes' depends on axioms: [propext, Classical.choice, Quot.sound]
'GW.C33_iid_spin_tilts' depends on axioms: [propext, Classical.choice, Quot.sound]
'GW.C33_independent_spin_magnitudes' depends on axioms: [propext, Classical.choice, Quot.sound]
'GW.C33_independent_spin_tilts' depends on axioms: [propext, Classical.choice, Quot.sound]
'GW.C33_plpeak_ratio' depends on axioms: [propext, Classical.choice, Quot.sound]
'GW.C33_primary_powerlaw_ratio' depends on axioms: [propext, Classical.choice, Quot.sound]
'GW.C33_primary_ratio' depends on axioms: [propext, Classical.choice, Quot.sound]
'GW.C34_iid_component_masses' depends on axioms: [propext, Classical.choice, Quot.sound]
'GW.C34_independent_fails' depends on axioms: [propext, Classical.choice, Quot.sound]
'GW.C34_independent_value_partial' depends on axioms: [propext, Classical.choice, Quot.sound]
'GW.C35_default_normalisation_fails' depends on axioms: [propext, Classical.choice, Quot.sound]
'GW.C35_outside_range_fails' depends on axioms: [propext, Classical.choice, Quot.sound]
'GW.C35_powerlaw_below_zmin_fails' depends on axioms: [propext, Classical.choice, Quot.sound]
'GW.C35_powerlaw_spline_partial' depends on axioms: [propext, Classical.choice, Quot.sound]
'GW.C35_redshift_spline_partial' depends on axioms: [propext, Classical.choice, Quot.sound]
'GW.C36_corner_fails' depends on axioms: [propext, Classical.choice, Quot.sound]
'GW.C36_joint_density' depends on axioms: [propext, Classical.choice, Quot.sound]
'GW.C37_joint' depends on axioms: [propext, Classical.choice, Quot.sound]
'GW.C37_mixture' depends on axioms: [propext, Classical.choice, Quot.sound]
'GW.C37_tapered_fails' depends on axioms: [propext, Classical.choice, Quot.sound]
'GW.C37_tapered_joint' depends on axioms: [propext, Classical.choice, Quot.sound]
'GW.C38_default_tilt_normalised' depends on axioms: [propext, Classical.choice, Quot.sound]
'GW.C38_exchange_symmetric' depends on axioms: [propext, Classical.choice, Quot.sound]
'GW.C38_iid_is_independent' depends on axioms: [propext, Classical.choice, Quot.sound]
'GW.C38_iid_tilt_normalised' depends on axioms: [propext, Classical.choice, Quot.sound]
'GW.C38_isoalign_normalised' depends on axioms: [propext, Classical.choice, Quot.sound]
'GW.C39_below_range_fails' depends on axioms: [propext, Classical.choice, Quot.sound]
'GW.C39_other_array_fails' depends on axioms: [propext, Classical.choice, Quot.sound]
'GW.C39_redshift_model' depends on axioms: [propext, Classical.choice, Quot.sound]
'GW.C40_log_linear_agree' depends on axioms: [propext, Classical.choice, Quot.sound]
'GW.C40_value' depends on axioms: [propext, Classical.choice, Quot.sound]
'GW.C41_neff_bounds' depends on axioms: [propext, Classical.choice, Quot.sound]
'GW.C42_injection_order' depends on axioms: [propext, Classical.choice, Quot.sound]
'GW.C42_rescale_events' depends on axioms: [propext, Classical.choice, Quot.sound]
'GW.C42_rescale_injections' depends on axioms: [propext, Classical.choice, Quot.sound]
'GW.C42_sample_order' depends on axioms: [propext, Classical.choice, Quot.sound]
'GW.C43_neff_partial' depends on axioms: [propext, Classical.choice, Quot.sound]
'GW.C43_variance_fails' depends on axioms: [propext, Classical.choice, Quot.sound]
'GW.C43_variance_is_double_subtracted' depends on axioms: [propext, Classical.choice, Quot.sound]
'GW.C44_log_linear_agree' depends on axioms: [propext, Classical.choice, Quot.sound]
'GW.C45_factor_finite' depends on axioms: [propext, Classical.choice, Quot.sound]
'GW.C46_incompatible_flags' depends on axioms: [propext, Classical.choice, Quot.sound]
'GW.C46_neff_cut' depends on axioms: [propext, Classical.choice, Quot.sound]
'GW.C46_selection_cut' depends on axioms: [propext, Classical.choice, Quot.sound]
'GW.C46_variance_cut' depends on axioms: [propext, Classical.choice, Quot.sound]
'GW.C47_common_rescaling' depends on axioms: [propext, Classical.choice, Quot.sound]
'GW.C47_event_order' depends on axioms: [propext, Classical.choice, Quot.sound]
'GW.C47_value' depends on axioms: [propext, Classical.choice, Quot.sound]
'GW.C48_no_rate' depends on axioms: [propext, Classical.choice, Quot.sound]
'GW.C48_rate' depends on axioms: [propext, Classical.choice, Quot.sound]
'GW.C49_draws_respect_cuts' depends on axioms: [propext, Classical.choice, Quot.sound]
'GW.C49_missing_column' depends on axioms: [propext, Classical.choice, Quot.sound]
'GW.C50_configured_iid_fails' depends on axioms: [propext, Classical.choice, Quot.sound]
'GW.C50_iid_sharing_fails' depends on axioms: [propext, Classical.choice, Quot.sound]
'GW.C51_class_without_grid_fails' depends on axioms: [propext, Classical.choice, Quot.sound]
'GW.C51_construct' depends on axioms: [propext, Classical.choice, Quot.sound]
'GW.C51_missing_column' depends on axioms: [propext, Classical.choice, Quot.sound]
'GW.C51_missing_mass_fails' depends on axioms: [propext, Classical.choice, Quot.sound]
'GW.C51_missing_redshift_fails' depends on axioms: [propext, Classical.choice, Quot.sound]
'GW.C51_powerlaw_redshift_fails' depends on axioms: [propext, Classical.choice, Quot.sound]
'GW.C51_prior_sites' depends on axioms: [propext, Classical.choice, Quot.sound]
'GW.C51_run_partial' depends on axioms: [propext, Classical.choice, Quot.sound]
'GW.C58_chieff_between' depends on axioms: [propext, Classical.choice, Quot.sound]
'GW.C58_chip_range' depends on axioms: [propext, Classical.choice, Quot.sound]
'GW.C58_exchange' depends on axioms: [propext, Classical.choice, Quot.sound]
'GW.C58_special' depends on axioms: [propext, Classical.choice, Quot.sound]
'GW.C59_moments_of_betadist' depends on axioms: [propext, Classical.choice, Quot.sound]
'GW.C59_moments_roundtrip' depends on axioms: [propext, Classical.choice, Quot.sound]
'GW.C59_shapes_roundtrip' depends on axioms: [propext, Classical.choice, Quot.sound]
'GW.C60_density' depends on axioms: [propext, Classical.choice, Quot.sound]
'GW.C60_expectation' depends on axioms: [propext, Classical.choice, Quot.sound]
'GW.C60_normalised' depends on axioms: [propext, Classical.choice, Quot.sound]
'GW.C60_shape' depends on axioms: [propext, Classical.choice, Quot.sound]
'GW.C61_edge_fails' depends on axioms: [propext, Classical.choice, Quot.sound]
'GW.C61_even' depends on axioms: [propext, Classical.choice, Quot.sound]
'GW.C61_finite' depends on axioms: [propext, Classical.choice, Quot.sound]
'GW.C61_recursion_fails' depends on axioms: [propext, Classical.choice, Quot.sound]
'GW.C61_scaling' depends on axioms: [propext, Classical.choice, Quot.sound]
'GW.C61_support' depends on axioms: [propext, Classical.choice, Quot.sound]
'GW.C61_terminates_partial' depends on axioms: [propext, Classical.choice, Quot.sound]
'GW.C62_distribution' depends on axioms: [propext, Classical.choice, Quot.sound]
'GW.C62_negative_fails' depends on axioms: [propext, Classical.choice, Quot.sound]
'GW.C62_normalised' depends on axioms: [propext, Classical.choice, Quot.sound]
'GW.C62_shape_partial' depends on axioms: [propext, Classical.choice, Quot.sound]
'GW.C63_accepted_partial' depends on axioms: [propext, Classical.choice, Quot.sound]
'GW.C63_amax_fails' depends on axioms: [propext, Classical.choice, Quot.sound]
'GW.C63_amax_nan_fails' depends on axioms: [propext, Classical.choice, Quot.sound]
'GW.C63_density' depends on axioms: [propext, Classical.choice, Quot.sound]
'GW.C63_extreme_fails' depends on axioms: [propext, Classical.choice, Quot.sound]
'GW.C63_kept' depends on axioms: [propext, Classical.choice, Quot.sound]
'GW.C63_nan_fails' depends on axioms: [propext, Classical.choice, Quot.sound]
'GW.C63_support' depends on axioms: [propext, Classical.choice, Quot.sound]
'GW.C63_unreachable_fails' depends on axioms: [propext, Classical.choice, Quot.sound]
'GW.C64_monotone' depends on axioms: [propext, Classical.choice, Quot.sound]
'GW.C64_no_time' depends on axioms: [propext, Classical.choice, Quot.sound]
'GW.C64_o3' depends on axioms: [propext, Classical.choice, Quot.sound]
'GW.C64_o4a' depends on axioms: [propext, Classical.choice, Quot.sound]
'GW.C65_cuts_fails' depends on axioms: [propext, Classical.choice, Quot.sound]
'GW.C66_jacobian' depends on axioms: [propext, Classical.choice, Quot.sound]
'GW.C66_prior_o3' depends on axioms: [propext, Classical.choice, Quot.sound]
'GW.C66_prior_o4a' depends on axioms: [propext, Classical.choice, Quot.sound]
'GW.C67_draws' depends on axioms: [propext, Classical.choice, Quot.sound]
'GW.C67_neff' depends on axioms: [propext, Classical.choice, Quot.sound]
'GW.C67_unbiased' depends on axioms: [propext, Classical.choice, Quot.sound]
'GW.C68_aligned' depends on axioms: [propext, Classical.choice, Quot.sound]
'GW.C68_count_partial' depends on axioms: [propext, Classical.choice, Quot.sound]
'GW.C68_ignored_fails' depends on axioms: [propext, Classical.choice, Quot.sound]
'GW.C69_count' depends on axioms: [propext, Classical.choice, Quot.sound]
'GW.C69_joint' depends on axioms: [propext, Classical.choice, Quot.sound]
'GW.C70_collision_fails' depends on axioms: [propext, Classical.choice, Quot.sound]
'GW.C70_flatten_partial' depends on axioms: [propext, Classical.choice, Quot.sound]
'GW.C70_missing_prior_fails' depends on axioms: [propext, Classical.choice, Quot.sound]
'GW.C70_models_partial' depends on axioms: [propext, Classical.choice, Quot.sound]
'GW.C71_collision_fails' depends on axioms: [propext, Classical.choice, Quot.sound]
'GW.C71_curves' depends on axioms: [propext, Classical.choice, Quot.sound]
'GW.C71_posterior_altered_fails' depends on axioms: [propext, Classical.choice, Quot.sound]
'GW.C71_posterior_partial' depends on axioms: [propext, Classical.choice, Quot.sound]
'GW.C71_redshift_lost_fails' depends on axioms: [propext, Classical.choice, Quot.sound]
'GW.C71_subpopulations_partial' depends on axioms: [propext, Classical.choice, Quot.sound]
'GW.C71_wrong_draw_count' depends on axioms: [propext, Classical.choice, Quot.sound]
'GW.C72_beta_fails' depends on axioms: [propext, Classical.choice, Quot.sound]
'GW.C72_beta_partial' depends on axioms: [propext, Classical.choice, Quot.sound]
'GW.C72_bspline_independent_spins' depends on axioms: [propext, Classical.choice, Quot.sound]
'GW.C72_bspline_masses' depends on axioms: [propext, Classical.choice, Quot.sound]
'GW.C72_bspline_spins' depends on axioms: [propext, Classical.choice, Quot.sound]
'GW.C72_logpeak_masses' depends on axioms: [propext, Classical.choice, Quot.sound]
'GW.C72_mixture_tilts' depends on axioms: [propext, Classical.choice, Quot.sound]
'GW.C72_plpeak_masses' depends on axioms: [propext, Classical.choice, Quot.sound]
'GW.C73_distinct_sites' depends on axioms: [propext, Classical.choice, Quot.sound]
'GW.C73_missing_arguments' depends on axioms: [propext, Classical.choice, Quot.sound]
'GW.C73_repeated_refused' depends on axioms: [propext, Classical.choice, Quot.sound]
'GW.C73_sizes' depends on axioms: [propext, Classical.choice, Quot.sound]
'GW.C74_bspline_density_partial' depends on axioms: [propext, Classical.choice, Quot.sound]
'GW.C74_outside_support_fails' depends on axioms: [propext, Classical.choice, Quot.sound]
'GW.C75_knots_are_default' depends on axioms: [propext, Classical.choice, Quot.sound]
'GW.C75_order_parameter_fails' depends on axioms: [propext, Classical.choice, Quot.sound]
'GW.C75_primary_mass_density_partial' depends on axioms: [propext, Classical.choice, Quot.sound]
'GW.C75_ratio_normalised' depends on axioms: [propext, Classical.choice, Quot.sound]
'GW.C76_never_constructs_fails' depends on axioms: [propext, Classical.choice, Quot.sound]
'GW.C77_upper_fall_off_fails' depends on axioms: [propext, Classical.choice, Quot.sound]
'GW.C77_value_partial' depends on axioms: [propext, Classical.choice, Quot.sound]
'GW.C78_history_independent' depends on axioms: [propext, Classical.choice, Quot.sound]
'GW.C79_categorical_ppc_fails' depends on axioms: [propext, Classical.choice, Quot.sound]
'GW.C79_labels_select_partial' depends on axioms: [propext, Classical.choice, Quot.sound]
'GW.C80_caller_arrays_fails' depends on axioms: [propext, Classical.choice, Quot.sound]
'GW.C80_values_partial' depends on axioms: [propext, Classical.choice, Quot.sound]
'GW.C81_inplane_fails' depends on axioms: [propext, Classical.choice, Quot.sound]
'GW.C82_zero_spin_fails' depends on axioms: [propext, Classical.choice, Quot.sound]
'GW.C83_gwtc1_fails' depends on axioms: [propext, Classical.choice, Quot.sound]
'GW.C83_mass_cut_partial' depends on axioms: [propext, Classical.choice, Quot.sound]
'GW.C84_euclidean' depends on axioms: [propext, Classical.choice, Quot.sound]
'GW.C84_jacobian' depends on axioms: [propext, Classical.choice, Quot.sound]
'GW.C84_redshift' depends on axioms: [propext, Classical.choice, Quot.sound]
'GW.C84_rows' depends on axioms: [propext, Classical.choice, Quot.sound]
'GW.C84_validation' depends on axioms: [propext, Classical.choice, Quot.sound]
'GW.C85_emptied_fails' depends on axioms: [propext, Classical.choice, Quot.sound]
'GW.C85_nonempty_partial' depends on axioms: [propext, Classical.choice, Quot.sound]
'GW.C86_density_fails' depends on axioms: [propext, Classical.choice, Quot.sound]
'GW.C86_injection_fails' depends on axioms: [propext, Classical.choice, Quot.sound]
'GW.C86_value_partial' depends on axioms: [propext, Classical.choice, Quot.sound]
'GW.C87_given_partial' does not depend on any axioms
'GW.C87_missing_fails' does not depend on any axioms
'GW.C88_chip_fails' depends on axioms: [propext, Classical.choice, Quot.sound]
'GW.C89_errors' depends on axioms: [propext, Classical.choice, Quot.sound]
'GW.C89_rows' depends on axioms: [propext, Classical.choice, Quot.sound]
'GW.C90_powerlaw_rate' depends on axioms: [propext, Classical.choice, Quot.sound]
'GW.C90_powerlaw_spline_rate' depends on axioms: [propext, Classical.choice, Quot.sound]
'GW.C91_numbers_partial' depends on axioms: [propext, Classical.choice, Quot.sound]
'GW.C91_save_plots_fails' depends on axioms: [propext, Classical.choice, Quot.sound]
'GW.C91_sizes_fails' depends on axioms: [propext, Classical.choice, Quot.sound]
'GW.C91_sizes_partial' depends on axioms: [propext, Classical.choice, Quot.sound]
'GW.C92_iid_spins' depends on axioms: [propext, Classical.choice, Quot.sound]
'GW.C92_independent_spins' depends on axioms: [propext, Classical.choice, Quot.sound]
'GW.C92_masses' depends on axioms: [propext, Classical.choice, Quot.sound]
'GW.C92_redshift_partial' depends on axioms: [propext, Classical.choice, Quot.sound]
'GW.C92_spin_defaults_fails' depends on axioms: [propext, Classical.choice, Quot.sound]
'GW.C93_density' depends on axioms: [propext, Classical.choice, Quot.sound]
'GW.C93_expectation' depends on axioms: [propext, Classical.choice, Quot.sound]
'GW.C93_normalised' depends on axioms: [propext, Classical.choice, Quot.sound]
'GW.C94_band_partial' depends on axioms: [propext, Classical.choice, Quot.sound]
'GW.C94_coverage' depends on axioms: [propext, Classical.choice, Quot.sound]
'GW.C94_nan_draw_fails' depends on axioms: [propext, Classical.choice, Quot.sound]
'GW.C94_order' depends on axioms: [propext, Classical.choice, Quot.sound]
'GW.C95_default_colors_fails' depends on axioms: [propext, Classical.choice, Quot.sound]
'GW.C95_mass_partial' depends on axioms: [propext, Classical.choice, Quot.sound]
'GW.C95_rate' depends on axioms: [propext, Classical.choice, Quot.sound]
'GW.C95_spin_partial' depends on axioms: [propext, Classical.choice, Quot.sound]
'GW.C96_curve_fails' depends on axioms: [propext, Classical.choice, Quot.sound]
'GW.C96_ends_fails' depends on axioms: [propext, Classical.choice, Quot.sound]
'GW.C96_mean_partial' depends on axioms: [propext, Classical.choice, Quot.sound]
'GW.C96_variance_decreases_fails' depends on axioms: [propext, Classical.choice, Quot.sound]
'GW.C96_variance_fails' depends on axioms: [propext, Classical.choice, Quot.sound]
'GW.C97_binding' depends on axioms: [propext, Classical.choice, Quot.sound]
'GW.C97_bspline_draws_partial' depends on axioms: [propext, Classical.choice, Quot.sound]
'GW.C97_bspline_fails' depends on axioms: [propext, Classical.choice, Quot.sound]
'GW.C97_bspline_weights_partial' depends on axioms: [propext, Classical.choice, Quot.sound]
'GW.C97_config_model_fails' depends on axioms: [propext, Classical.choice, Quot.sound]
'GW.C97_constructed_partial' depends on axioms: [propext, Classical.choice, Quot.sound]
'GW.C97_plpeak_complete_fails' depends on axioms: [propext, Classical.choice, Quot.sound]
'GW.C97_plpeak_fails' depends on axioms: [propext, Classical.choice, Quot.sound]
'GW.C97_plpeak_weights_partial' depends on axioms: [propext, Classical.choice, Quot.sound]
'GW.C98_data_partial' depends on axioms: [propext, Classical.choice, Quot.sound]
'GW.C98_import_fails' depends on axioms: [propext, Classical.choice, Quot.sound]
'GW.C98_python_file_fails' depends on axioms: [propext, Classical.choice, Quot.sound]
'GW.C98_single_sample_fails' depends on axioms: [propext, Classical.choice, Quot.sound]
'GW.C99_fresh_partial' depends on axioms: [propext, Classical.choice, Quot.sound]
'GW.C99_no_directory_fails' depends on axioms: [propext, Classical.choice, Quot.sound]
'GW.C99_second_file_fails' depends on axioms: [propext, Classical.choice, Quot.sound]
'GW.C99_shadowed_fails' depends on axioms: [propext, Classical.choice, Quot.sound]
'GW.Cosmo.C52_constructor' depends on axioms: [propext, Classical.choice, Quot.sound]
'GW.Cosmo.C52_tables_increasing' depends on axioms: [propext, Classical.choice, Quot.sound]
'GW.Cosmo.C53_published' depends on axioms: [propext, Classical.choice, Quot.sound]
'GW.Cosmo.C53_query_error' depends on axioms: [propext, Classical.choice, Quot.sound]
'GW.Cosmo.C53_table_error' depends on axioms: [propext, Classical.choice, Quot.sound]
'GW.Cosmo.C54_inverse' depends on axioms: [propext, Classical.choice, Quot.sound]
'GW.Cosmo.C55_history_fails' depends on axioms: [propext, Classical.choice, Quot.sound]
'GW.Cosmo.C55_query_partial' depends on axioms: [propext, Classical.choice, Quot.sound]
'GW.Cosmo.C56_distance_fails' depends on axioms: [propext, Classical.choice, Quot.sound]
'GW.Cosmo.C56_distance_partial' depends on axioms: [propext, Classical.choice, Quot.sound]
'GW.Cosmo.C56_redshift_fails' depends on axioms: [propext, Classical.choice, Quot.sound]
'GW.Cosmo.C57_log' depends on axioms: [propext, Classical.choice, Quot.sound]
'GW.Cosmo.C57_sequence' depends on axioms: [propext, Classical.choice, Quot.sound]
'GW.Cosmo.C57_value' depends on axioms: [propext, Classical.choice, Quot.sound]
