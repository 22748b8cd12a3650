{
"C01": {
"note": "Proved for default knots and for explicit knots with a knot strictly right of the domain; the three boundary theorems (_fails) show exactly where it stops holding: clamped knots, order 1 and sub-1e-6 domains."
},
"C08": {
"status": "partial",
"note": "Holds for equally spaced interior knots; false in general: the constructor only uses the first spacing and the count (counterexample theorem)."
},
"C09": {
"note": "Zero outside for all positive x; negative x yields NaN (boundary theorem)."
},
"C19": {
"status": "partial",
"note": "Inside the open window and at the lower edge the claim holds; below, above and at the upper edge it is false because the window test joins its two halves with `|` (three _fails theorems)."
},
"C23": {
"status": "partial",
"note": "Normalised and positive on the open interval, floor outside; at an end point with the matching shape equal to 1 the code returns NaN (two _fails theorems)."
},
"C24": {
"status": "partial",
"note": "cdf/icdf claims hold on every sub-range; the density is normalised only on the full default range, because log_prob ignores minimum and maximum (two _fails theorems quantify over every proper sub-range)."
},
"C25": {
"status": "partial",
"note": "Inverse pair proved for every slope; cdf monotone on positive arguments. For negative arguments it fails (slope 1 gives cdf(-max)=1)."
},
"C26": {
"status": "partial",
"note": "Proved for every slope except -1; at slope -1 the total mass is log(r)/r<1 for every r=max/min (_fails theorem)."
},
"C27": {
"status": "partial",
"note": "Continuity proved; normalisation fails for every valid parameter set (NaN everywhere or mass > 1) because of a sign error in the amplitude."
},
"C28": {
"status": "partial",
"note": "On equally spaced grids: starts at 0, ends at 1, monotone, icdf inverse. The claim that the cdf is the running integral is false (off-by-one in cumtrapz), and on uneven grids the cdf can exceed 1."
},
"C74": {
"status": "partial",
"note": "Holds whenever the design matrix is finite; NaN log-density on cells whose two ends are outside the support."
},
"C07": {
"status": "proved",
"note": "Area and centre of mass for every knot vector (repeated knots allowed); a component whose span is below the 1e-6 threshold is identically zero (C07_tiny_span_fails)."
},
"C12": {
"status": "partial",
"note": "False of the code: the last matrix row is c[n-1]-c[n-2]=0, so the last piece is quadratic; for every abscissa vector there is data with non-zero second derivative at the right end."
},
"C15": {
"status": "partial",
"note": "False of the code: bases() calls the non-existent reset_bases, so every evaluation and every default construction raises; the layout is also wrong."
},
"C36": {
"note": "Proved on the whole region; the single corner m1=mmin, q=1 evaluates to an infinity (C36_corner_fails)."
},
"C37": {
"note": "Proved without tapering (the property's scope) and, inside the secondary's taper window, with tapering (C37_tapered_joint); outside the window the model inherits the smooth() defect (C37_tapered_fails)."
},
"C39": {
"note": "Proved; two boundary theorems: no truncation below zmin, and evaluation on an array other than the construction array reuses stale volume elements."
},
"C31": {
"status": "proved",
"note": "Every 1-D model, every sample array (any mask pattern, infinities and NaN included), every basis class; multi-dimensional arrays as their row-major flattening."
},
"C32": {
"status": "proved",
"note": "Evenness, half density at |chi| and preservation of total mass."
},
"C33": {
"status": "proved",
"note": "All eight separable classes; the extra keyword arguments are the same for both components (kwargs1/kwargs2 not modelled)."
},
"C34": {
"status": "partial",
"note": "Proved for BSplineIIDComponentMasses with positive masses. False for BSplineIndependentComponentMasses, which has no cut (C34_independent_fails)."
},
"C35": {
"status": "partial",
"note": "Unit integral proved for BSplineRedshift with normalize=False and for PowerlawSplineRedshiftModel. False with BSplineRedshift's default normalize=True, and neither model vanishes outside the range (the _fails theorems)."
},
"C75": {
"status": "partial",
"note": "Proved for the default order k=4; every other k raises (C75_order_parameter_fails)."
},
"C76": {
"status": "partial",
"note": "False: the constructor always raises (self.qknots is never assigned). Only the failure is proved; what the remaining methods would do is C146."
},
"C43": {
"status": "partial",
"note": "The effective sample size is correct (C43_neff_partial). The returned variance subtracts 1/Ninj twice (C43_variance_is_double_subtracted), so it is not the relative Monte Carlo variance (C43_variance_fails)."
},
"C77": {
"status": "partial",
"note": "False of the code: fall_off controls only the lower edge, the upper edge has the fixed steepness 4 (C77_value_partial, C77_upper_fall_off_fails)."
},
"C50": {
"status": "partial",
"note": "False of the code: the roles in iid_mapping are swapped, so any shared parameter makes every call raise (C50_iid_sharing_fails; end to end from a parsed configuration: C50_configured_iid_fails). What holds without sharing is C51_run_partial."
},
"C51": {
"status": "partial",
"note": "False of the code for the shipped PowerlawRedshift (the keyword grid is not accepted: C51_powerlaw_redshift_fails, C51_class_without_grid_fails), for configurations without redshift (C51_missing_redshift_fails) and, with the default predictive check, for data without mass columns (C51_missing_mass_fails; C51_missing_column for a column the model needs). C51_run_partial: with a class that accepts grid every call evaluates the likelihood of the configured densities."
},
"C70": {
"status": "partial",
"note": "Holds when the flat names are distinct (C70_flatten_partial, C70_models_partial). False in general: name collisions silently replace a prior (C70_collision_fails) and hyper-parameters without prior or value are skipped (C70_missing_prior_fails)."
},
"C79": {
"status": "partial",
"note": "C79_labels_select_partial holds without the predictive check; with it every categorical run raises (C79_categorical_ppc_fails)."
},
"C53": {
"note": "The statement bounds the error on both sides: the integrand c/(H0 E) is concave at low redshift, so the table is not a one-sided bound."
},
"C55": {
"status": "partial",
"note": "Proved for redshifts inside the constructor's table under every history of queries with the constructor's step; for redshifts beyond it the answer depends on earlier queries (C55_history_fails)."
},
"C56": {
"status": "partial",
"note": "Beyond the table, two redshifts in the same step get the same distance (C56_distance_fails) and DL2z raises TypeError (C56_redshift_fails); the distance is proved within one step times c/H0 of the exact integral."
},
"C61": {
"status": "partial",
"note": "Evenness, support, scaling, finiteness away from break points proved for every input. Termination proved except when two break points are exactly one 1e-6 shift apart, where the recursion never ends (C61_recursion_fails); NaN at q*a/(1+q) for every q in (1/2,1) (C61_edge_fails)."
},
"C80": {
"status": "partial",
"note": "False for numpy arrays when xmax is not 1 (in-place /=); returned values are right and immutable inputs are unaffected."
},
"C62": {
"status": "partial",
"note": "Normalisation and agreement with the distribution of max of projected spins proved; for negative chi_p the code returns negative values (C62_negative_fails)."
},
"C63": {
"status": "partial",
"note": "Accepted rows, support and normalisation proved for a_max=1; endless loop for unreachable chi_eff, NaN cosines at measure-zero draws, wrong support for a_max<1, 0/0 at the extreme chi_eff (_fails theorems)."
},
"C64": {
"status": "proved",
"note": "Kept index list, aligned rows and monotonicity for both readers. SNR is compared with >= by the O4a reader and > by the O3 reader; the O3 reader applies the SNR criterion only to O1/O2 injections (this is the criterion of the code, spelled out in passesO3)."
},
"C65": {
"status": "partial",
"note": "False of the code: additional cuts are OR-ed into the mask, so they add injections (C65_cuts_fails). Nothing weaker of the English claim holds for non-empty cuts."
},
"C66": {
"status": "proved",
"note": "Formula of the stored row for finite real columns, plus the Jacobian determinant computed from partial derivatives."
},
"C67": {
"status": "proved",
"note": "Expectation is over independent draws from the probabilities passed to random.choice; the generator itself is trusted."
},
"C81": {
"status": "partial",
"note": "False of the code: IndexError unless every injection is found (C81_inplane_fails)."
},
"C82": {
"status": "partial",
"note": "False of the code at exactly zero spin (C82_zero_spin_fails); for non-zero spins C66 gives the finite positive value."
},
"C68": {
"status": "partial",
"note": "Columns stay aligned with the kept events (C68_aligned); nObs is right when no ignored event is in the file and too large otherwise (C68_ignored_fails), because it is taken from the unfiltered array."
},
"C69": {
"note": "Every stored sample is one original row, indices distinct, same number for every event, and that number is the largest allowed."
},
"C83": {
"status": "partial",
"note": "Holds for all catalogues but GWTC-1, whose branch ignores the maximum (C83_gwtc1_fails: any GWTC-1 event with a heavier sample keeps one)."
},
"C84": {
"note": "Redshift densities normalised, rows equal the product at every sample, factors shown to be the Jacobian and dDL/dz; wrong names raise AssertionError."
},
"C85": {
"status": "partial",
"note": "False: one event with all samples above the cut empties every event (C85_emptied_fails). Proved when every event keeps a sample."
},
"C86": {
"status": "partial",
"note": "False: the code divides by (2 pi a1^2)(2 pi a2^2) although the stored prior is a density in magnitude and cosine tilt; C86_value_partial gives what is computed, the two _fails theorems quantify over all affected samples."
},
"C87": {
"status": "partial",
"note": "False for neither: TypeError from open(None) before the assertion can run."
},
"C88": {
"status": "partial",
"note": "False: the reshape/dimension names never match, so the conversion always raises (C88_chip_fails, for every catalogue). No positive part exists."
},
"C72": {
"status": "partial",
"note": "Proved for B-spline masses, power law plus peak, log peak, B-spline spins and mixture tilts (with the marginal consistency of mass and ratio curves). False for the Beta spin magnitudes when a shape is at most 1 (C72_beta_fails: a NaN entry); C72_beta_partial covers both shapes above 1."
},
"C71": {
"status": "partial",
"note": "Every quantity is kept and named (C71_posterior_partial, C71_curves, C71_subpopulations_partial); a wrong draw count is refused. False in general: posterior_dict_to_xarray replaces the arrays in the caller's dictionary, the sub-population branch drops redshift from the result and from the caller's dictionary, and colliding names overwrite each other."
},
"C91": {
"status": "partial",
"note": "Defaults and the int/float options behave; false for the spline sizes (parsed as text, TypeError later) and for --save-plots (any non-empty text is True)."
},
"C92": {
"status": "partial",
"note": "Proved for every successful set-up; the default arguments of setup_bspline_spin_models never succeed, and the redshift model does not vanish below the common range (C35_powerlaw_below_zmin_fails)."
},
"C93": {
"status": "proved",
"note": "The dilogarithm called by the code is modelled by its defining integral (Verif/Dilog.lean). All six closed forms are shown equal to the convolution of the two one-spin densities, and the convolution to the law of chi_eff. What happens at the break points is C61."
},
"C94": {
"status": "partial",
"note": "Proved at every grid point whose draws are all finite (C94_band_partial, C94_coverage, C94_order). False where one draw is NaN: median and band vanish there (C94_nan_draw_fails)."
},
"C95": {
"status": "partial",
"note": "Proved when names and colours cover every population. False with the default colours for more than three populations: the call raises and writes nothing (C95_default_colors_fails)."
},
"C96": {
"status": "partial",
"note": "mu_a is the mean. False of var_a: the variance is mu(1-mu)/(1+var), decreasing in var_a; for every draw inside the prior both Beta shapes are below 1, and the plotted curve is 0 inside and NaN at both ends."
},
"C97": {
"status": "partial",
"note": "The weights of the power-law-peak example are proved for complete data. False of all three examples: no evaluation completes, because hierarchical_likelihood is called with keywords it does not have, or PowerlawRedshift without its grids."
},
"C98": {
"status": "partial",
"note": "Row i is event i in the data set-up. False of the command as a whole: its first import raises ImportError; a model given as a Python file additionally asks for a data column called file_path."
},
"C99": {
"status": "partial",
"note": "Proved for a module name not imported before and not present earlier on the search path. False otherwise: a second file of the same name returns the first file's model, an earlier search-path directory wins, and a path without a directory is not found."
},
"C100": {
"status": "partial",
"note": "Re-use with --skip-inference is proved for all settings, separation for runs that differ in directory, label, seed, warm-up or samples (labels without a slash). False for every other setting: the second run overwrites the first."
},
"C101": {
"note": "Proved when every value is one plain word (no blanks, no shell syntax) and the seed list has no underscore. False otherwise: a label with a blank makes every task fail, an omitted data file becomes a file called None, the script's own defaults (mass range, samples) replace those of the analysis, and a second script with the same job name and seeds replaces the first whatever its label.",
"status": "partial"
},
"C102": {
"status": "partial",
"note": "Proved for Sine and Cosine on every sub-range, for Powerlaw on every positive range (given a support that contains it), for the gridded distributions on equally spaced grids. False: Powerlaw's default support is [0,1] whatever its range, PowerlawRedshift draws exceed maximum, BSplineDistribution returns one number per coefficient, PowerlawSmoothedPowerlaw always returns 1, PSplineCoeficientPrior's draw is rejected by its own log_prob."
},
"C103": {
"status": "partial",
"note": "Proved for component spins requested together with a_1 and, with the rows spelled out, for chi_eff. False: a_2 or a tilt without a_1 raises KeyError, the additional cuts are ignored for O4a, and with chi_eff the rows are fixed (mass_1 and redshift always there, never both mass_2 and mass_ratio)."
},
"C104": {
"note": "Proved for masses, redshift and component spins (C104_posterior) and the round trip; with chi_eff the rows are spelled out (C104_posterior_chieff_partial), the spin density being wrong as in C86. False: chi_p can never be loaded, any name containing .h5 is accepted whatever its extension, and the number of events still counts the ignored ones (C104_ignored_count_fails).",
"status": "partial"
},
"C105": {
"status": "proved",
"note": "Random numbers are independent uniform triples on an arbitrary probability space; the kernel estimate is scipy's formula with an arbitrary width. The kernel smoothing and the 52-point grid themselves are approximations of the code: only the law of the draws and weights, and the exactness of the marginal, are claimed."
},
"C106": {
"status": "partial",
"note": "(a)-(d) proved with the strong law of large numbers; square integrability of the weights under the posterior and the injection law is assumed (without it the variance limits are meaningless). (e) is false of the code: C106_selection_variance_fails proves n times the reported variance tends to the true limit minus one."
},
"C107": {
"status": "proved",
"note": "Builds on C47_value and C48_rate. The unscaled rate is any random variable with the law the model declares for that site."
},
"C108": {
"status": "partial",
"note": "(a) proved for an arbitrary probability space carrying independent uniform numbers per key. (b) is false of the code: C108_calls_fails."
},
"C109": {
"status": "partial",
"note": "The imports of the command are taken as working here (C98 shows they are not). Fresh readers, runs and options proved; reuse and the defaults are false of the code: C109_reuse_fails, C109_defaults_fails."
},
"C110": {
"status": "proved",
"note": "Exact arithmetic: the overflow of exp close to mmin is not modelled."
},
"C111": {
"status": "proved",
"note": "Default (equally spaced) knots, real arithmetic. Outside the range the value is 0, so smoothness is claimed on the closed range only."
},
"C112": {
"status": "proved",
"note": "Default knots, real arithmetic."
},
"C113": {
"status": "proved",
"note": "Default knots, real arithmetic."
},
"C114": {
"status": "proved",
"note": "Default knots, real arithmetic; coefficients above -1.8e308, as for C10."
},
"C115": {
"status": "proved",
"note": "About the mathematical functions in real arithmetic, not about what automatic differentiation computes for them. The numpyro Powerlaw distribution does not have this property, see C26_slope_jump_fails."
},
"C116": {
"status": "proved",
"note": "Real arithmetic. For a fraction of exactly 1 in the peak the slope is unused and cannot be determined."
},
"C117": {
"status": "proved",
"note": "About the mathematical function in real arithmetic, not about what automatic differentiation computes for it. Single weight array (categorical=False), no posterior predictive check."
},
"C118": {
"status": "proved",
"note": "Real arithmetic: the theorem bounds the effect of relative errors in the weights, not of rounding inside the likelihood. Single weight array (categorical=False), no posterior predictive check."
},
"C119": {
"status": "proved",
"note": "Real arithmetic. BSplineRedshift with normalize=False on a spline range covering the overlap (its default normalisation is wrong, C35_default_normalisation_fails); LogXBSpline interpolators with knot spacing above the comparison tolerance."
},
"C120": {
"status": "partial",
"note": "Proved for the command from the sampling on, when the output directory exists, the flat names are distinct, the model comes from the configuration and the label has no slash (as shipped the command stops earlier, at an import: C98). The claim fails otherwise: nothing creates the directory, and the trace plot is made before the samples are saved, so a missing directory, a model without a quantity called rate, or a sampled name overwritten by a fixed value loses the samples. File contents are the stored names; the numbers are not modelled."
},
"C121": {
"status": "partial",
"note": "False: the innermost basis functions are stored in np.zeros_like(xs), so 1/spacing is truncated for integer points. With default knots of spacing h every value is h*floor(1/h) times the right one (C121_scaled): equal when 1/h is an integer (C121_partial), smaller otherwise, and zero for knots more than 1 apart. Splines in log x are not concerned. For splines of the logarithm of the density, C121_logy_outside and C121_logy_partial say the same."
},
"C122": {
"status": "partial",
"note": "Proved for O4a and O3 injection files (C122_o4a, C122_o3) with component parameters, for every density that reads the requested columns only. False when events are ignored at reading (C122_ignored_fails): the selection term keeps the number of events of the file. Missing: effective-spin parameters (their prior is not the density, C86)."
},
"C123": {
"status": "partial",
"note": "Proved when the posterior has exactly --samples draws (C123_plpeak_partial, C123_bspline_partial, C123_plpeak_sampled_partial): all files are written, every stored value is the calculator's. False otherwise: with two or more chains the sampler returns chains x samples draws but main packs --samples of them, so after posterior and figures it ends with ValueError and the curves are never saved (C123_*_chains_fails, C123_*_draw_count_fails). At this commit the sampling branch is itself unreachable (C97: the model's call to the likelihood raises TypeError), the --skip-inference branch is not. The posterior file is kept in all these cases (C123_posterior_kept)."
},
"C124": {
"status": "partial",
"note": "Proved for all curves of the spline example (C124_bspline) and for masses, tilts and rate of the power-law example (C124_plpeak_partial). False of the power-law example's spin magnitudes for every draw inside its priors (C124_magnitudes_fails): the shapes mu*var and (1-mu)*var are always below 1, so the stored curve is NaN at both ends of the grid and exactly 0 at the 798 points in between."
},
"C125": {
"status": "partial",
"note": "Reverse-mode differentiation modelled in the same extended arithmetic as the values (Model/AutoDiff.lean); its value is the model's likelihood for all inputs (likelihoodD_f). Proved for plain and log weights incl. weights 0 / -inf and the marginalised selection term: C125_gradient; C125_cut_flat: zero where a cut fires. False: log weights of a product of densities, one of them truncated, give a NaN gradient with a finite likelihood (C125_truncated_log_fails; fine with plain weights, C125_truncated_plain); an event without support gives NaN instead of zero under every flag (C125_empty_event_fails)."
},
"C126": {
"status": "partial",
"note": "Proved for plain weights (C126_fractions_partial). False for log weights (C126_log_fails): pe_weights is exponentiated before the check but indv_weights is not, so a log weight is divided by a weight; every recorded value is negative whenever the weights are below 1."
},
"C49": {
"note": "C49_draws_respect_cuts for complete data; without a mass column the check ends with a KeyError naming it after all likelihood statements (C49_missing_column)."
},
"C127": {
"status": "partial",
"note": "Reverse mode modelled in the extended arithmetic (Model/AutoDiffDensities.lean); both branches of a where are pulled back. Proved: C127_truncnorm (all points off the bounds); C127_powerlaw_partial, C127_powerlaw_log_partial (slope != -1, inside and outside); C127_beta_partial (inside); C127_likelihood (any entry-wise sound weights) and C127_plpeak_partial (the seven mass hyper-parameters through hierarchical_likelihood for any catalogue off the edges). False: at slope -1 all three entries are NaN at every point although the density is smooth (C127_powerlaw_fails, C127_powerlaw_log_fails), so a likelihood differentiable there has a NaN gradient in alpha or beta for every catalogue (C127_plpeak_fails); betadist at points outside its range gives NaN in all entries (C127_beta_outside_fails), and at 0 with alpha > 1 in alpha (C127_beta_zero_fails)."
},
"C128": {
"status": "partial",
"note": "Reverse mode of the spline classes modelled in Model/AutoDiffSplines.lean (nan_to_num passes no cotangent where its input is not finite). Proved: C128_spline (all classes, in range), C128_model (all samples, out-of-range, infinite and NaN ones included: the models only evaluate the spline in range), C128_redshift (PowerlawSplineRedshiftModel in slope and coefficients), C128_difference_prior, C128_bspline (through hierarchical_likelihood for the example's models, any catalogue). False for the log-Y classes evaluated directly at a point outside their range: the value is 0 for all coefficients nearby, every entry of the gradient is NaN (C128_outside_fails)."
},
"C129": {
"status": "partial",
"note": "Reverse mode of the parametric models in Model/AutoDiffParametric.lean. Proved: C129_smooth, C129_log_logistic, C129_logit, C129_tilt, C129_redshift at all their points; C129_plpeak_example_partial: the likelihood of the example, all fourteen hyper-parameters, every catalogue, samples outside the mass range or beyond the redshift maximum included. False: at alpha = -1 or beta = -1 the log likelihood is differentiable but the entry of its gradient for that slope is NaN (C129_plpeak_example_fails, also C129_falloff_fails and C129_plpeak_smooth_fails for the other mass models); one sample with m1 exactly mmin makes the gradient in beta NaN for all hyper-parameters (C129_plpeak_edge_fails). The edges of the taper and spin magnitudes at 0 or outside the range (C127_beta_zero_fails, C127_beta_outside_fails) are excluded from the partial theorems."
},
"C130": {
"status": "partial",
"note": "C130_bayes_factor, C130_selection_partial and C130_likelihood prove it for the Bayes factors, for the log efficiency with one over the returned effective number, and for the log likelihood with the errors put together from those. It is false of the variance detection_efficiency returns, which subtracts 1/Ninj although the effective number already contains it, and of the recorded variance_log_likelihood that contains it: C130_selection_variance_fails and C130_likelihood_variance_fails give the limits that hold instead, and that they differ from the normal probability for every c other than 0."
},
"C131": {
"status": "proved",
"note": "C131_posterior; C131_powerlaw_population shows that the density of powerlaw_pdf with a moving slope (−1 included) and moving ends is such a population although it jumps at its ends. The hyper-parameters range over a compact set, and every Bayes factor and the efficiency must be positive at each of them: the claim is about those cases, the sampler's own convergence is not part of it."
},
"C132": {
"status": "partial",
"note": "C132_small_partial proves it up to 46340 injections. It is false of all larger numbers: Ninj**2 is computed in 32-bit integers inside the compiled function. C132_effective_number_fails: the effective number is then never the right one. C132_selection_cut_fails and C132_variance_cut_fails: with n injections of which at most n^2/2^32 are found (a hundred million and two million, say), the default cut and the variance cut fire at every hyper-parameter, so that the selection effects drop out of the sampled density. The model assumes JAX's default 32-bit integers, which nothing in the repository changes."
},
"C133": {
"status": "partial",
"note": "C133_exact: without rounding the model with explicit summation orders is the model of the other properties. C133_accuracy_partial proves the bound in the stated range for every flag setting; only the largest weight of an event is restricted, and with log weights hardly, so entries that underflow are covered; binary32_contract shows that IEEE single precision satisfies the contract. Partial: largest weights outside the range, more than half of the injections found, and fused multiply-add are not covered."
},
"C134": {
"status": "partial",
"note": "C134_cut_partial and C133_accuracy_partial: in the range of C133 the cuts are decided correctly up to the margin. False of small weights. C134_underflow_fails: if the weights of the found injections are zero or between 2^-85 and 2^-77, their squares underflow, the effective number comes out infinite and the selection cut is absent, with weights and with log weights; the likelihood there is large because the efficiency is small. C134_linear_underflow_fails: with weights rather than log weights, an event whose weights are all below 2^-92 is always cut."
},
"C135": {
"status": "partial",
"note": "False of the defaults. C135_reach and C135_reach_default: whatever the gradients are, a parameter ends within 7.28 lr Niter of its start in the unconstrained coordinate, within 2.31 with the defaults. C135_far_fails: a MAP 50 units away is missed by more than 40. C135_interval_fails: a parameter with a uniform prior, started in the middle, stays in the inner 82 percent of the range in every model. Proved: the names of the result, that a stationary starting point is returned unchanged (C135_stationary_partial), and the exact path on a steady slope. Not proved: that a MAP within reach is approached, which fails for some models and holds for others."
},
"C136": {
"status": "partial",
"note": "False: every transformation raises. tree_flatten returns three values where JAX asks for a pair (C136_jit_fails) and tree_unflatten takes one argument where JAX passes two (C136_unflatten_fails). The two methods called by hand give back the spline (C136_round_trip_partial), and C136_repaired shows that nothing else is in the way."
},
"C137": {
"status": "partial",
"note": "Proved for six single and ten two-component classes: which arguments reach each basis spline, for every set of keywords (C137_component, C137_components, C137_primary_ratio), the defaults, and that private dictionaries are private. False: a keyword that is both shared and private raises TypeError instead of taking precedence (C137_override_fails); an xrange silently discards the mass limits (C137_limits_ignored_fails), and a shared xrange gives the ratio the range of the mass (C137_shared_range_fails); the order keyword k is refused (C137_order_fails). Not modelled: BSplineSymmetricChiEffective and BSplineRedshift, which no two-component class uses."
},
"C138": {
"status": "partial",
"note": "Proved for 0 < low < high: exactly when each function raises, for every combination of Python numbers and arrays, and that it otherwise returns the value of the array model. False: slope -1 with Python bounds raises ZeroDivisionError although that branch is not selected (C138_slope_minus_one_fails), a Python lower bound 0 always raises (C138_lower_bound_zero_fails), and Powerlaw with its default minimum=0.0 and a scalar slope raises in every method (C138_default_minimum_fails)."
},
"C139": {
"status": "partial",
"note": "Proved for a scalar mass ratio (all entries), for an array of mass ratios without boundary entries, and for one with boundary entries only. False: with an array of mass ratios, some but not all of them at a boundary entry, the nested call gets arrays of different lengths and raises ValueError (C139_array_ratio_fails); one effective spin with many mass ratios raises as well (C139_one_spin_many_ratios_fails)."
},
"C140": {
"status": "partial",
"note": "Proved: an error bound 9κ + 4κ (1 + |1+α| L)(1 + 2 / (|1+α| ln(high/low))) on the logarithm of computed over exact density (C140_error), and one for slope exactly -1 (C140_error_log), for every arithmetic meeting the contract. False near slope -1: with slope -1 + 2^-24 single precision returns +inf at every point for low = 1 and any high up to 3/2 (C140_infinite_fails), and at least 1.4 times the exact density on [5, 100] (C140_norm_fails)."
},
"C141": {
"status": "partial",
"note": "Proved for PowerlawRedshiftModel, and for the call of PowerlawSplineRedshiftModel. False for log_prob of PowerlawSplineRedshiftModel: it is inherited, calls the overridden normalization without coefficients, and raises TypeError for every list of arguments (C141_spline_log_prob_fails)."
},
"C142": {
"status": "partial",
"note": "Proved: an error bound κ (13 + 12 ((x-μ)/σ)² + 40 / P) on the logarithm of computed over exact density, P the probability of the interval under the untruncated normal, for points within eight standard deviations (C142_error). False for small P: if the interval is eight or more standard deviations from the mean the result is +inf or NaN at every point (C142_tail_fails). The log-normal branch is modelled but its error is not bounded."
},
"C143": {
"status": "proved",
"note": "C143_basis bounds one basis function of the recursion (relative error 10 k κ), C143_design one entry of the design matrix (14 order κ), each up to an absolute amount that is a power of two (depending on the knot spacing) times the smallest normal number."
},
"C144": {
"status": "partial",
"note": "Proved for coefficients up to 30 in absolute value: relative error 2 (10 order + 5 + 2 D) κ A + (16 + 2 D') κ with A the largest coefficient and D, D' the depths of the two summations (C144_density); the unnormalised density up to 78 (C144_project). False without the condition: with all coefficients 100 the exact density is uniform, and single precision returns NaN at every point (C144_overflow_fails)."
},
"C145": {
"status": "proved",
"note": "C145_weight: product and quotient of computed densities. C145_likelihood: the likelihood of computed weights against the likelihood of exact weights (C118 and C133 combined). C145_spline: the composition with C144 for one log-spline density."
},
"C146": {
"status": "partial",
"note": "C146_density_partial: minimum masses that are not points of the mass grid. On a grid point the claim is false of the code: C146_minimum_on_grid_fails, C146_default_fails. C146_keywords covers the calls that raise. All of it is about the class without line 220 of its constructor."
},
"C147": {
"status": "proved",
"note": "C147_truncnorm (tails included), C147_primary, C147_ratio, C147_masses, C147_tilt, C147_tilts, C147_beta, C147_magnitudes, C147_redshift_prob, C147_redshift, C147_redshift_outside; the ranges are the structures PLRange, PeakOK, RatioRange, TiltOK, BetaOK, RedshiftOK. C147_exact, C147_redshift_exact and C147_value tie the rounded functions and the reference values to the exact model."
},
"C148": {
"status": "proved",
"note": "C148_weight: one weight. C148_likelihood: all of them through the likelihood. C148_exact: without rounding the weight is the product of the exact densities over the prior."
},
"C149": {
"status": "proved",
"note": "C149_project, C149_density (mass), C149_exponent, C149_redshift_prob, C149_redshift; Spline.Steady and Spline.LogPoint are the conditions. C149_exact: the values without rounding. C149_outside and C149_edge_fails: a logarithm rounded past the end of the range costs the density there, so the condition on the computed logarithm cannot be dropped."
},
"C150": {
"status": "proved",
"note": "C150_weight: one weight. C150_likelihood: all of them through the likelihood. C150_exact: without rounding the weight is the product of the exact densities over the prior. The example covers all coefficients up to one and all samples inside the ranges. C150_outside: moving one parameter of a sample beyond the limits of its model makes the weight exactly zero."
},
"C151": {
"status": "proved",
"note": "C151_mono: rounding to single precision is monotone. C151_inside, C151_grid: the positive part. C151_limit_fails (the limit 1.3) and C151_density_fails (what the lost end costs) are the stated failure."
},
"C152": {
"status": "proved",
"note": "C152_unit, C152_log: the two forms. C152_powerlaw, C152_falloff: the densities with soft ends. C152_linear_fails: the overflow of the linear form, which the claim states. C152_exact, C152_exact_density: without rounding these are the functions of C20, C21 and C77."
},
"C153": {
"status": "proved",
"note": "C153_taper: the bound (TaperPoint is the condition). C153_edge_fails: the stated failure at the upper end. C153_exact: without rounding this is the taper of C19."
},
"C154": {
"status": "proved",
"note": "C154_primary and C154_masses: the bounds (TaperedOK is the condition). C154_exact: without rounding these are plpeak_primary_pdf and plpeak_primary_ratio_pdf with a number delta, for masses in the window."
},
"C155": {
"status": "proved",
"note": "C155_first: the relative bound for first differences. C155_penalty: the absolute bound for every degree. C155_constant: equal coefficients. C155_second_fails: the stated failure of a relative bound at degree 2. C155_exact: without rounding this is the penalty of C30."
},
"C156": {
"status": "proved",
"note": "C156_independent, C156_iid, C156_powerlaw_ratio, C156_spline_ratio, C156_symmetric: the bounds. C156_ratio_le: the computed ratio of ordered masses is at most one. C156_exact: without rounding these are the documented products."
},
"C157": {
"status": "proved",
"note": "C157_norm, C157_rate: the bounds. C157_outside_fails: samples outside the limits are not cut (the claim says so). C157_exact: without rounding this is the documented rate. The default normalize=True is outside the claim (C35)."
},
"C158": {
"status": "proved",
"note": "C158_primary, C158_masses: the bounds. C158_outside: zero outside the sampled limits. C158_exact: without rounding this is the documented density."
},
"C159": {
"status": "proved",
"note": "C159_error: the bound. C159_outside: zero outside the limits. C142_exact covers log=True: without rounding the rounded model is the model of distributions.py."
}
}