{"id": "C01", "title": "B-spline bases are a partition of unity on the whole closed domain", "statement": "For BSpline(n_df, xrange=(a,b), k) built with default knots, with at least two interior knots, order k>=2 and knot spacing large enough that no knot gap is treated as degenerate, the basis values returned by bases(x) sum to exactly 1 at every x in [a,b], including both endpoints.", "quantifier": "every order k>=2, every number of basis functions n_df>=k, every domain a<b whose knot spacing is at least the code's 1e-6 degeneracy threshold, every real x in [a,b]", "why_tests_cant": "a test evaluates finitely many x on finitely many (n_df,k,xrange); the identity is a statement about a recursion of arbitrary depth at every real x", "anchors": ["gwinferno/interpolation.py:BSpline._bases", "gwinferno/interpolation.py:BasisSpline._basis", "gwinferno/interpolation.py:BasisSpline.__init__", "gwinferno/interpolation.py:BasisSpline.bases"]}
{"id": "C02", "title": "Spline basis functions are non-negative", "statement": "Every value returned by bases(x) of BasisSpline or BSpline is >= 0, for default knots and for any user-supplied non-decreasing knot vector.", "quantifier": "every order k>=1, every non-decreasing knot vector (coincident knots allowed), every basis index, every real x", "why_tests_cant": "sampled x and knot vectors cannot cover all real positions or coincident-knot patterns", "anchors": ["gwinferno/interpolation.py:BasisSpline._basis", "gwinferno/interpolation.py:BasisSpline.bases"]}
{"id": "C03", "title": "Spline basis functions have local support", "statement": "Basis component i of order k is exactly 0 for every x outside the half-open interval [t_i, t_{i+k}), so at any x at most k components are non-zero, and every component is exactly 0 for x outside xrange.", "quantifier": "every order k>=1, every non-decreasing knot vector, every index, every real x", "why_tests_cant": "zero sets of infinitely many real points cannot be enumerated", "anchors": ["gwinferno/interpolation.py:BasisSpline._basis", "gwinferno/interpolation.py:BasisSpline.bases"]}
{"id": "C04", "title": "Evaluating a B-spline stays in the range of its coefficients", "statement": "On the domain, the un-normalised BSpline value is a weighted average of coefficients: it lies between the smallest and the largest coefficient; in particular constant coefficients give back the constant.", "quantifier": "every coefficient vector of length n_df, every admissible (n_df,k,a,b), every x in [a,b]", "why_tests_cant": "needs all real coefficients and all x", "anchors": ["gwinferno/interpolation.py:BSpline._project", "gwinferno/interpolation.py:BSpline.project", "gwinferno/interpolation.py:BSpline.bases"]}
{"id": "C05", "title": "Projection is linear in the coefficients and normalised projection is scale free", "statement": "Un-normalised projection is linear in the coefficient vector for any design matrix; with normalisation on, multiplying every coefficient by a non-zero constant does not change the projected function (BasisSpline and BSpline).", "quantifier": "every design matrix, every pair of coefficient vectors, every real scale", "why_tests_cant": "an algebraic law over all real vectors", "anchors": ["gwinferno/interpolation.py:BasisSpline.project", "gwinferno/interpolation.py:BasisSpline.norm", "gwinferno/interpolation.py:BSpline.project", "gwinferno/interpolation.py:BSpline.norm"]}
{"id": "C06", "title": "A normalised spline has unit integral on its own grid", "statement": "Whenever the un-normalised trapezoid integral over the spline's stored grid is a non-zero finite number, the trapezoid integral of the normalised spline over that grid is exactly 1, for BasisSpline, BSpline, LogXBSpline, LogYBSpline and LogXLogYBSpline.", "quantifier": "every coefficient vector with non-zero raw integral, every grid and design matrix", "why_tests_cant": "ranges over all coefficient vectors and grids", "anchors": ["gwinferno/interpolation.py:BasisSpline.norm", "gwinferno/interpolation.py:BSpline.norm", "gwinferno/interpolation.py:BSpline.project", "gwinferno/interpolation.py:LogYBSpline._project"]}
{"id": "C07", "title": "M-spline basis elements have unit area", "statement": "Each M-spline component (BasisSpline with no truncation to xrange) integrates to exactly 1 over the real line when its knot span is not degenerate.", "quantifier": "every order, every strictly increasing knot vector with gaps above the degeneracy threshold, every index", "why_tests_cant": "an integral over the reals for every knot vector", "anchors": ["gwinferno/interpolation.py:BasisSpline._basis"]}
{"id": "C08", "title": "User-supplied interior knots are where the spline's knots are", "statement": "A spline built with interior_knots=... has those points as its knots inside xrange.", "quantifier": "every strictly increasing interior knot vector with the right length and endpoints xrange", "why_tests_cant": "the tests only use uniform knots", "anchors": ["gwinferno/interpolation.py:BasisSpline.__init__"]}
{"id": "C09", "title": "LogXBSpline is the B-spline in log x", "statement": "LogXBSpline.bases(x) equals the B-spline bases on (log a, log b) at log x: partition of unity on [a,b], zero outside [a,b] for every positive x, and it is scale covariant (rescaling x and the domain by the same factor changes nothing).", "quantifier": "every 0<a<b, every positive x, every rescaling factor > 0", "why_tests_cant": "all positive reals", "anchors": ["gwinferno/interpolation.py:LogXBSpline"]}
{"id": "C10", "title": "Log-Y splines give exact zero off the domain and positive density on it", "statement": "LogYBSpline and LogXLogYBSpline evaluate to a strictly positive finite un-normalised density at every x in the domain and to exactly 0 (never NaN) at every finite x outside it, for every finite coefficient vector; adding one constant to all coefficients leaves the normalised density unchanged.", "quantifier": "every finite coefficient vector (including zeros and negative entries), every x", "why_tests_cant": "the out-of-range path goes through -inf and NaN arithmetic whose outcome depends on the signs of all coefficients", "anchors": ["gwinferno/interpolation.py:LogYBSpline._project", "gwinferno/interpolation.py:LogYBSpline.bases", "gwinferno/interpolation.py:LogXLogYBSpline.bases"]}
{"id": "C11", "title": "Natural cubic spline interpolates its data and is twice continuously differentiable", "statement": "NaturalCubicUnivariateSpline(x,y) returns y_i at every knot x_i, and adjacent polynomial pieces agree in value, first and second derivative at every interior knot, with zero second derivative at the left end.", "quantifier": "every strictly increasing abscissa vector with more than 3 points, every ordinate vector", "why_tests_cant": "all real data", "anchors": ["gwinferno/interpolation.py:NaturalCubicUnivariateSpline"]}
{"id": "C12", "title": "Natural cubic spline is natural at the right end", "statement": "The interpolant has zero second derivative at the last knot.", "quantifier": "every strictly increasing abscissa vector, every ordinate vector", "why_tests_cant": "a numerical tolerance test on smooth data does not see the boundary row", "anchors": ["gwinferno/interpolation.py:NaturalCubicUnivariateSpline.compute_coefficients", "gwinferno/interpolation.py:NaturalCubicUnivariateSpline.__init__"]}
{"id": "C13", "title": "The natural cubic spline system always has exactly one solution", "statement": "The linear system solved for the spline coefficients has a unique solution whenever the abscissae are strictly increasing.", "quantifier": "every length and every strictly increasing abscissa vector", "why_tests_cant": "non-singularity for every size", "anchors": ["gwinferno/interpolation.py:NaturalCubicUnivariateSpline.__init__"]}
{"id": "C14", "title": "get_coefficients is the least-squares projection", "statement": "When the Gram matrix is invertible, the coefficients returned by get_coefficients minimise the sum of squared residuals over all coefficient vectors, the residual is orthogonal to every basis row, and data generated by a spline are recovered exactly.", "quantifier": "every design matrix with invertible Gram matrix, every data vector, every competing coefficient vector", "why_tests_cant": "optimality against infinitely many competitors", "anchors": ["gwinferno/interpolation.py:BasisSpline.get_coefficients"]}
{"id": "C15", "title": "The tensor-product spline can be evaluated", "statement": "RectBivariateBasisSpline.bases / eval / construction with normalize=True return a value rather than raising.", "quantifier": "every constructor argument and input", "why_tests_cant": "a claim over all arguments; there is no test of the class", "anchors": ["gwinferno/interpolation.py:RectBivariateBasisSpline"]}
{"id": "C16", "title": "Spline constructor accepts exactly consistent knot counts", "statement": "With default knots the constructor never trips its length assertion for n_df >= k, and the knots produced are uniformly spaced with domain endpoints exactly at knots k-1 and n_df; with explicit knots it succeeds iff len(knots) = n_df + k.", "quantifier": "every n_df>=k>=1, every a<b, every explicit knot vector", "why_tests_cant": "all sizes", "anchors": ["gwinferno/interpolation.py:BasisSpline.__init__"]}
{"id": "C17", "title": "powerlaw_pdf is a normalised density, including slope -1", "statement": "For 0<low<high, powerlaw_pdf integrates to exactly 1 over [low,high] for every slope alpha (including alpha=-1), is non-negative, and equals the floor outside [low,high].", "quantifier": "every alpha, every 0<low<high, every x", "why_tests_cant": "an integral for every real slope with a branch at a single point", "anchors": ["gwinferno/distributions.py:powerlaw_pdf"]}
{"id": "C18", "title": "powerlaw_pdf shape and endpoints", "statement": "Inside [low,high] (both ends included) the ratio of densities at two points is (x/y)^alpha; the density never is NaN or infinite for 0<low<high.", "quantifier": "every alpha, low, high, x, y in range", "why_tests_cant": "all reals", "anchors": ["gwinferno/distributions.py:powerlaw_pdf"]}
{"id": "C19", "title": "smooth() is a taper from 0 to 1", "statement": "smooth(dx,x,xmin) is 0 for x<xmin, 1 for x>=xmin+dx, and strictly between, increasing, on the window.", "quantifier": "every dx>0, xmin, x", "why_tests_cant": "the tests do not evaluate outside the window", "anchors": ["gwinferno/distributions.py:smooth"]}
{"id": "C20", "title": "Logistic soft truncation is complementary, bounded and monotone", "statement": "logistic_unit takes values strictly between 0 and 1, equals 1/2 at x0, the left and right units with equal scale sum to 1 at every x, and it is decreasing in x for sgn*sc>0 and increasing for sgn*sc<0.", "quantifier": "every real x, x0, sgn, sc", "why_tests_cant": "all reals", "anchors": ["gwinferno/distributions.py:logistic_unit", "gwinferno/distributions.py:logistic_function"]}
{"id": "C21", "title": "log_logistic_unit equals the log of logistic_unit", "statement": "Both branches of log_logistic_unit agree with log(logistic_unit) at every x.", "quantifier": "every real x, x0, sgn, sc", "why_tests_cant": "all reals, two branches", "anchors": ["gwinferno/distributions.py:log_logistic_unit"]}
{"id": "C22", "title": "truncnorm_pdf is a normalised truncated Gaussian / log-normal", "statement": "truncnorm_pdf integrates to exactly 1 over [low,high], is positive inside and 0 outside, for the linear version with any low<high and for the log version with 0<low<high.", "quantifier": "every mu, every sigma>0, every low<high", "why_tests_cant": "an integral for all parameters", "anchors": ["gwinferno/distributions.py:truncnorm_pdf"]}
{"id": "C23", "title": "betadist is a normalised Beta density on [0,scale]", "statement": "betadist is non-negative on [0,scale], equals floor outside, integrates to 1 over (0,scale), and is a number (not NaN) at every x.", "quantifier": "every alpha,beta>0, scale>0, x", "why_tests_cant": "endpoint behaviour depends on the shape parameters exactly equal to 1", "anchors": ["gwinferno/distributions.py:betadist"]}
{"id": "C24", "title": "Sine/Cosine distributions: cdf and icdf are inverse and the density integrates to one over the support", "statement": "For Sine(min,max) within [0,pi] and Cosine(min,max) within [-pi/2,pi/2]: icdf(cdf(x))=x on the support, cdf(icdf(q))=q on [0,1], cdf is 0 below, 1 above and monotone, samples lie in the support, and exp(log_prob) integrates to 1 over the support.", "quantifier": "every min<max in range, every x, every q in [0,1]", "why_tests_cant": "tests use default bounds", "anchors": ["gwinferno/numpyro_distributions.py:Sine", "gwinferno/numpyro_distributions.py:Cosine"]}
{"id": "C25", "title": "Powerlaw distribution: cdf and icdf are inverse", "statement": "Powerlaw(alpha,min,max): icdf maps [0,1] into [min,max] and is the inverse of cdf there, for every slope including -1; cdf is monotone with values in [0,1].", "quantifier": "every alpha, every 0<min<max, every x, q", "why_tests_cant": "branch at one point", "anchors": ["gwinferno/numpyro_distributions.py:Powerlaw.cdf", "gwinferno/numpyro_distributions.py:Powerlaw.icdf"]}
{"id": "C26", "title": "Powerlaw distribution: exp(log_prob) integrates to one for every slope", "statement": "exp(log_prob) integrates to 1 over [min,max] and is the derivative of cdf, for every alpha including -1.", "quantifier": "every alpha, every 0<min<max", "why_tests_cant": "the special slope -1 is one point of a continuum", "anchors": ["gwinferno/numpyro_distributions.py:Powerlaw.log_prob"]}
{"id": "C27", "title": "PowerlawSmoothedPowerlaw is continuous and normalised", "statement": "The density is continuous across both break points and integrates to one over (low,high).", "quantifier": "every admissible slope triple and break points", "why_tests_cant": "integral for all parameters", "anchors": ["gwinferno/numpyro_distributions.py:PowerlawSmoothedPowerlaw"]}
{"id": "C28", "title": "Gridded distributions: cdf is a valid cdf and icdf its inverse", "statement": "PowerlawRedshift and BSplineDistribution: cdf starts at 0, ends at 1, is non-decreasing and equals the running trapezoid integral of the density at grid points; icdf inverts it.", "quantifier": "every grid with at least two points, every non-negative pdf on it", "why_tests_cant": "all grids and pdfs", "anchors": ["gwinferno/numpyro_distributions.py:cumtrapz", "gwinferno/numpyro_distributions.py:PowerlawRedshift", "gwinferno/numpyro_distributions.py:BSplineDistribution"]}
{"id": "C29", "title": "PowerlawRedshift density is normalised on its grid and truncated at maximum", "statement": "exp(log_prob) at the grid points has trapezoid integral 1 when the grid ends at maximum; above maximum log_prob is the large negative finite constant.", "quantifier": "every grid, volume element and slope", "why_tests_cant": "all grids", "anchors": ["gwinferno/numpyro_distributions.py:PowerlawRedshift"]}
{"id": "C30", "title": "P-spline penalty: sign, null space, scaling, invariance", "statement": "apply_difference_prior(c, inv_var, n) is <=0 for inv_var>=0, is 0 (inv_var>0) iff the coefficients are values of a polynomial of degree < n at consecutive integers, is unchanged by adding such a polynomial, is linear in inv_var and quadratic in c, and is unchanged by reversing the coefficients.", "quantifier": "every coefficient vector of any length, every order n", "why_tests_cant": "all vectors and orders", "anchors": ["gwinferno/models/bsplines/smoothing.py:apply_difference_prior", "gwinferno/numpyro_distributions.py:PSplineCoeficientPrior.log_prob"]}
{"id": "C31", "title": "1D spline models: zero outside, spline inside, order preserved", "statement": "A 1-D B-spline model evaluated on an array returns an array of the same shape in which every sample outside xrange gets 0 and every sample inside gets exactly the spline value at that sample, in the original position; the PE array uses PE samples and the injection array injection samples.", "quantifier": "every sample array (any length, any mask pattern, incl. none/all in range), every coefficient vector", "why_tests_cant": "all mask patterns", "anchors": ["gwinferno/models/bsplines/single.py:Base1DBSplineModel"]}
{"id": "C32", "title": "Symmetric effective-spin model is even", "statement": "BSplineSymmetricChiEffective gives the same density at chi and -chi and half the density of the spline at |chi|.", "quantifier": "every sample and coefficient vector", "why_tests_cant": "all reals", "anchors": ["gwinferno/models/bsplines/single.py:BSplineSymmetricChiEffective"]}
{"id": "C33", "title": "Separable models factorise", "statement": "Each separable two-component model equals the product of its two 1-D components on both data sets, and the IID variants use the same coefficients for both components.", "quantifier": "every pair of sample arrays and coefficient vectors", "why_tests_cant": "all inputs", "anchors": ["gwinferno/models/bsplines/separable.py"]}
{"id": "C34", "title": "Component-mass models respect m2<=m1", "statement": "Component-mass spline models give zero density when the mass ratio is outside [0,1].", "quantifier": "every pair of masses", "why_tests_cant": "all inputs", "anchors": ["gwinferno/models/bsplines/separable.py:BSplineIIDComponentMasses", "gwinferno/models/bsplines/separable.py:BSplineIndependentComponentMasses"]}
{"id": "C35", "title": "Redshift spline model is consistent with its normalisation", "statement": "BSplineRedshift / PowerlawSplineRedshift: density divided by its own normalisation integrates to one over the model's grid and vanishes outside the redshift range.", "quantifier": "every coefficient vector and redshift", "why_tests_cant": "all inputs", "anchors": ["gwinferno/models/bsplines/single.py:BSplineRedshift", "gwinferno/models/spline_perturbation.py:PowerlawSplineRedshiftModel"]}
{"id": "C36", "title": "powerlaw_primary_ratio_pdf is a joint density", "statement": "For each m1 in (mmin,mmax] the q-density integrates to 1 over [mmin/m1,1], the m1 marginal integrates to 1, and the joint density is 0 whenever m2=q*m1<mmin, q>1 or m1 outside [mmin,mmax].", "quantifier": "every alpha, beta, 0<mmin<mmax, every m1,q", "why_tests_cant": "integral for all parameters", "anchors": ["gwinferno/models/parametric/parametric.py:powerlaw_primary_ratio_pdf"]}
{"id": "C37", "title": "Powerlaw+peak is a normalised mixture", "statement": "Without tapering plpeak_primary_pdf is a convex mixture: it integrates to 1 and lies between its components; lam=0 and lam=1 reduce to the pure components.", "quantifier": "every lam in [0,1], every parameter", "why_tests_cant": "all parameters", "anchors": ["gwinferno/models/parametric/parametric.py:plpeak_primary_pdf", "gwinferno/models/parametric/parametric.py:plpeak_primary_ratio_pdf"]}
{"id": "C38", "title": "Spin models are normalised mixtures/products and symmetric", "statement": "mixture_isoalign_spin_tilt integrates to 1 over [-1,1] and is 0 outside; iid and default tilt/magnitude models are symmetric under exchanging the two components; iid = independent with equal hyper-parameters.", "quantifier": "every xi in [0,1], sigma>0, every cos tilt", "why_tests_cant": "all reals", "anchors": ["gwinferno/models/parametric/parametric.py:mixture_isoalign_spin_tilt", "gwinferno/models/parametric/parametric.py:iid_spin_tilt", "gwinferno/models/parametric/parametric.py:default_spin_tilt", "gwinferno/models/parametric/parametric.py:iid_spin_magnitude"]}
{"id": "C39", "title": "Power-law redshift model: normalised, truncated and log-consistent", "statement": "PowerlawRedshiftModel: the density on the model's own grid has trapezoid integral 1; above zmax the density is exactly 0 and log_prob the large negative constant; at or below zmax log_prob is the log of the density.", "quantifier": "every sample arrays, every slope", "why_tests_cant": "all inputs", "anchors": ["gwinferno/models/parametric/parametric.py:PowerlawRedshiftModel"]}
{"id": "C40", "title": "Per-event estimator: log and linear paths agree", "statement": "per_event_log_bayes_factors(w, log=False) and per_event_log_bayes_factors(log w, log=True) return the same Bayes factors, effective sample sizes and variances for strictly positive weights, and also for weights containing zeros that are not all zero.", "quantifier": "every non-empty weight matrix", "why_tests_cant": "all weight vectors", "anchors": ["gwinferno/pipeline/analysis.py:per_event_log_bayes_factors"]}
{"id": "C41", "title": "Effective sample size and variance bounds", "statement": "For non-negative weights, not all zero, 1 <= n_eff <= N_samples with equality on the right iff all weights are equal, and the variance estimate is >= 0.", "quantifier": "every weight vector of any length", "why_tests_cant": "an inequality over all vectors (Cauchy-Schwarz)", "anchors": ["gwinferno/pipeline/analysis.py:per_event_log_bayes_factors"]}
{"id": "C42", "title": "Estimator invariances: permutation and rescaling", "statement": "Reordering samples leaves every output unchanged; multiplying all weights of an event by c>0 shifts its log Bayes factor by log c and leaves n_eff and the variance unchanged; the same for the detection efficiency.", "quantifier": "every weight vector, permutation and scale", "why_tests_cant": "all permutations and scales", "anchors": ["gwinferno/pipeline/analysis.py:per_event_log_bayes_factors", "gwinferno/pipeline/analysis.py:detection_efficiency"]}
{"id": "C43", "title": "Detection efficiency variance is the Monte Carlo variance of log mu", "statement": "The variance returned by detection_efficiency is a valid relative Monte Carlo variance: non-negative and equal to sum w^2/(sum w)^2 - 1/Ninj.", "quantifier": "every weight vector with no more entries than Ninj", "why_tests_cant": "all weight vectors", "anchors": ["gwinferno/pipeline/analysis.py:detection_efficiency"]}
{"id": "C44", "title": "Detection efficiency log and linear paths agree", "statement": "detection_efficiency(w,N,log=False) and detection_efficiency(log w,N,log=True) agree for non-negative weights that are not all zero.", "quantifier": "every weight vector, every Ninj>=1", "why_tests_cant": "all weight vectors", "anchors": ["gwinferno/pipeline/analysis.py:detection_efficiency"]}
{"id": "C45", "title": "The log-likelihood factor is always a finite number", "statement": "For arbitrary intermediate values of the Monte Carlo integrals - finite, infinite or NaN - the log-likelihood contributed to the model is finite, hence never NaN or infinite.", "quantifier": "every value (including NaN, +-inf) of every intermediate quantity and every flag combination that does not raise", "why_tests_cant": "sampler proposals can produce any of these values", "anchors": ["gwinferno/pipeline/analysis.py:hierarchical_likelihood"]}
{"id": "C46", "title": "Cut semantics of the likelihood", "statement": "With min_neff_cut, the likelihood is the large negative constant whenever some event's effective sample size is <= Nobs, and the selection term is replaced by the large negative constant whenever the injection effective sample size is below 4*Nobs; with max_variance_cut it is the large negative constant iff the total variance is not <= 1; incompatible flags raise ValueError before anything is sampled.", "quantifier": "every weights and flags", "why_tests_cant": "all inputs and all 2^n flags", "anchors": ["gwinferno/pipeline/analysis.py:hierarchical_likelihood"]}
{"id": "C47", "title": "Likelihood value when no cut fires", "statement": "When all Monte Carlo estimates are finite and no cut fires, the factor equals sum_i log BF_i - Nobs*log(mu) (minus the selection-uncertainty correction when marginalising), and it is invariant under event relabelling and under a common rescaling of all PE and injection weights.", "quantifier": "every weights with positive sums", "why_tests_cant": "all inputs", "anchors": ["gwinferno/pipeline/analysis.py:hierarchical_likelihood"]}
{"id": "C48", "title": "Reported merger rate inverts the expected number of detections", "statement": "The rate satisfies rate * (surveyed hypervolume/1e9*Tobs) * detection efficiency = unscaled_rate, whenever the efficiency and VT are positive; it is not reported when reconstruct_rate is False; the cuts do not alter the rate.", "quantifier": "every positive efficiency, VT, rate draw and flags", "why_tests_cant": "all inputs", "anchors": ["gwinferno/pipeline/analysis.py:hierarchical_likelihood"]}
{"id": "C49", "title": "Posterior predictive draws respect the mass cuts", "statement": "PPC draws never select a PE sample or injection whose masses violate the cuts, when at least one admissible sample has positive weight.", "quantifier": "every weight/data array and every random draw", "why_tests_cant": "all random draws", "anchors": ["gwinferno/pipeline/analysis.py:hierarchical_likelihood"]}
{"id": "C50", "title": "IID sharing in configuration-built models works", "statement": "A parameter configured as sharing another parameter's population model is evaluated with that model.", "quantifier": "every model dictionary with an IID entry", "why_tests_cant": "all configurations", "anchors": ["gwinferno/pipeline/analysis.py:construct_hierarchical_model"]}
{"id": "C51", "title": "The configured redshift model can be evaluated", "statement": "construct_hierarchical_model with a redshift entry evaluates the model without raising.", "quantifier": "every prior and model dictionary", "why_tests_cant": "all configurations", "anchors": ["gwinferno/pipeline/analysis.py:construct_hierarchical_model", "gwinferno/numpyro_distributions.py:PowerlawRedshift"]}
{"id": "C52", "title": "Comoving distance and volume grids are monotone from zero", "statement": "After construction and after any sequence of calls, the distance and volume tables start at 0 and are strictly increasing, as is luminosity distance.", "quantifier": "every sequence of extend/z2Dc/z2DL calls, all positive parameters and step sizes", "why_tests_cant": "all call histories and grid sizes", "anchors": ["gwinferno/cosmology.py:Cosmology"]}
{"id": "C53", "title": "Distance tables approximate the integral with a certified error", "statement": "After any sequence of calls, each tabulated comoving distance differs from the exact integral of f=c/(H0 E) from 0 to z by at most dz/2*(f(0)-f(z)), and each distance answered inside the table by at most dz/2*c/H0.", "quantifier": "every history of calls, every grid index and every redshift inside the table, every positive step, every flat cosmology", "why_tests_cant": "an inequality against an exact integral at all grid points", "anchors": ["gwinferno/cosmology.py:Cosmology.update", "gwinferno/cosmology.py:Cosmology.extend", "gwinferno/cosmology.py:Cosmology.z2Dc"]}
{"id": "C54", "title": "Redshift and luminosity distance are mutually inverse on the table", "statement": "DL2z(z2DL(z)) = z and z2DL(DL2z(d)) = d at table nodes and, within a cell, exactly inverse because both use linear interpolation on the same table.", "quantifier": "every z inside the table, every d inside the table", "why_tests_cant": "all reals in range", "anchors": ["gwinferno/cosmology.py:Cosmology.z2DL", "gwinferno/cosmology.py:Cosmology.DL2z"]}
{"id": "C55", "title": "Distance answers do not depend on call history", "statement": "The distance returned for a redshift is the same whatever calls were made before.", "quantifier": "every history of calls", "why_tests_cant": "all histories", "anchors": ["gwinferno/cosmology.py:Cosmology.z2Dc", "gwinferno/cosmology.py:Cosmology.z2DL", "gwinferno/cosmology.py:Cosmology.extend"]}
{"id": "C56", "title": "Beyond-table queries are answered by extending the table", "statement": "A query above the table returns the distance at that redshift (z2Dc/z2DL) or the redshift for that distance (DL2z).", "quantifier": "every query value", "why_tests_cant": "all queries", "anchors": ["gwinferno/cosmology.py:Cosmology.z2Dc", "gwinferno/cosmology.py:Cosmology.DL2z", "gwinferno/cosmology.py:Cosmology.extend"]}
{"id": "C57", "title": "logdVcdz is the log of dVcdz", "statement": "For z>0 (positive distance) logdVcdz equals log(dVcdz) and both use the same distance.", "quantifier": "every z, every positive Dc", "why_tests_cant": "all reals", "anchors": ["gwinferno/cosmology.py:Cosmology.logdVcdz", "gwinferno/cosmology.py:Cosmology.dVcdz"]}
{"id": "C58", "title": "Effective spins stay in physical range", "statement": "chieff_from_q_component_spins and chip_from_q_component_spins return |chi_eff|<=1 and 0<=chi_p<=1 for physical inputs, chi_eff is bounded by the larger projected spin, and exchanging equal-mass components leaves them unchanged.", "quantifier": "every q in (0,1], spins in [0,1], cos tilts in [-1,1]", "why_tests_cant": "all reals", "anchors": ["gwinferno/preprocess/conversions.py"]}
{"id": "C59", "title": "Beta-distribution reparametrisation round-trips", "statement": "mu_var_from_alpha_beta and alpha_beta_from_mu_var are mutually inverse on their admissible domains, with 0<mu<xmax and 0<var<mu*(xmax-mu), and mu/var are the mean and variance of the corresponding Beta distribution scaled to [0,xmax].", "quantifier": "every alpha,beta,xmax>0; every admissible mu,var", "why_tests_cant": "algebraic law over all reals", "anchors": ["gwinferno/preprocess/conversions.py"]}
{"id": "C60", "title": "Aligned-spin chi_eff prior is a symmetric normalised density", "statement": "chi_effective_prior_from_aligned_spins is non-negative, even, zero outside (-amax,amax) and integrates to 1.", "quantifier": "every q in (0,1], amax>0, every chi", "why_tests_cant": "integral for all parameters", "anchors": ["gwinferno/preprocess/priors.py:chi_effective_prior_from_aligned_spins"]}
{"id": "C61", "title": "Isotropic chi_eff prior terminates and is even", "statement": "chi_effective_prior_from_isotropic_spins terminates on every input, is even in chi_eff, vanishes for |chi_eff|>=amax and scales as p(chi; amax) = p(chi/amax; 1)/amax.", "quantifier": "every q, amax, chi", "why_tests_cant": "boundary recursion at measure-zero inputs", "anchors": ["gwinferno/preprocess/priors.py:chi_effective_prior_from_isotropic_spins"]}
{"id": "C62", "title": "chi_p prior is a normalised density", "statement": "chi_p_prior_from_isotropic_spins is non-negative, zero outside its support, and integrates to 1 over [0,amax].", "quantifier": "every q in (0,1], amax>0", "why_tests_cant": "integral for all parameters", "anchors": ["gwinferno/preprocess/priors.py:chi_p_prior_from_isotropic_spins"]}
{"id": "C63", "title": "Conditional chi_p sampler only accepts configurations with the requested chi_eff", "statement": "Every accepted Monte Carlo draw has |cos tilt|<=1 and reproduces the requested chi_eff; the resulting density is non-negative, zero outside the reachable interval and normalised.", "quantifier": "every random stream, q, chi_eff", "why_tests_cant": "all random streams", "anchors": ["gwinferno/preprocess/priors.py:chi_p_prior_given_chi_eff_q"]}
{"id": "C64", "title": "Found-injection selection is an OR of thresholds and keeps columns aligned", "statement": "get_o4a / get_o3 keep exactly the injections that pass the SNR threshold or at least one pipeline threshold, keep all columns aligned, and never include an injection failing every criterion; raising thresholds can only shrink the set. The analysis time is the file's, in years; a file without one is refused.", "quantifier": "every injection table, every set of pipelines and thresholds", "why_tests_cant": "all tables", "anchors": ["gwinferno/preprocess/selection.py:get_o4a_cumulative_injection_dict", "gwinferno/preprocess/selection.py:get_o3_cumulative_injection_dict"]}
{"id": "C65", "title": "additional_cuts restrict the found set", "statement": "Supplying additional_cuts to get_o3_cumulative_injection_dict can only remove injections.", "quantifier": "every table and cuts", "why_tests_cant": "all tables", "anchors": ["gwinferno/preprocess/selection.py:get_o3_cumulative_injection_dict"]}
{"id": "C66", "title": "Injection prior Jacobians are exact", "statement": "The stored prior equals the sampling density times the Jacobian of (m2->q) and of each spin vector -> (magnitude, cos tilt) up to the azimuth integral, so densities transform consistently.", "quantifier": "every injection and parameter set", "why_tests_cant": "all inputs", "anchors": ["gwinferno/preprocess/selection.py"]}
{"id": "C67", "title": "Resampled injections are an unbiased proxy", "statement": "resample_injections draws N <= number of found injections, assigns each draw the new prior model/norm, and for every function the expectation of the resampled detection-efficiency estimator equals the original estimate. The returned effective number is the squared estimate over its variance, the undetected injections counted with weight 0.", "quantifier": "every positive weights, every test function", "why_tests_cant": "an expectation identity for all functions", "anchors": ["gwinferno/preprocess/selection.py:resample_injections"]}
{"id": "C68", "title": "Catalogue loading keeps columns aligned and reports the number of events kept", "statement": "load_pe_and_injections_as_dict returns nObs equal to the number of events in the returned arrays.", "quantifier": "every catalogue and ignore list", "why_tests_cant": "all lists", "anchors": ["gwinferno/pipeline/utils.py:load_pe_and_injections_as_dict"]}
{"id": "C69", "title": "Down-sampling PE keeps joint samples together", "statement": "Every stored PE sample of an event is one of that event's original samples with all parameters (and prior) taken from the same original row, and all events have the same number of samples.", "quantifier": "every catalogue and every random draw", "why_tests_cant": "all random draws", "anchors": ["gwinferno/preprocess/data_collection.py"]}
{"id": "C70", "title": "Configuration flattening maps each hyper-parameter to its own prior", "statement": "Every hyper-parameter in the model section is flattened to a unique key under which its prior or fixed value is found.", "quantifier": "every configuration dictionary", "why_tests_cant": "name collisions need adversarial names", "anchors": ["gwinferno/pipeline/parser.py:ConfigReader"]}
{"id": "C71", "title": "Posterior/PDF packaging keeps every quantity", "statement": "posterior_dict_to_xarray / pdf_dict_to_xarray return datasets containing every input quantity and do not alter the caller's dictionaries.", "quantifier": "every dictionary", "why_tests_cant": "all key sets", "anchors": ["gwinferno/pipeline/utils.py:posterior_dict_to_xarray", "gwinferno/pipeline/utils.py:pdf_dict_to_xarray"]}
{"id": "C72", "title": "Posterior predictive rate curves integrate to the rate", "statement": "Each PPD row returned by the postprocessing calculators has trapezoid integral over its own grid equal to rate*population fraction for that posterior draw.", "quantifier": "every posterior draw array and grid", "why_tests_cant": "all draws", "anchors": ["gwinferno/postprocess/calculations.py"]}
{"id": "C73", "title": "Mixture and iid spline helper naming is collision free", "statement": "bspline_mass_prior / bspline_spin_prior / bspline_redshift_prior register each sampled site under a distinct name for each requested component and return arrays of the requested sizes.", "quantifier": "every name suffix, component list and size", "why_tests_cant": "all names", "anchors": ["gwinferno/pipeline/utils.py:bspline_mass_prior", "gwinferno/pipeline/utils.py:bspline_spin_prior", "gwinferno/pipeline/utils.py:bspline_redshift_prior"]}
{"id": "C74", "title": "BSplineDistribution: density normalised on its grid and log_prob never NaN", "statement": "For a BSplineDistribution the exponential of log_prob at the grid points has trapezoid integral exactly 1, and log_prob is a number (possibly -inf outside the spline's support) at every value.", "quantifier": "all coefficient vectors, all increasing grids, all design matrices (finite or NaN outside the support), all real query values", "why_tests_cant": "the normalisation must hold for every coefficient vector and grid, and the NaN arises only on cells of the grid outside the spline support", "anchors": ["gwinferno/numpyro_distributions.py:BSplineDistribution"]}
{"id": "C75", "title": "Spline-perturbed power-law primary mass density is normalised", "statement": "For PowerlawBasisSplinePrimaryPowerlawRatio the primary-mass density used on both data sets is one function, proportional to m1^(-alpha) exp(spline(log m1)) on the power-law interval and zero outside, with unit trapezoid integral over the model's mass grid, times a mass-ratio power law normalised on [m2min/m1, 1]; the model can be built for every advertised spline order k.", "quantifier": "every coefficient vector, slope, mass bounds with 0<mmin<mmax overlapping the grid, every sample array, every order k", "why_tests_cant": "normalisation must hold for all hyper-parameters; the order parameter fails for every value other than the default", "anchors": ["gwinferno/models/spline_perturbation.py:PowerlawBasisSplinePrimaryPowerlawRatio"]}
{"id": "C76", "title": "PowerlawBasisSplinePrimaryRatio is constructible", "statement": "Constructing PowerlawBasisSplinePrimaryRatio with valid sample arrays and at least k splines succeeds.", "quantifier": "every number of splines, bounds and order", "why_tests_cant": "the claim is about all constructor arguments", "anchors": ["gwinferno/models/spline_perturbation.py:PowerlawBasisSplinePrimaryRatio"]}
{"id": "C77", "title": "Soft truncation of the two-parameter mass model uses the requested steepness", "statement": "powerlaw_primary_ratio_falloff_pdf with steepness fall_off equals the mass-ratio power law times the primary power law softened by logistic factors of steepness fall_off at both mmin and mmax.", "quantifier": "every mass pair, slope, edge and steepness", "why_tests_cant": "a functional identity over a continuum of arguments", "anchors": ["gwinferno/distributions.py:powerlaw_primary_ratio_falloff_pdf", "gwinferno/distributions.py:powerlaw_logit_pdf"]}
{"id": "C78", "title": "Configured model function is history independent", "statement": "The function returned by construct_hierarchical_model keeps its sub-models in variables that survive a call; nevertheless every call executes the same statements and has the same outcome as a first call with the same arguments and draws, whatever calls (completed or aborted) were made before.", "quantifier": "every configuration, data set, draw and finite call history", "why_tests_cant": "quantifies over all call histories", "anchors": ["gwinferno/pipeline/analysis.py:construct_hierarchical_model"]}
{"id": "C79", "title": "Categorical labels select each event's weights", "statement": "With categorical=True hierarchical_likelihood draws one label per event and then behaves exactly as on the array whose row i is the weights of the component selected by label i, including the posterior predictive check.", "quantifier": "every pair of weight arrays, label vector and flag combination", "why_tests_cant": "quantifies over all label vectors and weights", "anchors": ["gwinferno/pipeline/analysis.py:hierarchical_likelihood"]}
{"id": "C80", "title": "alpha_beta_from_mu_var does not alter its arguments", "statement": "Calling alpha_beta_from_mu_var leaves the caller's mean and variance arrays unchanged, so calling it twice with the same arrays gives the same result.", "quantifier": "every array pair and xmax", "why_tests_cant": "in-place aliasing for every input array; tests with xmax=1 cannot see it", "anchors": ["gwinferno/preprocess/conversions.py:alpha_beta_from_mu_var"]}
{"id": "C81", "title": "O3 files without in-plane spins are readable", "statement": "get_o3_cumulative_injection_dict reads an injection file that has no in-plane spin components as if those components were zero.", "quantifier": "every O3 file without a spin1x/spin1y/spin2x/spin2y dataset and every set of found injections", "why_tests_cant": "depends on whether every injection happens to be found; a small fixture in which all are found passes", "anchors": ["gwinferno/preprocess/selection.py:get_o3_cumulative_injection_dict"]}
{"id": "C82", "title": "Every returned injection has usable spin values", "statement": "When spins are requested, every injection returned by the injection readers has a defined cosine tilt and a non-zero prior density.", "quantifier": "every found injection, including non-spinning ones", "why_tests_cant": "the boundary value (exactly zero spin) has measure zero in random fixtures", "anchors": ["gwinferno/preprocess/selection.py:get_o4a_cumulative_injection_dict", "gwinferno/preprocess/selection.py:get_o3_cumulative_injection_dict"]}
{"id": "C83", "title": "The maximum-mass cut removes heavier samples", "statement": "No posterior sample whose source-frame primary mass exceeds the requested maximum survives processing of the catalogue.", "quantifier": "every catalogue, every event and every random draw", "why_tests_cant": "depends on the catalogue an event belongs to and on which samples happen to be drawn", "anchors": ["gwinferno/preprocess/data_collection.py:processed_catalog_dataset_from_dict"]}
{"id": "C84", "title": "The stored prior of a posterior sample is the sampling density", "statement": "For every event the stored prior row is, at every sample, the product of the redshift density named for that event (normalised over the sampled range), of the Jacobian between detector-frame masses and (primary mass, mass ratio), and of the density of uniform spin magnitudes and isotropic tilts; other redshift-prior names are refused.", "quantifier": "every catalogue, every sample, every flat cosmology and every earlier use of the cosmology object", "why_tests_cant": "normalisation and Jacobian are statements about integrals and derivatives at all points", "anchors": ["gwinferno/preprocess/data_collection.py:append_prior_to_processed_catalog", "gwinferno/preprocess/data_collection.py:dl_2_prior_on_z"]}
{"id": "C85", "title": "Cutting the samples of one event does not remove those of other events", "statement": "Every event that has samples below the maximum mass contributes samples to the processed catalogue.", "quantifier": "every catalogue and maximum mass", "why_tests_cant": "needs an event whose samples are all cut, combined with any other events", "anchors": ["gwinferno/preprocess/data_collection.py:processed_catalog_dataset_from_dict"]}
{"id": "C86", "title": "After conversion to effective spins the prior is a density in the retained parameters", "statement": "After converting component spins to the effective spin, the stored prior depends only on the retained parameters and equals the mass-redshift density times the effective-spin prior.", "quantifier": "every pair of samples that agree in the retained parameters", "why_tests_cant": "compares all pairs of samples with equal retained parameters, which random fixtures never contain", "anchors": ["gwinferno/preprocess/data_collection.py:convert_component_spins_to_chieff"]}
{"id": "C87", "title": "Missing catalogue metadata is reported as such", "statement": "Calling the posterior loader with neither metadata nor key file raises the documented assertion; otherwise the given metadata, or the contents of the key file, are used.", "quantifier": "every combination of arguments", "why_tests_cant": "all argument combinations", "anchors": ["gwinferno/preprocess/data_collection.py:load_posterior_dataset"]}
{"id": "C88", "title": "Posterior samples can be converted to effective precession", "statement": "Requesting chi_p for a catalogue of posterior samples yields converted samples.", "quantifier": "every catalogue", "why_tests_cant": "shape of the catalogue is unbounded", "anchors": ["gwinferno/preprocess/data_collection.py:convert_component_spins_to_chieff"]}
{"id": "C89", "title": "Exactly the requested parameters and the prior are kept", "statement": "The loaded data contain exactly the rows of the requested parameters and the prior row, unchanged; a misspelt parameter, or requesting the prior itself, is an error.", "quantifier": "every dataset and list of parameter names", "why_tests_cant": "all lists of names", "anchors": ["gwinferno/preprocess/data_collection.py:load_posterior_dataset", "gwinferno/preprocess/data_collection.py:load_injection_dataset"]}
{"id": "C90", "title": "Merger-rate curves are the evolution of the redshift model", "statement": "For every posterior draw, the returned merger-rate curve times dVc/dz/(1+z) is rate*fraction*normalisation times the redshift density the model evaluates at samples, and its grid integral is rate*fraction times the model's normalisation; the pure power law equals rate*fraction*(1+z)^lamb.", "quantifier": "every redshift data set with positive minimum, volume element, draw, slope, coefficients, rate and fraction", "why_tests_cant": "continuous parameters and arbitrary data", "anchors": ["gwinferno/postprocess/calculations.py:calculate_powerlaw_rate_of_z_ppds", "gwinferno/postprocess/calculations.py:calculate_powerlaw_spline_rate_of_z_ppds"]}
{"id": "C91", "title": "Command-line options take effect", "statement": "A value given on the command line for an option of load_base_parser is the value the run uses: numeric options hold the number given, spline sizes can be passed to the model builders, and --save-plots can be switched off.", "quantifier": "every command line of exact option/value pairs, every option", "why_tests_cant": "all texts that can follow an option", "anchors": ["gwinferno/pipeline/utils.py:load_base_parser", "examples/simple_bspline_example.py:main"]}
{"id": "C92", "title": "Set-up helpers build the model of the given data", "statement": "setup_bspline_mass_models, setup_bspline_spin_models and setup_powerlaw_spline_redshift_model return models whose value is the product of one normalised density per parameter, on that parameter's range, evaluated at that parameter's column of the event samples or of the injections as requested; a missing column raises.", "quantifier": "every data dictionary, size, mass range and coefficient vector", "why_tests_cant": "all data and coefficients", "anchors": ["gwinferno/pipeline/utils.py:setup_bspline_mass_models", "gwinferno/pipeline/utils.py:setup_bspline_spin_models", "gwinferno/pipeline/utils.py:setup_powerlaw_spline_redshift_model"]}
{"id": "C93", "title": "Isotropic chi_eff prior is the distribution of chi_eff", "statement": "Away from its three break points, chi_effective_prior_from_isotropic_spins returns exactly the density of chi_eff = (a1 cos t1 + q a2 cos t2)/(1+q) when both spin magnitudes are uniform on (0, amax) and both tilt cosines uniform on (-1, 1): averaging any function of chi_eff over the spins equals integrating it against the returned values, which integrate to one.", "quantifier": "every q in (0,1], amax > 0, every chi_eff off the break points, every non-negative measurable function", "why_tests_cant": "equality of five closed forms with a four-dimensional integral, for all parameters", "anchors": ["gwinferno/preprocess/priors.py:chi_effective_prior_from_isotropic_spins", "gwinferno/preprocess/priors.py:Di"]}
{"id": "C94", "title": "Plotted median and 90% band", "statement": "plot_pdf draws, at every grid point, the median of the posterior draws and shades from their 5% to their 95% quantile; the line lies inside the band, the band holds at least 90% of the draws up to two, and the order of the draws does not matter.", "quantifier": "every set of draws and grid", "why_tests_cant": "order statistics of arbitrary draws", "anchors": ["gwinferno/postprocess/plot.py:plot_pdf"]}
{"id": "C95", "title": "Summary plots show every population and are saved under their own names", "statement": "plot_mass_pdfs, plot_spin_pdfs and plot_rate_of_z_pdfs draw one curve per population, and with save write exactly the documented files (primary and secondary spins in different files); without save nothing is written.", "quantifier": "every number of populations, all labels, colours and names", "why_tests_cant": "all list lengths", "anchors": ["gwinferno/postprocess/plot.py:plot_mass_pdfs", "gwinferno/postprocess/plot.py:plot_spin_pdfs", "gwinferno/postprocess/plot.py:plot_rate_of_z_pdfs"]}
{"id": "C96", "title": "mu_a and var_a of the power-law-peak example are the mean and variance of the spin magnitude", "statement": "In the power-law-peak example the sampled mu_a and var_a are the mean and the variance of the spin-magnitude distribution, and the plotted spin curve is that distribution.", "quantifier": "every mu_a in (0,1), var_a > 0 in the prior range", "why_tests_cant": "integrals over a two-parameter family", "anchors": ["examples/simple_powerlaw_peak_example.py:model", "examples/simple_powerlaw_peak_example.py:main"]}
{"id": "C97", "title": "The shipped example models evaluate the hierarchical likelihood", "statement": "Evaluating the model of each shipped example (power-law peak, B-spline, configuration file) completes and calls hierarchical_likelihood with the weights of that model: per sample, the product of the densities of its own coordinates divided by its prior.", "quantifier": "all data, hyper-parameters and set-up sizes", "why_tests_cant": "every input, and a claim that no evaluation completes needs all of them", "anchors": ["examples/simple_powerlaw_peak_example.py:model", "examples/simple_bspline_example.py:model", "examples/config_files/model.py:model", "gwinferno/pipeline/analysis.py:hierarchical_likelihood"]}
{"id": "C98", "title": "gwinferno_run_from_config analyses the configured data", "statement": "The installed command gwinferno_run_from_config loads the catalog named in its configuration and passes the model one array per parameter whose row i holds event i, together with the injections and the number of events.", "quantifier": "every configuration, catalog and number of events", "why_tests_cant": "all catalogs and sample counts", "anchors": ["bin/gwinferno_run_from_config.py"]}
{"id": "C99", "title": "load_model_from_python_file returns the model of the given file", "statement": "load_model_from_python_file(path) returns the model defined in the file at path, whatever was loaded before.", "quantifier": "every path, file system, search path and history of loads", "why_tests_cant": "depends on the process's history", "anchors": ["gwinferno/pipeline/parser.py:load_model_from_python_file"]}
{"id": "C100", "title": "Runs of the examples keep their results apart and can be resumed", "statement": "A run of an example stores its posterior and its curves in files determined by its settings; --skip-inference with the same settings reuses that posterior; a run with different settings leaves them alone.", "quantifier": "every pair of settings, every file system, every sequence of two runs", "why_tests_cant": "all pairs of labels, directories and numbers", "anchors": ["examples/simple_bspline_example.py:main", "examples/simple_powerlaw_peak_example.py:main"]}
{"id": "C101", "title": "The batch script runs the requested analysis", "statement": "Every array task started by the script written by create_simple_bspline_example_slurm_submit_script runs the analysis with the settings given to the script (sample counts, label, directories, mass range, data file) and with its own task number as seed; tasks never share result files; the time limit is the requested one, cut to one day except on long partitions. Scripts written for different job names or seeds do not replace each other.", "quantifier": "every setting, label, partition and array task number", "why_tests_cant": "all texts and numbers written into a command line and parsed again", "anchors": ["examples/create_simple_bspline_example_slurm_submit_script.py:main", "gwinferno/pipeline/utils.py:load_base_parser"]}
{"id": "C102", "title": "Random draws follow the distribution", "statement": "For every distribution of numpyro_distributions, sample(key, shape) returns an array of the requested shape whose entries lie in the declared support and follow the distribution: the chance of an entry being at most x is cdf(x), i.e. the integral of exp(log_prob).", "quantifier": "every parameter value, every shape, every x, all uniform inputs", "why_tests_cant": "a probability over all uniform inputs, for a continuum of parameters", "anchors": ["gwinferno/numpyro_distributions.py:Sine.sample", "gwinferno/numpyro_distributions.py:Cosine.sample", "gwinferno/numpyro_distributions.py:Powerlaw.sample", "gwinferno/numpyro_distributions.py:PowerlawRedshift.sample", "gwinferno/numpyro_distributions.py:PowerlawSmoothedPowerlaw.sample", "gwinferno/numpyro_distributions.py:BSplineDistribution.sample", "gwinferno/numpyro_distributions.py:PSplineCoeficientPrior.sample"]}
{"id": "C103", "title": "The injection data set holds exactly the detected injections and the requested parameters", "statement": "load_injection_dataset returns, for an O4a or an O3 file, exactly the rows named in param_names together with the prior, over exactly the injections that pass the detection cuts and in file order, each entry computed from the injection's own masses, redshift and spin vectors; the prior is the draw density expressed in the requested parameters; the number generated and the analysis time in years are those of the file; with neither flag it refuses.", "quantifier": "every injection file, list of parameter names, thresholds and flags", "why_tests_cant": "quantifies over all files and all subsets of parameter names, and the answer depends on which names are requested together", "anchors": ["gwinferno/preprocess/data_collection.py:load_injection_dataset", "gwinferno/preprocess/data_collection.py:convert_component_spins_to_chieff", "gwinferno/preprocess/selection.py:get_o4a_cumulative_injection_dict", "gwinferno/preprocess/selection.py:get_o3_cumulative_injection_dict"]}
{"id": "C104", "title": "The posterior data set is aligned, and the file hands both data sets over unchanged", "statement": "load_posterior_dataset returns for every event, in order, exactly the requested rows and the prior; entry j of every row of an event is about the same raw posterior sample; all events have the same number of distinct samples, at most 10000; the prior is the sampling density of the requested parameters at that sample. What is saved under an .h5 name is what the inference stage reads back: the same arrays, number generated, analysis time and number of events. Events listed to be ignored are left out of every array and of the number of events.", "quantifier": "every catalogue, list of parameter names, maximum mass, history of the cosmology object, and other files saved in between", "why_tests_cant": "all catalogues, all subsets of names and all histories", "anchors": ["gwinferno/preprocess/data_collection.py:load_posterior_dataset", "gwinferno/preprocess/data_collection.py:save_posterior_samples_and_injection_datasets_as_idata", "gwinferno/pipeline/utils.py:load_pe_and_injections_as_dict"]}
{"id": "C105", "title": "The joint spin prior is the law of effective spin and precession", "statement": "For isotropic spins with uniform magnitudes: (a) averaging any quantity of the precession with the importance weights (1+q)/a1 over the draws that solve for the first cosine, and integrating over the effective spin, gives its average over the isotropic population, so the weights are the right ones and their mean is the density of the effective spin; (b) for every reachable effective spin the accept-reject loop ends with probability one, each draw handed on has the uniform law conditioned on being physical, and its weighted average is the conditional average of the precession given the effective spin; (c) the returned joint density is finite, non-negative, zero outside the support and its integral over the precession is exactly the density of the effective spin.", "quantifier": "every mass ratio in (0,1], every maximum spin, almost every effective spin, every measurable quantity, every number of draws, every independent uniform random stream, every kernel width", "why_tests_cant": "a statement about probability laws over infinite random streams and all measurable quantities; Monte Carlo checks only see finitely many draws", "anchors": ["gwinferno/preprocess/priors.py:chi_p_prior_given_chi_eff_q", "gwinferno/preprocess/priors.py:joint_prior_from_isotropic_spins"]}
{"id": "C106", "title": "The Monte Carlo estimates converge to the hierarchical likelihood", "statement": "When the posterior samples of each event are independent draws from the posterior under the sampling prior, and the injections are independent draws from the injection density each found with the detection probability: (a) with probability one the reported log Bayes factor of an event tends to the log of the integral of population times likelihood over the evidence as the number of samples grows, and the reported variance times the number of samples tends to the relative variance of the weights; (b) with probability one the reported log efficiency tends to the log of the fraction of the population that is detected, and the reported effective number of injections divided by the number of injections made tends to the inverse of the relative variance of the weights; (c) the exponentials of both estimates are unbiased at every finite number of draws; (d) with probability one the term the model adds to the log density is eventually finite, whatever cuts are on, and tends to the sum of the log Bayes factors minus the number of events times the log efficiency; (e) the reported variance of the efficiency agrees with the reported effective number. (e) is false of the code: the variance is smaller, by exactly 1/n in the limit, because n of the injections made is subtracted twice.", "quantifier": "every population, likelihood, sampling prior, injection density and detection probability with square-integrable weights, every probability space carrying the draws, every number of events, every flag combination, weights given as logs or not", "why_tests_cant": "an almost-sure limit over infinite random sequences, for every population and every detector", "anchors": ["gwinferno/pipeline/analysis.py:per_event_log_bayes_factors", "gwinferno/pipeline/analysis.py:detection_efficiency", "gwinferno/pipeline/analysis.py:hierarchical_likelihood"]}
{"id": "C107", "title": "The rate is drawn from its posterior and the likelihood has it integrated out", "statement": "(a) The merger rate the model returns, when its unscaled version is drawn from the Gamma distribution the model declares, has exactly the probability density of the rate's posterior: proportional to 1/R times the Poisson probability of the observed number of events when R times efficiency times surveyed time-volume are expected, and this density is normalised. (b) When no cut fires, the exponential of the term the model adds to the log density times (Nobs-1)! is the likelihood of the inhomogeneous Poisson process integrated over all rates with the prior 1/R, for every surveyed time-volume.", "quantifier": "every set of non-negative weights with a positive one, every number of events, every surveyed time and volume, every flag combination without the marginalisation correction", "why_tests_cant": "an identity between probability laws and an improper integral, for all weights", "anchors": ["gwinferno/pipeline/analysis.py:hierarchical_likelihood"]}
{"id": "C108", "title": "Posterior predictive draws follow the weights", "statement": "(a) With a random generator whose numbers are independent and uniform, the posterior predictive check records for each event one posterior sample and one injection, all drawn independently, each with probability equal to its share of the weights after the mass cuts. (b) Over the posterior samples of a run the draws are fresh, so that the recorded fractions can follow the shares. (b) is false of the code: the generator is started from the event number in every call, so calls with equal weights record the same sample and the same injection and the recorded fraction of any sample is 0 or 1.", "quantifier": "every weight and data array, every mass cut, every number of events, every uniform generator, every number of calls", "why_tests_cant": "a statement about the joint probability law of all draws for all weights", "anchors": ["gwinferno/pipeline/analysis.py:hierarchical_likelihood"]}
{"id": "C109", "title": "A configuration file describes the run completely", "statement": "After ConfigReader.parse the reader holds what the file says: label, output directory and option sections are the file's or the documented defaults, models and priors are those of the required models section. A run started from a file uses that file's kernel (NUTS or HMC), kernel and sampler options, catalog, parameters, label and output directory. Options of the configuration tools' command line hold the value given last or their default. False of the code in two ways: a reader used for a second file keeps the models, priors and sampled parameters of the first; and the default for an absent data or sampler section can never be run.", "quantifier": "every configuration file, every reader state, every resolver of imported names, every data loader, every command line", "why_tests_cant": "all files, all earlier reader states and all command lines", "anchors": ["gwinferno/pipeline/parser.py:ConfigReader.parse", "gwinferno/pipeline/parser.py:load_base_parser", "bin/gwinferno_run_from_config.py:run_inference", "gwinferno/pipeline/analysis.py:NP_KERNEL_MAP"]}
{"id": "C110", "title": "The low-mass smoothing window switches on smoothly", "statement": "PowerlawBasisSplinePrimaryPowerlawRatio.smoothing(ms, mmin, delta_m) with a positive width is 0 up to mmin, 1 from mmin + delta_m, strictly increasing in between, antisymmetric about the middle of the interval (one half there) and infinitely differentiable everywhere; with a width that is not positive it is the step at mmin; it never returns NaN (a NaN mass gets weight 1).", "quantifier": "every mass (NaN and infinities included), every mmin and every delta_m", "why_tests_cant": "all masses and widths, and smoothness at the two ends, where the formula is 0/0", "anchors": ["gwinferno/models/spline_perturbation.py:PowerlawBasisSplinePrimaryPowerlawRatio.smoothing"]}
{"id": "C111", "title": "Splines are smooth across their knots", "statement": "A BSpline of order k >= 2 on the default knots, with any coefficients, is k-2 times continuously differentiable on its whole closed range, interior knots included, normalised or not; so are LogXBSpline (in x itself) and LogYBSpline (any finite coefficients). The derivative of an order k+1 spline is, at every interior point, the order k spline with one function less on the same range whose coefficients are the successive coefficient differences divided by the knot spacing, so the spline changes by at most (largest difference of neighbouring coefficients)/(knot spacing) per unit of x.", "quantifier": "every number of functions, order k >= 2, range with knot spacing at least 1e-6, every coefficient vector, every point of the range", "why_tests_cant": "differentiability at every point, for every coefficient vector and order; a finite-difference test cannot show it", "anchors": ["gwinferno/interpolation.py:BasisSpline.__init__", "gwinferno/interpolation.py:BasisSpline._basis", "gwinferno/interpolation.py:BSpline.bases", "gwinferno/interpolation.py:LogXBSpline.bases", "gwinferno/interpolation.py:LogYBSpline.project"]}
{"id": "C112", "title": "The true integral of the normalised spline densities is close to 1", "statement": "The spline densities are normalised by a trapezoid sum on a fixed grid. The true integral over the range is nevertheless within a stated distance of 1: for LogYBSpline within a factor exp(\u00b1D(n-k+1)/1998), for LogXLogYBSpline within a factor exp(\u00b1D(n-k+1)(b-a)/(2998 a log(b/a))), and for BSpline with coefficients at least m > 0 within D(n-k+1)/(1998 m), where n is the number of functions, k the order, [a,b] the range and D the largest difference of neighbouring coefficients.", "quantifier": "every number of functions, order k >= 2, range, and every coefficient vector (finite; at least m > 0 for BSpline)", "why_tests_cant": "a bound on the true integral for every coefficient vector; a test integrates numerically on a grid and only a few vectors", "anchors": ["gwinferno/interpolation.py:BSpline.norm", "gwinferno/interpolation.py:LogYBSpline.norm", "gwinferno/interpolation.py:LogXLogYBSpline.norm"]}
{"id": "C113", "title": "The spline density determines its coefficients up to one overall number", "statement": "Two coefficient vectors give the same normalised LogYBSpline (or LogXLogYBSpline) density on the whole range exactly when they differ by one constant added to every coefficient; two vectors of positive coefficients give the same normalised BSpline density exactly when one is a positive multiple of the other; un-normalised B-splines agree exactly when the coefficients agree. So the posterior of the coefficients has exactly this one direction that the data cannot constrain, and no other.", "quantifier": "every number of functions, order k >= 2, range with knot spacing at least 1e-6, every pair of coefficient vectors (finite; positive for the normalised BSpline)", "why_tests_cant": "equality of functions at every point and for every pair of coefficient vectors, in both directions", "anchors": ["gwinferno/interpolation.py:BasisSpline.eval", "gwinferno/interpolation.py:LogYBSpline.project", "gwinferno/interpolation.py:LogXLogYBSpline.bases", "gwinferno/interpolation.py:BSpline.norm"]}
{"id": "C114", "title": "Log-spline densities are smooth and log-concave in their coefficients", "statement": "At every point of the range the normalised LogYBSpline and LogXLogYBSpline densities are infinitely often differentiable functions of the coefficient vector (so the gradients the sampler follows exist everywhere) and log-concave: the density at theta*c + (1-theta)*d is at least p(c)^theta * p(d)^(1-theta).", "quantifier": "every number of functions, order k >= 2, range, every point of the range, every pair of finite coefficient vectors, every theta in [0,1]", "why_tests_cant": "differentiability and an inequality for every pair of coefficient vectors and every weight", "anchors": ["gwinferno/interpolation.py:LogYBSpline.project", "gwinferno/interpolation.py:LogYBSpline.norm", "gwinferno/interpolation.py:LogXLogYBSpline.bases"]}
{"id": "C115", "title": "The parametric densities are smooth in their hyper-parameters", "statement": "At every point strictly inside its range, each parametric density is an infinitely often differentiable function of all its hyper-parameters jointly, so the gradients a sampler follows exist: powerlaw_pdf in slope and bounds (slope -1, where the formula is switched, included), truncnorm_pdf in mean, width and bounds, betadist in both shapes and the scale, the power-law + peak model of primary mass and mass ratio in its seven hyper-parameters, the isotropic + aligned tilt mixture in fraction and width, and the weight of every sample under the power-law redshift model in the slope.", "quantifier": "every point strictly inside the range and every admissible value of the hyper-parameters", "why_tests_cant": "differentiability of every order at every parameter value, in particular across a switch of formula, cannot be observed at finitely many points", "anchors": ["gwinferno/distributions.py:powerlaw_pdf", "gwinferno/distributions.py:truncnorm_pdf", "gwinferno/distributions.py:betadist", "gwinferno/models/parametric/parametric.py:plpeak_primary_ratio_pdf", "gwinferno/models/parametric/parametric.py:mixture_isoalign_spin_tilt", "gwinferno/models/parametric/parametric.py:PowerlawRedshiftModel.__call__"]}
{"id": "C116", "title": "The parametric densities determine their hyper-parameters", "statement": "No two different sets of hyper-parameters describe the same population: the power-law density determines its slope (two points suffice), the truncated Gaussian its mean and width, the Beta density both shapes, the power-law + peak density both mass bounds, slope, peak fraction and, unless the peak is empty, its position and width, the joint mass model the mass-ratio slope, the isotropic + aligned tilt mixture its fraction and, unless that is 0, its width, and the redshift weights of two samples the redshift slope.", "quantifier": "every pair of admissible hyper-parameter sets (positive widths and shapes; peak or aligned fraction below 1)", "why_tests_cant": "that no pair of parameter sets gives the same function is a statement about all pairs and all points", "anchors": ["gwinferno/distributions.py:powerlaw_pdf", "gwinferno/distributions.py:truncnorm_pdf", "gwinferno/distributions.py:betadist", "gwinferno/models/parametric/parametric.py:plpeak_primary_pdf", "gwinferno/models/parametric/parametric.py:plpeak_primary_ratio_pdf", "gwinferno/models/parametric/parametric.py:mixture_isoalign_spin_tilt", "gwinferno/models/parametric/parametric.py:PowerlawRedshiftModel.__call__"]}
{"id": "C117", "title": "The log-likelihood is as smooth as the weights, with the expected gradient", "statement": "Where no cut fires (nor is met with equality), the contribution of hierarchical_likelihood to the log density is, near those hyper-parameters, as many times continuously differentiable as the weights are; without marginalising the selection uncertainty its derivative is the sum over events of the weight-averaged derivative of the posterior-sample weights, minus Nobs times the same average over the found injections.", "quantifier": "every combination of flags the function accepts, every differentiable family of non-negative weights (linear or log) over any normed parameter space, any numbers of events, samples and injections; one weight array, not categorical", "why_tests_cant": "a derivative of every order over every family of weights cannot be observed at finitely many points", "anchors": ["gwinferno/pipeline/analysis.py:hierarchical_likelihood", "gwinferno/pipeline/analysis.py:per_event_log_bayes_factors", "gwinferno/pipeline/analysis.py:detection_efficiency"]}
{"id": "C118", "title": "The log-likelihood is stable under relative errors of the weights", "statement": "If every posterior-sample weight changes by at most a factor exp(eps) and every injection weight by at most a factor exp(delta), and the original weights pass the enabled cuts with the margin exp(4 eps), exp(4 delta) on the effective sample sizes, then neither run of hierarchical_likelihood is cut and their contributions differ by at most (number of events)*eps + Nobs*delta, plus Nobs(3+Nobs)/2*(exp(4 delta)-1)*sum v^2/(sum v)^2 when marginalising the selection uncertainty.", "quantifier": "every two sets of weights so related, every combination of flags the function accepts, every eps, delta >= 0; one weight array, not categorical", "why_tests_cant": "an error bound over all perturbations of all weights", "anchors": ["gwinferno/pipeline/analysis.py:hierarchical_likelihood", "gwinferno/pipeline/analysis.py:per_event_log_bayes_factors", "gwinferno/pipeline/analysis.py:detection_efficiency"]}
{"id": "C119", "title": "The true integral of the redshift densities is close to 1", "statement": "The redshift models are normalised by a 1000-point trapezoid sum over the overlap zmin..zmax of the two data sets. If the logarithm of the volume element has slope at most K there, the density they evaluate has true integral between exp(-eps) and exp(eps), with eps = (K + |lamb-1|/(1+zmin)) (zmax-zmin)/1998 for the power-law model; a spline factor adds D (n-3)/(zmin log(zmax/zmin)) to the slope in the power-law + spline model, and for BSplineRedshift the slope is K + 1/(1+zmin) + D (n-degree)/(zmin log(hi/lo)), D being the largest difference of neighbouring coefficients.", "quantifier": "every volume element with such a bound, every slope, coefficient vector and pair of overlapping data sets above redshift -1 (above 0 with a spline)", "why_tests_cant": "an integration error bound over all volume elements, slopes and coefficients", "anchors": ["gwinferno/models/parametric/parametric.py:PowerlawRedshiftModel", "gwinferno/models/spline_perturbation.py:PowerlawSplineRedshiftModel", "gwinferno/models/bsplines/single.py:BSplineRedshift"]}
{"id": "C120", "title": "A finished run from a configuration file saves its samples", "statement": "When gwinferno_run_from_config has sampled the model of a configuration, it writes <outdir>/<label>_posterior_samples.h5 with every stored quantity and <outdir>/<label>_trace.png showing every sampled hyper-parameter, the rate, both effective sample sizes and the likelihood; it changes no other file, and runs whose output directory or label differ share no file.", "quantifier": "every configuration, model, data set, draw, output directory, label and prior content of the file system", "why_tests_cant": "ranges over all configurations and file systems; the cost of a failure is a lost sampling run", "anchors": ["bin/gwinferno_run_from_config.py:plot_trace_dump_samples", "bin/gwinferno_run_from_config.py:run_inference", "gwinferno/pipeline/parser.py:ConfigReader", "gwinferno/pipeline/analysis.py:construct_hierarchical_model"]}
{"id": "C121", "title": "A spline has the same value at an integer whether it is stored as an integer or as a float", "statement": "Evaluating BasisSpline, BSpline or LogYBSpline on an array of integers gives the values of evaluating it on the same numbers as floats.", "quantifier": "every spline, coefficient vector and integer point", "why_tests_cant": "ranges over all knots, orders, coefficients and points; agreement happens for spacings 1, 1/2, 1/3, ... only", "anchors": ["gwinferno/interpolation.py:BasisSpline._basis", "gwinferno/interpolation.py:BasisSpline.bases", "gwinferno/interpolation.py:BSpline._bases", "gwinferno/interpolation.py:LogYBSpline"]}
{"id": "C122", "title": "From the raw files to the likelihood value", "statement": "Loading a raw catalogue and an injection file for a list of parameters, saving both, reading them back, dividing any population density of those parameters by the stored prior and calling the likelihood adds to the log density exactly: the sum over the events of the log of the average, over that event's own distinct samples, of density / sampling density, minus (number of events analysed) times the log of the sum, over exactly the injections of the file that pass the thresholds, of density / drawing density, divided by the number generated.", "quantifier": "every catalogue, injection file, parameter list, population density, flag setting, thresholds, cosmology and history of the cosmology object", "why_tests_cant": "composes five stages over arbitrary files and densities; a swapped column, a missing Jacobian or a wrong count in any stage changes the value without raising", "anchors": ["gwinferno/preprocess/data_collection.py:load_posterior_dataset", "gwinferno/preprocess/data_collection.py:load_injection_dataset", "gwinferno/preprocess/data_collection.py:save_posterior_samples_and_injection_datasets_as_idata", "gwinferno/pipeline/utils.py:load_pe_and_injections_as_dict", "gwinferno/pipeline/analysis.py:hierarchical_likelihood", "examples/simple_powerlaw_peak_example.py:model"]}
{"id": "C123", "title": "A finished example run saves its curves", "statement": "Once a posterior is available (sampled, or stored and read back with --skip-inference), an example's main writes its figures and then the dataset with the mass, mass-ratio, spin, tilt and rate curves of every draw of that posterior, each over its grid, and ends without an exception, whatever the number of chains.", "quantifier": "every posterior, number of draws, --samples, --chains, --save-plots, limits and spline sizes, both example scripts", "why_tests_cant": "the default is one chain; the failure comes after hours of sampling and only when the number of draws differs from --samples", "anchors": ["examples/simple_powerlaw_peak_example.py:main", "examples/simple_bspline_example.py:main", "examples/utils.py:run_bspline_analysis", "examples/utils.py:run_powerlawpeak_analysis", "gwinferno/pipeline/utils.py:pdf_dict_to_xarray"]}
{"id": "C124", "title": "The curves an example saves are densities", "statement": "For every draw inside the example's priors, each curve saved for that draw is finite and its trapezoid integral over the saved grid is 1; the mass and mass-ratio curves are marginals of one joint density; the redshift curve is rate times (1+z)^lamb.", "quantifier": "every posterior draw inside the priors, every mass limits, spline sizes and redshift data", "why_tests_cant": "ranges over all hyper-parameter values; a figure of one draw does not show that no draw is ever normalised", "anchors": ["examples/simple_powerlaw_peak_example.py:main", "examples/simple_powerlaw_peak_example.py:model", "gwinferno/postprocess/calculations.py:calculate_beta_spin_mag", "gwinferno/postprocess/calculations.py:calculate_mixture_iso_aligned_spin_tilt", "gwinferno/postprocess/calculations.py:calculate_powerlaw_peak_mass_ppds", "gwinferno/postprocess/calculations.py:calculate_bspline_spin_ppds"]}
{"id": "C125", "title": "The sampler's gradient is the derivative of the likelihood", "statement": "Wherever the log likelihood is finite and no cut fires, the gradient that automatic differentiation returns for it, in every weight (or log weight) and hence through the chain rule in every hyper-parameter, is finite and equals its derivative, also when some samples or injections lie outside a truncated model; where a cut fires or an event has no support, where the contribution is constant, the gradient is zero.", "quantifier": "all numbers of events, samples and injections, all non-negative weight functions of the hyper-parameters, every flag combination, plain and log weights", "why_tests_cant": "a NaN gradient appears only at particular truncation patterns and leaves the likelihood's value correct; equality with the derivative ranges over all weights", "anchors": ["gwinferno/pipeline/analysis.py:hierarchical_likelihood", "gwinferno/pipeline/analysis.py:per_event_log_bayes_factors", "gwinferno/pipeline/analysis.py:detection_efficiency"]}
{"id": "C126", "title": "Recorded subpopulation fractions are fractions", "statement": "With marginal_qs, the predictive check records for every event one value per subpopulation, named by subpopulation (from 1) and event: the share of the drawn sample's weight that is due to the subpopulation, between 0 and 1, the shares of an event summing to 1.", "quantifier": "all events, samples, numbers of subpopulations, weights, random numbers, mass cuts and parameter lists, plain and log weights", "why_tests_cant": "ranges over all weights and draws; no test or example passes marginal_qs", "anchors": ["gwinferno/pipeline/analysis.py:hierarchical_likelihood"]}
{"id": "C127", "title": "The gradients of the densities in their hyper-parameters", "statement": "Wherever a truncated power law, truncated normal, Beta or power-law-plus-peak density is differentiable in its hyper-parameters, the gradient that automatic differentiation returns for it is finite and equals its derivative, for points inside the range as well as for points outside it, where the density is constant; composed with the hierarchical likelihood, so is the gradient of the log likelihood in the hyper-parameters.", "quantifier": "all hyper-parameters, all points, all catalogues and injection sets, every flag combination", "why_tests_cant": "the value is correct where the gradient is NaN, and the failures sit at single slopes or on the samples outside a range; equality with the derivative ranges over all parameters", "anchors": ["gwinferno/distributions.py:powerlaw_pdf", "gwinferno/distributions.py:truncnorm_pdf", "gwinferno/distributions.py:betadist", "gwinferno/numpyro_distributions.py:Powerlaw.log_prob", "gwinferno/models/parametric/parametric.py:plpeak_primary_ratio_pdf", "gwinferno/pipeline/analysis.py:hierarchical_likelihood"]}
{"id": "C128", "title": "The gradients of the spline models in their coefficients", "statement": "For every spline class, normalised or not, the gradient in the coefficients that automatic differentiation returns is finite and equals the derivative of the spline's value, at all coefficients at which that value is a number and at points inside and outside the spline's range; the same holds for every entry of the arrays the one-dimensional, separable and redshift models return, for the smoothing prior, and for the log likelihood of the B-spline example in all its coefficients and the redshift slope.", "quantifier": "all numbers of coefficients and orders, all ranges with knots farther apart than the code's tolerance, all coefficients, all samples, all catalogues and injection sets, every flag combination", "why_tests_cant": "the gradient depends on every coefficient through the normalising integral and on values clipped by nan_to_num and where; equality with the derivative ranges over all coefficient vectors and all points", "anchors": ["gwinferno/interpolation.py:BSpline", "gwinferno/interpolation.py:LogYBSpline", "gwinferno/interpolation.py:LogXLogYBSpline", "gwinferno/models/bsplines/single.py:Base1DBSplineModel", "gwinferno/models/bsplines/separable.py:BSplinePrimaryBSplineRatio", "gwinferno/models/spline_perturbation.py:PowerlawSplineRedshiftModel", "gwinferno/models/bsplines/smoothing.py:apply_difference_prior", "examples/simple_bspline_example.py:model"]}
{"id": "C129", "title": "The gradients of the parametric models and of the power-law-plus-peak example in their hyper-parameters", "statement": "For every parametric model (mass with and without taper or logistic fall-off, spin magnitude, spin tilt, redshift) the gradient automatic differentiation returns is finite and equals the derivative of the density in all its hyper-parameters; and so is the gradient of the log likelihood of the power-law-plus-peak example in its fourteen hyper-parameters, at every point inside the priors, for every catalogue and injection set with positive prior weights and spins strictly inside (0, 1).", "quantifier": "all hyper-parameters inside the supports of the priors, all samples, all catalogues and injection sets, every flag combination", "why_tests_cant": "the equality ranges over all hyper-parameters and data; the points where the gradient is not the derivative (a slope of exactly -1, a sample exactly at mmin) are missed by sampled tests and are where a sampler stops", "anchors": ["gwinferno/models/parametric/parametric.py:plpeak_primary_ratio_pdf", "gwinferno/models/parametric/parametric.py:powerlaw_primary_ratio_falloff_pdf", "gwinferno/models/parametric/parametric.py:independent_spin_tilt", "gwinferno/models/parametric/parametric.py:independent_spin_magnitude_beta_dist", "gwinferno/models/parametric/parametric.py:PowerlawRedshiftModel", "gwinferno/distributions.py:powerlaw_logit_pdf", "gwinferno/distributions.py:smooth", "examples/simple_plpeak_example.py:model", "gwinferno/pipeline/analysis.py:hierarchical_likelihood"]}
{"id": "C130", "title": "The errors reported with the estimates are the errors the estimates have", "statement": "The variances that per_event_log_bayes_factors and detection_efficiency return with their estimates, and the variance_log_likelihood recorded by hierarchical_likelihood, describe the actual Monte Carlo scatter: as the numbers of posterior samples and of injections grow, at any relative speed, the probability that an estimate exceeds the true value by at most c times the square root of the reported variance tends to the probability that a standard normal variable is at most c.", "quantifier": "every population density, likelihood, prior, draw density and detection probability with weights of finite variance; every number of events; every admissible combination of flags; all sequences of sample sizes; all c; independent samples", "why_tests_cant": "it is a limit of probabilities over all random sample sets; a simulation can only estimate the coverage of one case, and the deficit caused by the 1/Ninj that is subtracted twice is a few per cent in a typical case", "anchors": ["gwinferno/pipeline/analysis.py:per_event_log_bayes_factors", "gwinferno/pipeline/analysis.py:detection_efficiency", "gwinferno/pipeline/analysis.py:hierarchical_likelihood"]}
{"id": "C131", "title": "The posterior that is sampled converges to the true hierarchical posterior", "statement": "The terms that hierarchical_likelihood adds to the log density turn a prior on the hyper-parameters into a posterior. With probability one, as the numbers of posterior samples per event and of injections grow (at any relative speed), that posterior converges in total variation, that is uniformly over all sets of hyper-parameters, to the posterior of the exact population likelihood: the product over the events of the integral of likelihood times population density, divided by the power E of the fraction of the population that is found.", "quantifier": "every prior on a compact set of hyper-parameters; every population model that is dominated by one density with weights of finite variance, continuous in the hyper-parameters at almost every point and determined by countably many of them; every number of events; every admissible combination of flags; all sequences of sample sizes; almost all sample sets; all sets of hyper-parameters at once", "why_tests_cant": "it is a limit, almost sure over all infinite sample sets and uniform over all hyper-parameters; pointwise agreement of the likelihood at the hyper-parameters one tries does not imply it", "anchors": ["gwinferno/pipeline/analysis.py:hierarchical_likelihood", "gwinferno/pipeline/analysis.py:per_event_log_bayes_factors", "gwinferno/pipeline/analysis.py:detection_efficiency", "gwinferno/distributions.py:powerlaw_pdf"]}
{"id": "C132", "title": "The number of injections may be given as the integer it is", "statement": "detection_efficiency and hierarchical_likelihood document the total number of injections as an int. For every number of injections, giving it as an integer or as the float of the same value leads to the same efficiency, effective number, cuts, recorded values and contribution to the log density.", "quantifier": "every total number of injections below 2^31; all weights; both settings of log; all compatible flags", "why_tests_cant": "the tests and the shipped examples convert the number to a float first, and small integers agree; the failure starts at 46341 injections and its kind depends on the number modulo 2^32", "anchors": ["gwinferno/pipeline/analysis.py:detection_efficiency", "gwinferno/pipeline/analysis.py:hierarchical_likelihood", "gwinferno/pipeline/analysis.py:construct_hierarchical_model", "bin/gwinferno_run_from_config.py:setup"]}
{"id": "C133", "title": "Single precision does not change the log-likelihood by more than a small, stated amount", "statement": "hierarchical_likelihood is run in 32-bit floats, with sums evaluated in an order the compiler chooses. Let the weights be non-negative and let the largest weight of each event be within a factor exp(K) of one: K at most 13 with weights, any K with 128 K (D+1) kappa <= 1 with log weights. Let the largest weight of the found injections be within a factor exp(13) of one, with at most 2^24 samples and found injections, at most half of the injections found, and no cut met up to a small margin. Then the log-likelihood computed differs from the exact value of its formula by at most (400 + 5K) (D+1) kappa for each event and 400 (D+1) kappa for each unit of Nobs (plus 6000 (D+1) kappa times the correction for the selection uncertainty), where kappa is the relative error of one operation and D the largest number of additions an entry goes through. Individual weights may be arbitrarily small, so that they underflow.", "quantifier": "every rounding function, exponential and logarithm within the stated contract (IEEE single precision with correct rounding is one); every order of summation; all weights and sizes in the range; every admissible combination of flags", "why_tests_cant": "a test compares two floating-point evaluations at some inputs on one machine; the bound holds for all inputs, all summation orders and all libraries within the contract at once", "anchors": ["gwinferno/pipeline/analysis.py:hierarchical_likelihood", "gwinferno/pipeline/analysis.py:per_event_log_bayes_factors", "gwinferno/pipeline/analysis.py:detection_efficiency"]}
{"id": "C134", "title": "The cuts on the effective numbers work in floating point", "statement": "With min_neff_cut, hyper-parameters at which an event has no more than Nobs effective samples, or the injections are worth fewer than 4 Nobs, get the large negative log-likelihood also when the code runs in 32-bit floats, and others do not, up to a margin of rounding errors; a common factor on the weights of an event or of the injections makes no difference to that.", "quantifier": "every floating-point arithmetic within the contract of C133; every order of summation; all weights; both settings of log", "why_tests_cant": "the failure needs weights whose squares underflow, below about 1e-23, which depends on the units of the prior densities in the data; then the cut is silently absent, or silently always on", "anchors": ["gwinferno/pipeline/analysis.py:detection_efficiency", "gwinferno/pipeline/analysis.py:per_event_log_bayes_factors", "gwinferno/pipeline/analysis.py:hierarchical_likelihood"]}
{"id": "C135", "title": "find_map finds the maximum-a-posteriori estimate", "statement": "find_map(key, model, *args) returns, for every latent parameter of the model, the value at which the posterior density is largest, under the name of the parameter with _auto_loc appended.", "quantifier": "every numpyro model with scalar latent sites, every starting point, Niter and lr; the default Niter=100, lr=0.01 in particular", "why_tests_cant": "a test on a model whose MAP lies close to the prior median passes; that no model at all can move a parameter further than a fixed distance is a statement about all gradients", "anchors": ["gwinferno/pipeline/analysis.py:find_map"]}
{"id": "C136", "title": "A natural cubic spline can be passed through JAX transformations", "statement": "A NaturalCubicUnivariateSpline can be an argument or a result of a function under jit, vmap or grad, and of jax.tree_util functions, and stays the same spline: it is registered as a pytree node.", "quantifier": "every spline, every function of it", "why_tests_cant": "the test-suite calls splines directly only; that rebuilding keeps every value is a statement about all splines and points", "anchors": ["gwinferno/interpolation.py:NaturalCubicUnivariateSpline.tree_flatten", "gwinferno/interpolation.py:NaturalCubicUnivariateSpline.tree_unflatten"]}
{"id": "C137", "title": "Keyword arguments reach the component they are meant for", "statement": "The spline models with two components (IID and independent spins, tilts and component masses, mass with mass ratio, effective spins) give each component its own number of splines, its own samples, the keywords of its own dictionary (kwargs1/kwargs2, kwargs_m/kwargs_q) and the shared keywords; a keyword that is not given has its documented default (cubic splines, the physical range of the parameter, the default basis), the private dictionary of one component does not affect the other, and a private keyword takes precedence over a shared one.", "quantifier": "every class, every pair of private dictionaries, every set of shared keywords", "why_tests_cant": "the argument passes through three or four nested constructors; the test-suite builds the models with one or two fixed sets of keywords", "anchors": ["gwinferno/models/bsplines/separable.py:BSplineIndependentSpinMagnitudes.__init__", "gwinferno/models/bsplines/separable.py:BSplinePrimaryBSplineRatio.__init__", "gwinferno/models/bsplines/separable.py:BSplineIndependentComponentMasses.__init__", "gwinferno/models/bsplines/separable.py:BSplineEffectiveSpinDims.__init__", "gwinferno/models/bsplines/single.py:Base1DBSplineModel.__init__", "gwinferno/models/bsplines/single.py:BSplineMass.__init__", "gwinferno/interpolation.py:LogXLogYBSpline.__init__"]}
{"id": "C138", "title": "Python numbers and arrays as arguments give the same result", "statement": "The densities powerlaw_pdf, truncnorm_pdf, the power-law and power-law-plus-peak mass models, mixture_isoalign_spin_tilt and the methods of the Powerlaw distribution return the same numbers whether a hyper-parameter is passed as a Python number or as an array, default arguments included; in particular no call raises because a parameter is a Python number.", "quantifier": "every combination of Python numbers and arrays, every value of the parameters with 0 < low < high", "why_tests_cant": "the exception occurs only at single parameter values (slope -1, width 0, lower end 0) and only for some combinations of argument types; samplers always pass arrays", "anchors": ["gwinferno/distributions.py:powerlaw_pdf", "gwinferno/distributions.py:truncnorm_pdf", "gwinferno/models/parametric/parametric.py:powerlaw_primary_ratio_pdf", "gwinferno/models/parametric/parametric.py:plpeak_primary_ratio_pdf", "gwinferno/models/parametric/parametric.py:mixture_isoalign_spin_tilt", "gwinferno/numpyro_distributions.py:Powerlaw"]}
{"id": "C139", "title": "The isotropic effective-spin prior acts on arrays entry by entry", "statement": "chi_effective_prior_from_isotropic_spins called with an array of effective spins and a mass ratio or an array of as many mass ratios returns the array of the values it returns for the entries alone, in the same order, and raises only if one of the entries alone raises.", "quantifier": "all arrays of effective spins, all mass ratios, all maximal spins", "why_tests_cant": "the entries on the boundary between two cases are treated by a nested call on a part of the array; a finite set of test arrays misses the mixtures of boundary and interior entries", "anchors": ["gwinferno/preprocess/priors.py:chi_effective_prior_from_isotropic_spins"]}
{"id": "C140", "title": "The power-law density is accurate in single precision", "statement": "powerlaw_pdf evaluated in single precision (JAX's default) returns a finite number with a small relative error with respect to the exact density, for every slope and range for which the quantities involved do not overflow or underflow.", "quantifier": "every floating-point arithmetic meeting the stated accuracy contract (single precision is proved to be one), every slope, every 0 < low < high, every point of [low, high]", "why_tests_cant": "the loss of accuracy depends continuously on the distance of the slope from -1 and is total only for a few representable slopes; tests use a tolerance and a handful of slopes", "anchors": ["gwinferno/distributions.py:powerlaw_pdf"]}
{"id": "C141", "title": "The methods of the redshift models can be called", "statement": "log_prob and __call__ of a PowerlawRedshiftModel, and of its subclass PowerlawSplineRedshiftModel, can be called with the arguments that their own class documents (redshift, slope and, for the subclass, coefficients), by position or keyword, and return the logarithm of the density and the density.", "quantifier": "every object of the two classes, every list of arguments", "why_tests_cant": "that no choice of arguments makes the inherited method return is a statement about all calls", "anchors": ["gwinferno/models/parametric/parametric.py:PowerlawRedshiftModel.log_prob", "gwinferno/models/spline_perturbation.py:PowerlawSplineRedshiftModel"]}
{"id": "C142", "title": "The truncated normal density is accurate in single precision", "statement": "truncnorm_pdf evaluated in single precision (JAX's default) returns a finite number with a small relative error with respect to the exact density, wherever the truncation interval lies with respect to the mean.", "quantifier": "every floating-point arithmetic meeting the stated accuracy contract (single precision is proved to be one), every mean, width and interval of moderate size, every point of the interval", "why_tests_cant": "the error grows continuously as the probability of the interval shrinks; tests place the mean inside the interval", "anchors": ["gwinferno/distributions.py:truncnorm_pdf"]}
{"id": "C143", "title": "The design matrix of a basis spline is accurate in single precision", "statement": "The entries of the design matrix that BSpline.bases returns, evaluated in single precision (JAX's default), are finite, are exactly zero outside the range of the spline and outside the support of the component, and agree with the exact values to a small multiple of the order times the rounding unit, up to an amount of the size of the smallest normal numbers.", "quantifier": "every floating-point arithmetic meeting the stated accuracy contract (single precision is proved to be one), every order from 1 to 16, every number of components, every sorted knot vector whose distinct knots are not closer than 2^-18 and not further apart than 2^18, every point", "why_tests_cant": "the recursion divides by differences of knots and adds terms that shrink to zero at the ends of the support; tests compare a few points with a tolerance and do not see an error that grows with the order or with the knot spacing", "anchors": ["gwinferno/interpolation.py:BasisSpline._basis", "gwinferno/interpolation.py:BSpline"]}
{"id": "C144", "title": "The density of a log-spline is accurate in single precision", "statement": "The normalised density that LogYBSpline evaluates in single precision (JAX's default) is finite and agrees with the exact exp(sum of coefficients times components) divided by its trapezoid integral to a small relative error, for every set of coefficients.", "quantifier": "every floating-point arithmetic meeting the stated accuracy contract (single precision is proved to be one), every summation order, every spline and grid of moderate size, every set of coefficients, every point of the range", "why_tests_cant": "the error is amplified by the size of the coefficients, and beyond a threshold the exponential overflows; tests draw coefficients of order one", "anchors": ["gwinferno/interpolation.py:LogYBSpline", "gwinferno/interpolation.py:BasisSpline.eval"]}
{"id": "C145", "title": "The log-likelihood of a spline population computed entirely in single precision is accurate", "statement": "Take a population described by a log-spline, with given knots, samples, sampling priors and coefficients, and compute everything else in single precision: design matrix, exponent, exponential, normalisation over the grid, the product of the densities and the division by the prior, the Monte Carlo averages, the logarithms and their sum. For splines, grids and coefficients of moderate size (coefficients up to 30), weights in the range of C133, and cuts not met up to a margin, the log-likelihood differs from the exact value of its formula by at most a stated multiple of the rounding unit for each event and each unit of Nobs. The same holds for any population whose computed densities have a stated relative error.", "quantifier": "every floating-point arithmetic meeting the stated accuracy contract (single precision is proved to be one), every order of every sum, all splines, samples, priors, coefficients and flags in the range", "why_tests_cant": "no exact reference value exists in a test; the bound composes the errors of all stages for all inputs and all summation orders", "anchors": ["gwinferno/pipeline/analysis.py:hierarchical_likelihood", "gwinferno/interpolation.py:LogYBSpline", "examples/simple_bspline_example.py:model"]}
{"id": "C146", "title": "The joint mass and mass-ratio model with two spline perturbations is a density", "statement": "Suppose the attribute error in the constructor of PowerlawBasisSplinePrimaryRatio (C76) were repaired. Calling the object on the data it was built with then evaluates one density of primary mass and mass ratio on both data sets: proportional to the product of the two perturbed power laws, zero outside low <= m1 <= high and low/m1 <= q <= 1, positive inside, with unit trapezoidal double sum over the 1000 x 500 grid. A missing beta or vs raises KeyError, another missing or an unknown keyword TypeError. The density part is false whenever the minimum mass is a grid point, in particular for the default: the normalisation is infinite and every density is zero.", "quantifier": "all numbers of splines, bounds, samples, power law indices and coefficients", "why_tests_cant": "the constructor raises, so no test can reach these methods; and the zero density is a silent result that depends on one grid point", "anchors": ["gwinferno/models/spline_perturbation.py:PowerlawBasisSplinePrimaryRatio.__call__", "gwinferno/models/spline_perturbation.py:PowerlawBasisSplinePrimaryRatio.norm_pm1q", "gwinferno/models/spline_perturbation.py:PowerlawBasisSplinePrimaryRatio.p_m1", "gwinferno/models/spline_perturbation.py:PowerlawBasisSplinePrimaryRatio.p_q"]}
{"id": "C147", "title": "The parametric mass, spin and redshift densities are accurate in single precision", "statement": "Evaluated in single precision, the densities of the power-law-and-peak population agree with their exact values to a small stated relative error: the mixture of power law and truncated normal in primary mass (the far tail of the peak included, as long as it is negligible against the mixture), its product with the power law in mass ratio whose lower bound mmin/m1 is itself rounded, the mixture of isotropic and aligned spins for each tilt and their product, the product of two Beta densities, and the redshift density normalised by the trapezoid rule over the stored grid. Beyond the largest redshift the last one is exactly zero. The parameters are in stated ranges that keep every intermediate result in the range of single precision and away from slope -1 and from peaks without probability between the bounds (C140, C142).", "quantifier": "every floating-point arithmetic, library power, error function and log-Beta function meeting the stated accuracy contracts (single precision and correctly rounded functions are proved to), every summation order, all parameters and points in the stated ranges", "why_tests_cant": "the errors depend on cancellations at particular parameter values and no test has exact reference values; the bound holds at every point and for every parameter in the ranges", "anchors": ["gwinferno/models/parametric/parametric.py:plpeak_primary_pdf", "gwinferno/models/parametric/parametric.py:plpeak_primary_ratio_pdf", "gwinferno/models/parametric/parametric.py:mixture_isoalign_spin_tilt", "gwinferno/models/parametric/parametric.py:independent_spin_tilt", "gwinferno/models/parametric/parametric.py:independent_spin_magnitude_beta_dist", "gwinferno/models/parametric/parametric.py:PowerlawRedshiftModel.__call__", "gwinferno/distributions.py:betadist"]}
{"id": "C148", "title": "The log-likelihood of the power-law-and-peak population computed entirely in single precision is accurate", "statement": "Take the power-law-and-peak example with given parameters, samples, sampling priors and stored redshift grid, and compute everything else in single precision: the four densities, their product over the prior, the Monte Carlo averages, the logarithms and their sum. If the parameters and samples are in the ranges of C147, the partial products in the range of single precision, the weights in the range of C133 and the cuts not met up to a margin, the log-likelihood differs from its exact value by at most a stated multiple of the rounding unit for each event and each unit of Nobs.", "quantifier": "every floating-point arithmetic and library meeting the stated accuracy contracts, every order of every sum, all parameters, samples, priors, grids and flags in the ranges", "why_tests_cant": "no exact reference value exists in a test; the bound composes the errors of all stages for all inputs and all summation orders", "anchors": ["examples/simple_powerlaw_peak_example.py:model", "gwinferno/pipeline/analysis.py:hierarchical_likelihood"]}
{"id": "C149", "title": "The log-spline density in the logarithm of mass, and the redshift density with a spline, are accurate in single precision", "statement": "Evaluated in single precision, the normalised density of a LogXLogYBSpline (spline of the logarithm of the density in log x) and the density of PowerlawSplineRedshiftModel (volume element times power law times the exponential of a spline in log z, normalised by the trapezoid rule over the stored grid) agree with their exact values to a stated relative error, although the logarithm of the argument is itself rounded: a spline whose spacing is at least W changes by at most 2 A / W per unit of its argument, A the largest coefficient. Grid points and samples are those whose computed logarithm is inside the range of the spline. A point whose logarithm is rounded past the end of the range gets practically no density, whatever the exact value.", "quantifier": "every floating-point arithmetic and library meeting the stated accuracy contracts (single precision with correctly rounded functions is proved to), every order of every sum, every spline with at least W between the inner knots, all coefficients up to 30, all grids and points in the stated ranges", "why_tests_cant": "the error depends on where the rounded logarithm falls among the knots and no test has exact reference values; the bound holds at every point and for all coefficients", "anchors": ["gwinferno/interpolation.py:LogXLogYBSpline", "gwinferno/models/spline_perturbation.py:PowerlawSplineRedshiftModel"]}
{"id": "C150", "title": "The log-likelihood of the B-spline population computed entirely in single precision is accurate", "statement": "Take the B-spline example with given coefficients, samples, sampling priors and stored grids, and compute everything else in single precision: the six spline densities, the redshift density, their products over the prior, the Monte Carlo averages, the logarithms and their sum. If splines, coefficients and samples are in the ranges of C144 and C149, the products in the range of single precision, the weights in the range of C133 and the cuts not met up to a margin, the log-likelihood differs from its exact value by at most a stated multiple of the rounding unit for each event and each unit of Nobs. Without rounding it is the exact value. A sample with one parameter beyond the limits of its model gets the weight exactly zero.", "quantifier": "every floating-point arithmetic and library meeting the stated accuracy contracts, every order of every sum, all splines, coefficients, samples, priors, grids and flags in the ranges", "why_tests_cant": "no exact reference value exists in a test; the bound composes the errors of all stages for all inputs and all summation orders", "anchors": ["examples/simple_bspline_example.py:get_weights", "gwinferno/models/bsplines/separable.py:BSplinePrimaryBSplineRatio", "gwinferno/pipeline/analysis.py:hierarchical_likelihood"]}
{"id": "C151", "title": "Splines in log x keep the ends of their range in single precision when the limits are single-precision numbers, and can lose them otherwise", "statement": "A LogXBSpline or LogXLogYBSpline stores the logarithms of its limits and compares the computed logarithm of a point with them. In single precision with a correctly rounded logarithm, every point between the limits, ends included, is found inside the range. If both limits are single-precision numbers the same holds for every point first rounded to single precision, hence for the whole stored grid. With a limit that is not one it can fail: with the lower limit 1.3 the first point of the grid falls outside the range. The normalisation then misses half of the first step of the grid and the density is too large everywhere by that much, even if nothing else is rounded.", "quantifier": "all limits, all points between them, all grids; the failure for the limit 1.3, with all splines, orders of summation and grids whose first point is lost", "why_tests_cant": "the tests use integer limits, for which nothing is lost; whether an end is lost depends on the last bit of two roundings", "anchors": ["gwinferno/interpolation.py:LogXBSpline", "gwinferno/interpolation.py:LogXLogYBSpline"]}
{"id": "C152", "title": "The soft truncation is accurate in single precision, and its logarithmic form also where the linear form is zero", "statement": "In single precision logistic_unit agrees with its exact value to a stated relative error, a multiple of the rounding unit that grows only with the distance into the suppressed side, as long as this is at most 79 scale lengths. log_logistic_unit agrees with the exact logarithm at every distance: absolute error a multiple of the rounding unit where nothing is suppressed, relative error on the other side. From 100 scale lengths on logistic_unit is exactly zero and its logarithm minus infinity, so the logarithmic form cannot be replaced by the logarithm of the linear one. The power law with soft ends and the joint mass and mass-ratio density built from it have a stated relative error up to 20 scale lengths beyond the ends. Without rounding all four are the exact functions.", "quantifier": "every floating-point arithmetic and library meeting the stated accuracy contracts (the overflow for single precision with correctly rounded functions), all points, midpoints and scales whose difference and size are zero or between 2^-40 and 2^40, both signs, each soft end present or missing", "why_tests_cant": "tests compare at a few points with the tolerance of the same arithmetic; the bound holds at every distance, including where intermediate values overflow or underflow", "anchors": ["gwinferno/distributions.py:logistic_unit", "gwinferno/distributions.py:log_logistic_unit", "gwinferno/distributions.py:powerlaw_logit_pdf", "gwinferno/models/parametric/parametric.py:powerlaw_primary_ratio_falloff_pdf"]}
{"id": "C153", "title": "The low-mass taper is accurate in single precision inside its window, except at the very end", "statement": "In single precision smooth(dx, x, xmin) agrees with its exact value to a stated relative error, a multiple of the rounding unit plus one that grows with dx / (x - xmin), for every x inside the window whose distance from the upper end is at least 300 rounding units of the width and where the taper is at least about exp(-79). Closer to the upper end it can fail completely: with the lower limit 2.3 and the width 5, at the last single-precision number before the end of the window, the taper is exactly zero instead of one, because the distance from the lower end is rounded to the width.", "quantifier": "every floating-point arithmetic and library meeting the stated accuracy contracts, all widths between 2^-20 and 2^20, all points in the window as stated; the failure for single precision with correctly rounded operations", "why_tests_cant": "tests of the taper use a few points in double precision; the failure sits at a single number of single precision and the bound holds at every point", "anchors": ["gwinferno/distributions.py:smooth"]}
{"id": "C154", "title": "The tapered power-law-and-peak mass model is accurate in single precision", "statement": "In single precision plpeak_primary_pdf with a number delta agrees with its exact value to K + 6 rounding units, and plpeak_primary_ratio_pdf with a number delta to 2 K + 8 rounding units, where K is an explicit number computed from the slopes, the mass limits, the probability of the peak between them and the ratio of the window width to the distances from the lower limit. Both masses lie in their windows, away from the outermost part of the upper end; the taper of the secondary mass is taken at the product q * m1 as computed.", "quantifier": "every floating-point arithmetic and library (power, erf, exp) meeting the stated accuracy contracts; all masses, slopes, limits, peaks, mixing fractions and window widths in the stated ranges", "why_tests_cant": "tests compare a few values in double precision with a tolerance; the bound holds at every mass in the window", "anchors": ["gwinferno/models/parametric/parametric.py:plpeak_primary_pdf", "gwinferno/models/parametric/parametric.py:plpeak_primary_ratio_pdf", "gwinferno/distributions.py:smooth"]}
{"id": "C155", "title": "The P-spline penalty in single precision: accurate for first differences, only absolutely for higher ones", "statement": "In single precision apply_difference_prior with the default degree 1 agrees with its exact value to a relative error of 12 + 2 D rounding units (D the depth of the summation), however small the steps between the coefficients are compared with the coefficients. With a higher degree n the error is at most (28 + 6 D + 3 n) rounding units times (inv_var + 1) times the number of differences times the square of 2^n (M + 1), M bounding the coefficients; a relative bound fails, since the coefficients -2^-25, 1, 2 get the penalty zero at degree 2 although they are not on a line. Equal coefficients get exactly the penalty zero at every degree.", "quantifier": "every floating-point arithmetic meeting the stated accuracy contract, every order of summation, every number of coefficients, degree and inverse variance in the stated ranges; the failure for single precision", "why_tests_cant": "tests compare a few values with a tolerance; the difference between relative and absolute accuracy shows only at particular coefficients", "anchors": ["gwinferno/models/bsplines/smoothing.py:apply_difference_prior"]}
{"id": "C156", "title": "The joint spline densities are accurate in single precision", "statement": "In single precision the classes that combine splines with each other or with a parametric density agree with the exact products to stated relative errors: BSplineIndependentComponentMasses and BSplineIIDComponentMasses with a slope in the mass ratio (two spline errors plus 2|beta| + 5 rounding units, the ratio being the computed quotient of the masses), BSplinePrimaryPowerlawRatio, PLPeakPrimaryBSplineRatio and BSplineSymmetricChiEffective. BSplineIIDComponentMasses gives exactly zero where the computed ratio is above one, and in single precision no pair with m2 <= m1 is lost in this way.", "quantifier": "every floating-point arithmetic and library meeting the stated accuracy contracts, every spline model in the range of C144 and C149, all masses, ratios, slopes and spins in the stated ranges", "why_tests_cant": "tests compare a few values in double precision; that rounding of the ratio never cuts an ordered pair is a statement about all pairs of numbers", "anchors": ["gwinferno/models/bsplines/separable.py:BSplineIIDComponentMasses.__call__", "gwinferno/models/bsplines/separable.py:BSplineIndependentComponentMasses.__call__", "gwinferno/models/bsplines/separable.py:BSplinePrimaryPowerlawRatio.__call__", "gwinferno/models/bsplines/separable.py:PLPeakPrimaryBSplineRatio.__call__", "gwinferno/models/bsplines/single.py:BSplineSymmetricChiEffective.__call__"]}
{"id": "C157", "title": "The spline in redshift is accurate in single precision", "statement": "In single precision BSplineRedshift with normalize=False gives dV/dz/(1+z) * exp(spline(z)) over its trapezoid integral to a stated relative error: twice the error of the spline in log z plus 30 + 2A rounding units and two for each level of the sum over the grid, A being the largest coefficient. As in exact arithmetic (C35), a sample outside the limits of the spline gets a positive rate: dV/dz/(1+z) over the same integral.", "quantifier": "every floating-point arithmetic and library meeting the stated accuracy contracts, every spline, grid of redshifts and order of the sums in the stated ranges, all coefficients up to 30 in size, all redshifts up to 15", "why_tests_cant": "tests compare a few values in double precision; the bound is over all coefficients, redshifts and orders of summation", "anchors": ["gwinferno/models/bsplines/single.py:BSplineRedshift.__call__", "gwinferno/models/bsplines/single.py:BSplineRedshift.normalization"]}
{"id": "C158", "title": "The power law with a spline in mass is accurate in single precision", "statement": "In single precision PowerlawBasisSplinePrimaryPowerlawRatio gives the power law times the exponential of the spline in log mass, over its trapezoid integral, times the power law in the mass ratio, to a stated relative error: twice the sum of the errors of the power law (C140), of the exponent (C149) and 6 + A rounding units (A being the largest coefficient), plus the error of the ratio's power law, 12 units and two for each level of the sum over the grid. A mass outside the sampled limits gets exactly zero. Without rounding the value is the documented one.", "quantifier": "every floating-point arithmetic and library meeting the stated accuracy contracts, every spline, mass grid between the sampled limits and order of the sums in the stated ranges, all coefficients up to 30 in size, all slopes at least 2^-8 away from -1 and at most 6", "why_tests_cant": "tests compare a few values in double precision; the bound is over all coefficients, masses, slopes and orders of summation", "anchors": ["gwinferno/models/spline_perturbation.py:PowerlawBasisSplinePrimaryPowerlawRatio.__call__", "gwinferno/models/spline_perturbation.py:PowerlawBasisSplinePrimaryPowerlawRatio.p_m1", "gwinferno/models/spline_perturbation.py:PowerlawBasisSplinePrimaryPowerlawRatio.norm_p_m1"]}
{"id": "C159", "title": "The truncated log-normal density is accurate in single precision", "statement": "truncnorm_pdf with log=True in rounded arithmetic: at a point inside the limits, z standard deviations from the mean in the logarithm, the returned number is the exact truncated log-normal density to a relative error of 15 + 12(z+1)^2 + t(z+1) + (40 + 4t)/P rounding units, where P is the probability of the interval and t is one plus the largest logarithm over the width. Outside the limits it is exactly zero.", "quantifier": "every floating-point arithmetic, exponential, logarithm and error function meeting the stated accuracy contracts, all points, means, widths and limits in the stated ranges with z at most 8", "why_tests_cant": "tests compare a few values in double precision; the bound is over all widths and limits, and shows how narrow widths amplify the rounding of the logarithm", "anchors": ["gwinferno/distributions.py:truncnorm_pdf"]}
