# Formal model of GWInferno in Lean 4 — design

## 1. Trusted base

* Lean 4.33.0's kernel, and Mathlib's definitions (ℝ, integrals, `Real.exp/log/rpow/...`).
* Axioms: every theorem depends on at most `propext`, `Classical.choice`, `Quot.sound`
  (Lean/Mathlib's standard ones); AXIOMS.txt lists them theorem by theorem. No project axioms, no `sorry`, no `native_decide`/`bv_decide`.
* The hand translation from Python to Lean. It is a *shallow embedding*: one Lean `def` per Python
  function (or per vectorised kernel of it), branch by branch, each carrying a comment with the file and
  lines it models and the simplifications made.

### Numbers

* `F` (`Verif/Num.lean`) models a numpy/JAX float: `fin x | pinf | ninf | nan` with `x : ℝ`.
  Arithmetic follows the IEEE rules for special values (`0*inf = nan`, `inf-inf = nan`, `x/0 = ±inf`,
  `0/0 = nan`, `log 0 = -inf`, `log (neg) = nan`, comparisons with nan false, `pow` special cases used
  here, `nan_to_num`). **Not** modelled: rounding, overflow/underflow of finite results (except in the models of the next point), signed zero.
  (There is one zero, and `x/0` is `+inf` for `x>0`.) Theorems that must survive overflow
  (C45, C46) quantify over *arbitrary* `F` values of the intermediate quantities.
* `Model/Rounding.lean` is a second model of the likelihood in which every operation is rounded and every sum is evaluated in some order (C133, C134). What is assumed of
  the rounding function and of the library's `exp` and `log` is the contract `Arith.Contract` (`Props/RoundingBasics.lean`); IEEE single precision with correctly rounded
  `exp` and `log` is proved to satisfy it (`binary32_contract`). Fused multiply-add is not modelled. `Model/RoundingPowerlaw.lean` and `Model/RoundingTruncnorm.lean` do the same for
  `powerlaw_pdf` and `truncnorm_pdf` (C140, C142), with `PowContract` and `ErfContract` for the library's power and error function (`pow32_contract`, `erf32_contract`: the correctly rounded ones satisfy them). `Model/RoundingSpline.lean` does it for the basis splines (C143, C144); the knots, grid points and coefficients are representable numbers there.
* `F` is used wherever a special value can be produced or is relied on. Where the code's own guards keep
  every operation finite (Cox-de Boor recursion, trapezoid rule, interpolation, distance tables, ...)
  the model is directly over ℝ; guarded bridging lemmas connect the two.
* Arrays: `List`/`Fin n → _`/`ℕ → _` with explicit length; every vectorised function is modelled
  elementwise, with the reductions (`sum`, `trapezoid`, `cumsum`, `einsum`) as list/finset sums.
* Exceptions are values (`Except`/`Option`), state is explicit.

### Libraries, as assumed by the model

Each of these is an explicit function or an explicit hypothesis in the model, with the behaviour written below; that behaviour is
part of the trusted base.

* numpy/JAX reductions (`sum`, `max`, `trapezoid`, `cumsum`, `interp`, `linspace`, boolean masks, fancy indexing): elementwise
  definitions in `Verif/Arr.lean` and in the model files.
* `logsumexp` (JAX and scipy): over `F`, the log of the sum of exponentials with the usual treatment of `-inf`, `+inf` and NaN.
* `erf`, `betaln`: the integrals that define them (`Verif/Special.lean`); dilogarithm (`Di`): its real part as the integral that defines it (`Verif/Dilog.lean`).
* `jax.random.choice` / `np.random.choice`: arbitrary index sequences; in expectation statements, independent draws from the given
  probabilities; without replacement, arbitrary duplicate-free sequences.
* JAX's reverse-mode differentiation: the rule of each primitive as listed in `Model/AutoDiff.lean`, `Model/AutoDiffDensities.lean`, `Model/AutoDiffSplines.lean` and `Model/AutoDiffParametric.lean` (after `jax/_src/lax/lax.py`), cotangents
  computed in the same arithmetic as the values, added where a value is used twice.
* numpyro: `sample`/`deterministic`/`factor` append to a trace, a name used twice raises `AssertionError`; a distribution class is
  its keyword list and its log-density; samplers are not modelled. `SVI` with an `AutoDelta` guide (`find_map`, C135): the guide's parameters are named `<name>_auto_loc`,
  the loss is the negative log joint density, `Adam` is the update of `jax.example_libraries.optimizers.adam` with its default constants, applied to the unconstrained coordinates.
* `yaml.safe_load`: a finite ordered tree. HDF5 and NetCDF files: named arrays and attributes; byte formats are not modelled.
* `xarray.Dataset`: ordered variables with dimension names; refuses a wrong number of names, two sizes for a dimension and a name
  used for both a variable and a coordinate. Index coordinates, attributes and the reserved keys of `from_dict` are not modelled.
* `argparse`: exact option names with a separate value; last occurrence wins; `type` is applied to given text only.
* kernel density estimates in `priors.py`: see `Model/SpinPriors.lean`.
* JAX pytrees: a registered flatten function has to return a pair, otherwise `RuntimeError`; the unflatten function is called with the static data and the children.
* Python's `/` and `**` on two Python numbers raise `ZeroDivisionError` for a zero divisor and for zero to a negative power; with an array operand they are the array operators. numpyro's
  `promote_shapes` turns the parameters of a distribution into arrays only if one of them has an axis.
* `np.any` of a list of arrays of different shapes raises `ValueError`.
* `numpy.linalg.solve`/`lstsq`: any vector satisfying the linear system or the normal equations.

### Not modelled

JAX tracing/jit/vmap mechanics, dtype promotion, float32 and rounding outside the likelihood, `powerlaw_pdf`, `truncnorm_pdf`, `LogYBSpline` and `LogXLogYBSpline`, the densities of the power-law-and-peak and B-spline examples and the population weights, autodiff other than that of the likelihood, of the densities of `AutoDiffDensities`, of the spline models of `AutoDiffSplines` and of the parametric models of `AutoDiffParametric`, device placement, numpyro's samplers
(NUTS/HMC; SVI except for the Adam iteration of `find_map`), file byte formats, matplotlib rendering (axis labels, limits, legends; `postprocess/plot.py` is
modelled up to the arrays drawn and the files written), progress printing. `PowerlawBasisSplinePrimaryRatio` never gets past its
constructor (C76); its methods are modelled for the class with the offending line removed (C146).

## 2. Layout

* `Verif/Num.lean` — `F`; `Verif/Arr.lean` — linspace, trapezoid, interp, diff, cumsum; `Verif/PyDict.lean` — insertion-ordered
  dictionaries; `Verif/Special.lean` — special functions; `Verif/Spec.lean` — shared specification notions.
* `Verif/Model/*.lean` — the model:

| model file | source |
|---|---|
| Interpolation, IntegerPoints, NaturalCubic, SplineTree, LeastSquares, RectSpline | `interpolation.py` |
| Distributions | `distributions.py` |
| NumpyroDistributions, NumpyroSampling | `numpyro_distributions.py`, `models/bsplines/smoothing.py` |
| SplineModels, SplineKeywords | `models/bsplines/single.py`, `separable.py`, redshift class of `spline_perturbation.py` |
| SplinePerturbation | `models/spline_perturbation.py` |
| Parametric | `models/parametric/parametric.py` |
| Analysis, IntegerCounts, Rounding, Construct, FindMap | `pipeline/analysis.py` |
| AutoDiff | reverse-mode derivative of `hierarchical_likelihood` (`pipeline/analysis.py`) |
| AutoDiffDensities | reverse-mode derivatives of `powerlaw_pdf`, `truncnorm_pdf`, `betadist` (`distributions.py`), `Powerlaw.log_prob`, `plpeak_primary_ratio_pdf`, and of the likelihood in the hyper-parameters |
| AutoDiffSplines | reverse-mode derivatives of the splines (`interpolation.py`), of the one-dimensional, separable and redshift spline models, of the smoothing prior and of the B-spline example's weights in their coefficients |
| AutoDiffParametric | reverse-mode derivatives of the parametric mass, spin and redshift models (`parametric.py`, `distributions.py`) and of the power-law-plus-peak example's weights in their hyper-parameters |
| PyNumbers | `powerlaw_pdf`, `truncnorm_pdf`, the mass and tilt models and `Powerlaw` on Python numbers (`distributions.py`, `parametric.py`, `numpyro_distributions.py`) |
| RoundingPowerlaw, RoundingTruncnorm | `powerlaw_pdf` and `truncnorm_pdf` of `distributions.py` with every operation rounded |
| RedshiftMethods | method lookup and argument binding of `PowerlawRedshiftModel` and `PowerlawSplineRedshiftModel` |
| RoundingSpline | the recursion, the design matrix, the einsum, the exponential and the trapezoid normalisation of `BSpline` / `LogYBSpline` of `interpolation.py` with every operation rounded |
| RoundingPopulation | the product of densities over the prior in `examples/simple_bspline_example.py` with every operation rounded |
| PerturbedRatio | the methods of `PowerlawBasisSplinePrimaryRatio` in `models/spline_perturbation.py`, with line 220 of the constructor left out |
| RoundingParametric | the densities of `parametric.py` used by `examples/simple_powerlaw_peak_example.py` and its `get_weights`, with every operation rounded |
| RoundingLogSpline | `LogXBSpline`, `LogXLogYBSpline` and `PowerlawSplineRedshiftModel`, and `get_weights` of `examples/simple_bspline_example.py`, with every operation rounded |
| RoundingLogistic | the logistic functions and `powerlaw_logit_pdf` of `distributions.py`, `powerlaw_primary_ratio_falloff_pdf`, with every operation rounded |
| RoundingSmooth | `smooth` of `distributions.py` and the power law and peak with a number `delta` of `parametric.py`, with every operation rounded |
| RoundingPenalty | `apply_difference_prior` of `models/bsplines/smoothing.py`, with every operation rounded |
| RoundingJoint | joint densities of `models/bsplines/separable.py` and the symmetric effective spin of `single.py`, with every operation rounded |
| RoundingRate | `BSplineRedshift` of `models/bsplines/single.py` with every operation rounded |
| RoundingPerturbed | `PowerlawBasisSplinePrimaryPowerlawRatio` of `models/spline_perturbation.py` with every operation rounded |
| Parser | `pipeline/parser.py` |
| Config | `pipeline/parser.py` (`ConfigReader.parse`, `load_base_parser`), `bin/gwinferno_run_from_config.py` (`run_inference`) |
| PipelineUtils | `pipeline/utils.py` (priors, packaging, set-up, command line) |
| Cosmology | `cosmology.py` |
| Conversions, SpinPriors, SpinPriorsArray | `preprocess/conversions.py`, `preprocess/priors.py` |
| Selection | `preprocess/selection.py` |
| DataCollection | `preprocess/data_collection.py`, `load_pe_and_injections_as_dict` of `pipeline/utils.py` |
| Postprocess | `postprocess/calculations.py` |
| LoadData | `preprocess/data_collection.py` loaders and the saved file (files as dictionaries of columns) |
| Plot | `postprocess/plot.py` (arrays drawn, files written) |
| EndToEnd | the call in `examples/*.py` from the loaded dictionaries to the likelihood, for any density of the columns |
| ExampleMain | `main` of both `examples/*_example.py` after the set-up: posterior, curves, figures, saved files |
| Submit | `examples/create_simple_bspline_example_slurm_submit_script.py` |
| RunOutput | `bin/gwinferno_run_from_config.py` (`plot_trace_dump_samples` and the end of the command) |
| Scripts | the other `examples/*.py`, `bin/gwinferno_run_from_config.py`, `load_model_from_python_file` of `pipeline/parser.py` |

* `Verif/Lemmas/*.lean` — helper lemmas.
* `Verif/Props/*.lean` — the property theorems (`C01_...`), each with non-vacuity `example`s.
* Specifications are written out in the theorem statements with Mathlib notions (∫, Monotone, sums, ...), or in small
  specification sections at the top of a Props file.
* `tools/manifest.py` regenerates MANIFEST.json, `tools/axioms.py` AXIOMS.txt (the axioms of every theorem), `tools/design.py`
  section 4 below. `seeded/LOG.jsonl` records the wrong programs tried against the theorems.

Where the code does not satisfy the property a user relies on, the property file contains
(a) a theorem exhibiting a concrete counterexample (name contains `_fails` / `_bug`), and
(b) the strongest true variant with suffix `_partial`. Those claims have status `partial`.

## 3. Per property plan

| id | modelled | proof |
|---|---|---|
| C01 | `_basis`, `_bases`, default knots, `bases` | induction on k: Σ B_{i,k} = Σ B_{i,k-1}; endpoint by extended knots |
| C02 | same | induction on k, sign of the two linear factors on the support |
| C03 | same | induction on k |
| C04 | + `_project` | C01+C02, convex combination |
| C05 | `project`, `norm` of both classes | linearity of finite sums |
| C06 | + trapezoid | trapezoid is linear; x * 1/x = 1 |
| C07 | `_basis` | derivative formula for B-splines by induction, FTC |
| C08 | default-knot branch of `__init__` | counterexample; partial: uniform interior knots |
| C09 | LogXBSpline | reduction to C01/C03 through log |
| C10 | LogY/LogXLogY over `F` | case analysis of -inf sums; C01 for the shift invariance |
| C11 | natural cubic coefficients and evaluation | from the solved rows, algebra |
| C12 | same | counterexample: last row says c_N = c_{N-1} |
| C13 | same | discrete maximum principle: diagonal dominance with last row −1 |
| C14 | normal equations | Pythagoras |
| C15 | attribute-lookup model | evaluation of the method-resolution model: always AttributeError |
| C16 | `__init__` | arithmetic on linspace |
| C17,C18 | `powerlaw_pdf` over F | bridging, `integral_rpow`, `integral_inv` |
| C19 | `smooth` over F | counterexample outside; partial: inside window |
| C20,C21 | logistic functions | exp algebra |
| C22 | `truncnorm_pdf`, erf as its integral | substitution |
| C23 | `betadist` over F, betaln via Gamma/Beta integral | counterexample at endpoint; integral by Mathlib's beta integral |
| C24 | Sine, Cosine | trig inverses; counterexample for restricted bounds |
| C25,C26 | Powerlaw | rpow algebra; counterexample at alpha=-1 |
| C27 | PowerlawSmoothedPowerlaw | continuity by algebra; counterexample for total integral |
| C28,C29 | cumtrapz, PowerlawRedshift, BSplineDistribution | list induction; counterexample |
| C30 | apply_difference_prior | finite differences, induction on order |
| C31-C33 | single.py, separable.py | list mask/gather/scatter lemmas |
| C34,C35 | component masses, redshift models | positive for the guarded one, counterexample for the other |
| C36-C39 | parametric.py | from C17, C22, C23 |
| C40-C44 | per_event_log_bayes_factors, detection_efficiency over F | logsumexp algebra, Cauchy-Schwarz; counterexample for variance |
| C45-C49 | hierarchical_likelihood over F | total case analysis over F |
| C50,C51 | construct_hierarchical_model as a state/exception machine | symbolic execution |
| C52-C57 | Cosmology as a state machine | induction on the grid and on the call history; trapezoid bound for antitone integrands |
| C58,C59 | conversions.py | real inequalities |
| C60-C63 | priors.py | piecewise integrals; counterexample of termination |
| C64-C67 | selection.py | list filters; finite expectations |
| C68,C69 | utils/data_collection | list model |
| C70-C73 | parser, utils, calculations | finite maps, trapezoid linearity |
| C74 | BSplineDistribution | trapezoid of the normalised grid density; NaN analysis over F |
| C75-C77 | spline_perturbation, two-parameter taper | integral with the numeric normaliser; counterexamples for order, constructor, steepness |
| C78,C79 | construct_hierarchical_model, categorical branch | invariant over repeated calls; case analysis |
| C80 | alpha_beta_from_mu_var with array mutability | explicit state |
| C81,C82 | injection readers | counterexamples on missing datasets and zero spins |
| C83-C89 | data_collection | list filters, Jacobians by derivatives, integrals of the sampling densities |
| C90 | merger-rate curves | closed form of the redshift models |
| C91 | load_base_parser | evaluation of the option table for every argument list |
| C92 | set-up helpers | composition with C33 |
| C93 | isotropic χ_eff prior, dilogarithm as an integral | primitive of log·log on the whole line, one closed form per case, Tonelli |
| C94 | percentile and median of the draws on extended reals | sorted-list counting: quantile characterised by how many draws lie below/above |
| C95 | plot loops, file list written so far | induction over populations; index error when colours run out |
| C96 | Beta shapes of the example, its prior ranges, its curves | moments of Beta distributions (C59), monotonicity, grid end points |
| C97 | the three example models, Python keyword binding | every path ends in the failing call; weights unfolded column by column |
| C98 | the installed script's imports and data set-up | import table; induction over events for the row fill |
| C99 | module name and directory computed from the path, sys.path, sys.modules | string lemmas (pattern only at the end), search-path induction |
| C100 | file names of a run, dictionary of files | injectivity of decimal notation and of slash-separated names |
| C101 | text of the batch script, word splitting, argparse pairs | words of a blank-separated line by induction; option look-up |
| C102 | `sample`/`support` of every distribution, uniform numbers as inputs | measure of the set of uniform numbers whose quantile is at most x |
| C103 | both readers, the conversion, `drop_sel`; a file with its columns | rows of the reader computed symbolically for any file, then selection lemma; `_fails` for the name clashes |
| C104 | `loadPosterior`, `saveIdata`, `loadIdata`, file system as a dictionary | composition of the processing invariant (C69) with the prior (C84) and the selection (C89); induction over the files saved in between |
| C105 | change of variables and Tonelli for the weights; first-acceptance decomposition over independent rounds for the loop; C63 and C93 for the joint density |
| C106 | strong law of large numbers for the weights and their squares, change of measure for the posterior and injection laws, then C44-C47 |
| C107 | scaling of the Gamma density; Gamma integral over the rate |
| C108 | the interval of uniform numbers that leads to each index; independence over distinct keys; keys modelled as terms |
| C109 | case analysis of parse and run_inference; parse_reads and foldHP lemmas of C70 for the reused reader |
| C110 | rewrite the formula as Mathlib's Real.smoothTransition of the relative position |
| C111 | right derivative of the Cox–de Boor functions by induction on the order; continuous right derivative gives a derivative (fundamental theorem of calculus); summation by parts gives the derivative spline; mean value inequality |
| C112 | half-cell comparison of the trapezoid sum with the integral, with the Lipschitz bound of C111 |
| C113 | linear independence of B-splines by induction on the order: the derivative of a vanishing spline is a spline of one order less in the coefficient differences; partition of unity for the constant |
| C114 | the log density is linear minus a log-sum-exp; convexity of exp |
| C115 | the power-law normalisation written with the analytic function (exp u - 1)/u; erf and Gamma are smooth; compositions |
| C116 | mixtures agreeing on an interval agree on the half line by analytic continuation, where the power law dominates the Gaussian; logarithms of the pure densities |
| C117 | the strict cuts are open conditions by continuity of the Kish sizes, so C47_value holds near the point; differentiate its right-hand side |
| C118 | sums, squares and quotients of positive numbers keep relative bounds; logarithms turn them into absolute ones; C47_value on both runs |
| C119 | log slopes add under products; a weight with bounded log slope changes by at most exp(eps) over half a grid cell (true_mass_log) |
| C120 | a completed call stores every prior of the reader (C70_flatten_partial) and, with reconstruct_rate=True, the four summarised quantities; paths are compared at their last slash |
| C121 | the truncated recursion is a fixed multiple of the true one for equally spaced knots, by induction on the order |
| C122 | compose C103, C104 and C47 through the file; the arrays read back are identified entry by entry with physical columns of the raw samples |
| C123 | model main as a sequence of file writes that an exception cuts short; compose C95 (plots), C71 (packaging) and the calculators |
| C124 | C72/C90 applied to the rows identified by C123; for the Beta curve, evaluate the trapezoid sum in extended arithmetic |
| C125 | model the pullback of each primitive over F, compose along the code, evaluate at encoded weights; HasFDerivAt from C117's smooth form |
| C126 | extend the exact description of the predictive check (C49) by the subpopulation sites |
| C127 | a soundness predicate for programs (computes a real function nearby, pullback = its derivative), closed under each primitive and under where with a locally constant condition and a harmless untaken branch; NaN propagation lemmas for the failures |
| C128 | the soundness predicate of C127, closed under sums, trapezoids and the clipped exponential; entries of the models by the mask and design-matrix lemmas of C31; NaN propagation for the failure |
| C129 | the soundness predicate of C127, extended to the two-sided taper, the logistic functions and both branches of a select; the entries of the example's weights; C127's lifting to the likelihood; NaN propagation for the failures |
| C130 | Central limit theorem (Mathlib) for the averages of the weights, the delta method for the logarithm, the strong law for the reported variances and Slutsky's theorem. For the likelihood: characteristic functions of the independent parts; the rates of the two parts need not be related, so the limit is taken along subsequences on which the ratio of their variances converges. |
| C131 | Uniform strong law of large numbers (compactness, dominated oscillation, read off from countably many hyper-parameters) for the weights of the events and of the injections; none of the cuts is active once the samples are many, uniformly in the hyper-parameters; the ratio of the integrals then converges uniformly over all sets. |
| C132 | A second model of detection_efficiency and hierarchical_likelihood in which the square of the number of injections is reduced modulo 2^32 to a signed integer; case distinction on the sign of the stored square; Kish's inequality for the effective number. |
| C133 | A second model of the likelihood over an abstract floating-point arithmetic: rounding function, library exp and log, a binary tree for the order of each sum. Without rounding it is the first model for every order. With rounding: errors of sums of non-negative numbers (a factor, plus an amount for entries that underflow) by induction over the tree, absolute errors of logarithms, logsumexp with its shift, the difference in the variance of the efficiency loses at most a factor because the subtracted term is at most half; then the cuts with margins. |
| C134 | In the range of C133 the estimates decide the cuts up to the margin. Below it: squares below 2^-150 round to zero, so the variance of the efficiency is zero and its logarithm -inf; on the linear per-event path 0/0, replaced by 0, is an effective number of 1. |
| C135 | `find_map` as Niter steps of Adam on an arbitrary gradient | one invariant: the square of the running mean of the gradients is at most a constant (growing with the step) times the running mean of the squares, by Cauchy and Schwarz; with the start corrections a step is at most 7.28 lr, 2.31 lr in the first hundred. Counterexamples from that bound; steady slope and stationary start by induction. |
| C136 | the two pytree methods, the constructor with coefficients, JAX's calling convention for them | evaluation of the model |
| C137 | Python's binding of keyword arguments; the constructors of `single.py` and `separable.py` down to the basis classes | one lemma per step of the chain (bind, merge, default), then each class by rewriting |
| C138 | a second version of the densities over tagged numbers (Python number or array entry), in which `/` and `**` can raise | the two operators are rewritten as value plus condition; the conditions are then decided by positivity and by injectivity of powers |
| C139 | the function on lists, with its shape check and its nested call on the boundary entries | induction on the recursion depth, relating the list version to the scalar one entry by entry |
| C140 | `powerlaw_pdf` over an abstract rounding function and library power | errors as factors `exp θ`; the difference of the two powers loses the factor `1 + 2/(|1+α| ln(high/low))`; the counterexamples compute the rounded powers of single precision from bounds on `ln 5`, `ln 100` |
| C141 | the objects carry their class; `self.normalization` is looked up in it and its arguments are bound | case analysis on the binding |
| C142 | `truncnorm_pdf` over an abstract rounding function and library `erf` | relative errors up to the argument of `erf`, whose change is bounded by the relative change of its argument (mean value theorem), absolute errors after it; tail bound `1 - erf x ≤ exp(-x²)` for the contract of single precision |
| C143 | the recursion `basis` and the division and multiplication of `BSpline._bases` over an abstract rounding function | induction on the order with errors of the form `(q - 1) a + δ` (`Lin`): a power of `1 + κ` per step, and a power of two times the smallest normal number for underflow |
| C144 | the einsum in any order, `exp`, the trapezoid sum in any order, the division | the error of the exponent is absolute, proportional to the largest coefficient; after the exponential everything is a positive number with a relative error |
| C145 | `weightR`, `Spline.logYEvalR` and `logLikelihoodR` composed | relative errors add up along the product; C118 bounds the effect of the weights' errors on the exact likelihood, C133 the rounding inside it |
| C146 | `PLRatio.call` with the double trapezoidal normalisation | away from the corner (minimum mass, ratio 1) every factor is finite; at the corner the ratio density is infinite, and one infinite entry makes the double sum infinite |
| C147 | the densities of `parametric.py` over an abstract rounding function and library | relative errors along products and quotients; in the mixtures the tail of the normal is an absolute error, negligible against the sum; the rounded lower bound of the mass ratio changes the norm by a bounded factor; absolute errors in the exponent of the Beta density |
| C148 | `peakWeightR` and `logLikelihoodR` composed | C147 for each factor, C145 for product and likelihood |
| C149 | the splines in `log x` over an abstract rounding function and library | a Lipschitz bound for splines (derivative of the basis functions as differences of lower order) carries the error of the logarithm to the exponent; C144 from the rounded logarithm on |
| C150 | `splineWeightR` and `logLikelihoodR` composed | C144 and C149 for each factor, C145 for product and likelihood |
| C151 | `logXYBasesR` with `rd32` and the correctly rounded logarithm; the grid ends at the rounded limits | monotonicity of `rd32`; for 1.3 the logarithm series to 24 terms |
| C152 | the logistic functions over an abstract rounding function and library | the argument of the exponential is known up to a factor; below zero `t exp(-t)` bounds the absolute error of the exponential at any distance |
| C153 | `smoothR` over an abstract rounding function and library | the exponent is a difference of two terms with errors of their squares; near the upper end the exponential is smaller than its error is large |
| C154 | `plpeak_primary_taperR`, `plpeak_primary_ratio_taperR` over an abstract rounding function and library | a product of three small factors can leave the range in which rounding is relative; the size of the first term is a hypothesis |
| C155 | `difference_priorR` over an abstract rounding function, the dot product in any order | first differences are rounded once, so relative errors suffice; higher ones by induction with errors as multiples of a common bound |
| C156 | the joint densities over an abstract rounding function and library | C144, C147 and C149 for the factors; the error of the computed ratio enters the power multiplied by the slope; monotonicity of `rd32` for the cut |
| C157 | `BSplineRedshift` over an abstract rounding function and library | C149 for the exponent; relative errors of the quotient, the trapezoid sum and the division |
| C158 | `PowerlawBasisSplinePrimaryPowerlawRatio` over an abstract rounding function and library | C140 for the power laws, C149 for the exponent; relative errors of the trapezoid sum and the division |
| C159 | `truncnorm_pdf` with `log=True` over an abstract rounding function and library | the steps of C142 at the computed logarithms; slope bounds carry the error of the logarithms through the exponent and the two cumulative probabilities |

Anything later found not expressible is listed in section 5.

## 4. Disagreements between the code and the property a user would expect

Generated by `tools/design.py`; each entry is proved by the theorems it names.

<!-- disagreements -->
* **C01** (proved) B-spline bases are a partition of unity on the whole closed domain. Proved for default knots and for explicit knots with a knot strictly right of the domain; the three boundary theorems (_fails) show exactly where it stops holding: clamped knots, order 1 and sub-1e-6 domains. Theorems: `C01_clamped_right_end_fails`, `C01_order_one_right_end_fails`, `C01_tiny_domain_fails`.
* **C07** (proved) M-spline basis elements have unit area. Area and centre of mass for every knot vector (repeated knots allowed); a component whose span is below the 1e-6 threshold is identically zero (C07_tiny_span_fails). Theorems: `C07_tiny_span_fails`.
* **C08** (partial) User-supplied interior knots are where the spline's knots are. Holds for equally spaced interior knots; false in general: the constructor only uses the first spacing and the count (counterexample theorem). Theorems: `C08_user_interior_knots_ignored_fails`.
* **C09** (proved) LogXBSpline is the B-spline in log x. Zero outside for all positive x; negative x yields NaN (boundary theorem). Theorems: `C09_negative_x_is_nan_fails`.
* **C12** (partial) Natural cubic spline is natural at the right end. False of the code: the last matrix row is c[n-1]-c[n-2]=0, so the last piece is quadratic; for every abscissa vector there is data with non-zero second derivative at the right end. Theorems: `C12_right_end_fails`.
* **C15** (partial) The tensor-product spline can be evaluated. False of the code: bases() calls the non-existent reset_bases, so every evaluation and every default construction raises; the layout is also wrong. Theorems: `C15_bases_fails`, `C15_construct_fails`, `C15_layout_fails`.
* **C19** (partial) smooth() is a taper from 0 to 1. Inside the open window and at the lower edge the claim holds; below, above and at the upper edge it is false because the window test joins its two halves with `|` (three _fails theorems). Theorems: `C19_below_window_fails`, `C19_above_window_fails`, `C19_upper_edge_fails`.
* **C23** (partial) betadist is a normalised Beta density on [0,scale]. Normalised and positive on the open interval, floor outside; at an end point with the matching shape equal to 1 the code returns NaN (two _fails theorems). Theorems: `C23_nan_at_zero_fails`, `C23_nan_at_scale_fails`.
* **C24** (partial) Sine/Cosine distributions: cdf and icdf are inverse and the density integrates to one over the support. cdf/icdf claims hold on every sub-range; the density is normalised only on the full default range, because log_prob ignores minimum and maximum (two _fails theorems quantify over every proper sub-range). Theorems: `C24_sine_density_subrange_fails`, `C24_cosine_density_subrange_fails`.
* **C25** (partial) Powerlaw distribution: cdf and icdf are inverse. Inverse pair proved for every slope; cdf monotone on positive arguments. For negative arguments it fails (slope 1 gives cdf(-max)=1). Theorems: `C25_cdf_left_of_zero_fails`.
* **C26** (partial) Powerlaw distribution: exp(log_prob) integrates to one for every slope. Proved for every slope except -1; at slope -1 the total mass is log(r)/r<1 for every r=max/min (_fails theorem). Theorems: `C26_slope_minus_one_fails`, `C26_slope_jump_fails`.
* **C27** (partial) PowerlawSmoothedPowerlaw is continuous and normalised. Continuity proved; normalisation fails for every valid parameter set (NaN everywhere or mass > 1) because of a sign error in the amplitude. Theorems: `C27_never_normalised_fails`.
* **C28** (partial) Gridded distributions: cdf is a valid cdf and icdf its inverse. On equally spaced grids: starts at 0, ends at 1, monotone, icdf inverse. The claim that the cdf is the running integral is false (off-by-one in cumtrapz), and on uneven grids the cdf can exceed 1. Theorems: `C28_cdf_is_not_running_integral_fails`, `C28_cdf_exceeds_one_fails`.
* **C34** (partial) Component-mass models respect m2<=m1. Proved for BSplineIIDComponentMasses with positive masses. False for BSplineIndependentComponentMasses, which has no cut (C34_independent_fails). Theorems: `C34_independent_fails`.
* **C35** (partial) Redshift spline model is consistent with its normalisation. Unit integral proved for BSplineRedshift with normalize=False and for PowerlawSplineRedshiftModel. False with BSplineRedshift's default normalize=True, and neither model vanishes outside the range (the _fails theorems). Theorems: `C35_outside_range_fails`, `C35_default_normalisation_fails`, `C35_powerlaw_below_zmin_fails`.
* **C36** (proved) powerlaw_primary_ratio_pdf is a joint density. Proved on the whole region; the single corner m1=mmin, q=1 evaluates to an infinity (C36_corner_fails). Theorems: `C36_corner_fails`.
* **C37** (proved) Powerlaw+peak is a normalised mixture. Proved without tapering (the property's scope) and, inside the secondary's taper window, with tapering (C37_tapered_joint); outside the window the model inherits the smooth() defect (C37_tapered_fails). Theorems: `C37_tapered_fails`.
* **C39** (proved) Power-law redshift model: normalised, truncated and log-consistent. Proved; two boundary theorems: no truncation below zmin, and evaluation on an array other than the construction array reuses stale volume elements. Theorems: `C39_below_range_fails`, `C39_other_array_fails`.
* **C43** (partial) Detection efficiency variance is the Monte Carlo variance of log mu. The effective sample size is correct (C43_neff_partial). The returned variance subtracts 1/Ninj twice (C43_variance_is_double_subtracted), so it is not the relative Monte Carlo variance (C43_variance_fails). Theorems: `C43_variance_fails`.
* **C50** (partial) IID sharing in configuration-built models works. False of the code: the roles in iid_mapping are swapped, so any shared parameter makes every call raise (C50_iid_sharing_fails; end to end from a parsed configuration: C50_configured_iid_fails). What holds without sharing is C51_run_partial. Theorems: `C50_iid_sharing_fails`, `C50_configured_iid_fails`.
* **C51** (partial) The configured redshift model can be evaluated. False of the code for the shipped PowerlawRedshift (the keyword grid is not accepted: C51_powerlaw_redshift_fails, C51_class_without_grid_fails), for configurations without redshift (C51_missing_redshift_fails) and, with the default predictive check, for data without mass columns (C51_missing_mass_fails; C51_missing_column for a column the model needs). C51_run_partial: with a class that accepts grid every call evaluates the likelihood of the configured densities. Theorems: `C51_class_without_grid_fails`, `C51_powerlaw_redshift_fails`, `C51_missing_mass_fails`, `C51_missing_redshift_fails`.
* **C55** (partial) Distance answers do not depend on call history. Proved for redshifts inside the constructor's table under every history of queries with the constructor's step; for redshifts beyond it the answer depends on earlier queries (C55_history_fails). Theorems: `C55_history_fails`.
* **C56** (partial) Beyond-table queries are answered by extending the table. Beyond the table, two redshifts in the same step get the same distance (C56_distance_fails) and DL2z raises TypeError (C56_redshift_fails); the distance is proved within one step times c/H0 of the exact integral. Theorems: `C56_distance_fails`, `C56_redshift_fails`.
* **C61** (partial) Isotropic chi_eff prior terminates and is even. Evenness, support, scaling, finiteness away from break points proved for every input. Termination proved except when two break points are exactly one 1e-6 shift apart, where the recursion never ends (C61_recursion_fails); NaN at q*a/(1+q) for every q in (1/2,1) (C61_edge_fails). Theorems: `C61_edge_fails`, `C61_recursion_fails`.
* **C62** (partial) chi_p prior is a normalised density. Normalisation and agreement with the distribution of max of projected spins proved; for negative chi_p the code returns negative values (C62_negative_fails). Theorems: `C62_negative_fails`.
* **C63** (partial) Conditional chi_p sampler only accepts configurations with the requested chi_eff. Accepted rows, support and normalisation proved for a_max=1; endless loop for unreachable chi_eff, NaN cosines at measure-zero draws, wrong support for a_max<1, 0/0 at the extreme chi_eff (_fails theorems). Theorems: `C63_unreachable_fails`, `C63_nan_fails`, `C63_amax_fails`, `C63_amax_nan_fails`, `C63_extreme_fails`.
* **C65** (partial) additional_cuts restrict the found set. False of the code: additional cuts are OR-ed into the mask, so they add injections (C65_cuts_fails). Nothing weaker of the English claim holds for non-empty cuts. Theorems: `C65_cuts_fails`.
* **C68** (partial) Catalogue loading keeps columns aligned and reports the number of events kept. Columns stay aligned with the kept events (C68_aligned); nObs is right when no ignored event is in the file and too large otherwise (C68_ignored_fails), because it is taken from the unfiltered array. Theorems: `C68_ignored_fails`.
* **C70** (partial) Configuration flattening maps each hyper-parameter to its own prior. Holds when the flat names are distinct (C70_flatten_partial, C70_models_partial). False in general: name collisions silently replace a prior (C70_collision_fails) and hyper-parameters without prior or value are skipped (C70_missing_prior_fails). Theorems: `C70_collision_fails`, `C70_missing_prior_fails`.
* **C71** (partial) Posterior/PDF packaging keeps every quantity. Every quantity is kept and named (C71_posterior_partial, C71_curves, C71_subpopulations_partial); a wrong draw count is refused. False in general: posterior_dict_to_xarray replaces the arrays in the caller's dictionary, the sub-population branch drops redshift from the result and from the caller's dictionary, and colliding names overwrite each other. Theorems: `C71_posterior_altered_fails`, `C71_redshift_lost_fails`, `C71_collision_fails`.
* **C72** (partial) Posterior predictive rate curves integrate to the rate. Proved for B-spline masses, power law plus peak, log peak, B-spline spins and mixture tilts (with the marginal consistency of mass and ratio curves). False for the Beta spin magnitudes when a shape is at most 1 (C72_beta_fails: a NaN entry); C72_beta_partial covers both shapes above 1. Theorems: `C72_beta_fails`.
* **C74** (partial) BSplineDistribution: density normalised on its grid and log_prob never NaN. Holds whenever the design matrix is finite; NaN log-density on cells whose two ends are outside the support. Theorems: `C74_outside_support_fails`.
* **C75** (partial) Spline-perturbed power-law primary mass density is normalised. Proved for the default order k=4; every other k raises (C75_order_parameter_fails). Theorems: `C75_order_parameter_fails`.
* **C76** (partial) PowerlawBasisSplinePrimaryRatio is constructible. False: the constructor always raises (self.qknots is never assigned). Only the failure is proved; what the remaining methods would do is C146. Theorems: `C76_never_constructs_fails`.
* **C77** (partial) Soft truncation of the two-parameter mass model uses the requested steepness. False of the code: fall_off controls only the lower edge, the upper edge has the fixed steepness 4 (C77_value_partial, C77_upper_fall_off_fails). Theorems: `C77_upper_fall_off_fails`.
* **C79** (partial) Categorical labels select each event's weights. C79_labels_select_partial holds without the predictive check; with it every categorical run raises (C79_categorical_ppc_fails). Theorems: `C79_categorical_ppc_fails`.
* **C80** (partial) alpha_beta_from_mu_var does not alter its arguments. False for numpy arrays when xmax is not 1 (in-place /=); returned values are right and immutable inputs are unaffected. Theorems: `C80_caller_arrays_fails`.
* **C81** (partial) O3 files without in-plane spins are readable. False of the code: IndexError unless every injection is found (C81_inplane_fails). Theorems: `C81_inplane_fails`.
* **C82** (partial) Every returned injection has usable spin values. False of the code at exactly zero spin (C82_zero_spin_fails); for non-zero spins C66 gives the finite positive value. Theorems: `C82_zero_spin_fails`.
* **C83** (partial) The maximum-mass cut removes heavier samples. Holds for all catalogues but GWTC-1, whose branch ignores the maximum (C83_gwtc1_fails: any GWTC-1 event with a heavier sample keeps one). Theorems: `C83_gwtc1_fails`.
* **C85** (partial) Cutting the samples of one event does not remove those of other events. False: one event with all samples above the cut empties every event (C85_emptied_fails). Proved when every event keeps a sample. Theorems: `C85_emptied_fails`.
* **C86** (partial) After conversion to effective spins the prior is a density in the retained parameters. False: the code divides by (2 pi a1^2)(2 pi a2^2) although the stored prior is a density in magnitude and cosine tilt; C86_value_partial gives what is computed, the two _fails theorems quantify over all affected samples. Theorems: `C86_density_fails`, `C86_injection_fails`.
* **C87** (partial) Missing catalogue metadata is reported as such. False for neither: TypeError from open(None) before the assertion can run. Theorems: `C87_missing_fails`.
* **C88** (partial) Posterior samples can be converted to effective precession. False: the reshape/dimension names never match, so the conversion always raises (C88_chip_fails, for every catalogue). No positive part exists. Theorems: `C88_chip_fails`.
* **C91** (partial) Command-line options take effect. Defaults and the int/float options behave; false for the spline sizes (parsed as text, TypeError later) and for --save-plots (any non-empty text is True). Theorems: `C91_sizes_fails`, `C91_save_plots_fails`.
* **C92** (partial) Set-up helpers build the model of the given data. Proved for every successful set-up; the default arguments of setup_bspline_spin_models never succeed, and the redshift model does not vanish below the common range (C35_powerlaw_below_zmin_fails). Theorems: `C92_spin_defaults_fails`.
* **C94** (partial) Plotted median and 90% band. Proved at every grid point whose draws are all finite (C94_band_partial, C94_coverage, C94_order). False where one draw is NaN: median and band vanish there (C94_nan_draw_fails). Theorems: `C94_nan_draw_fails`.
* **C95** (partial) Summary plots show every population and are saved under their own names. Proved when names and colours cover every population. False with the default colours for more than three populations: the call raises and writes nothing (C95_default_colors_fails). Theorems: `C95_default_colors_fails`.
* **C96** (partial) mu_a and var_a of the power-law-peak example are the mean and variance of the spin magnitude. mu_a is the mean. False of var_a: the variance is mu(1-mu)/(1+var), decreasing in var_a; for every draw inside the prior both Beta shapes are below 1, and the plotted curve is 0 inside and NaN at both ends. Theorems: `C96_variance_fails`, `C96_variance_decreases_fails`, `C96_ends_fails`, `C96_curve_fails`.
* **C97** (partial) The shipped example models evaluate the hierarchical likelihood. The weights of the power-law-peak example are proved for complete data. False of all three examples: no evaluation completes, because hierarchical_likelihood is called with keywords it does not have, or PowerlawRedshift without its grids. Theorems: `C97_plpeak_fails`, `C97_plpeak_complete_fails`, `C97_bspline_fails`, `C97_config_model_fails`.
* **C98** (partial) gwinferno_run_from_config analyses the configured data. Row i is event i in the data set-up. False of the command as a whole: its first import raises ImportError; a model given as a Python file additionally asks for a data column called file_path. Theorems: `C98_import_fails`, `C98_python_file_fails`, `C98_single_sample_fails`.
* **C99** (partial) load_model_from_python_file returns the model of the given file. Proved for a module name not imported before and not present earlier on the search path. False otherwise: a second file of the same name returns the first file's model, an earlier search-path directory wins, and a path without a directory is not found. Theorems: `C99_second_file_fails`, `C99_shadowed_fails`, `C99_no_directory_fails`.
* **C100** (partial) Runs of the examples keep their results apart and can be resumed. Re-use with --skip-inference is proved for all settings, separation for runs that differ in directory, label, seed, warm-up or samples (labels without a slash). False for every other setting: the second run overwrites the first. Theorems: `C100_overwrite_fails`.
* **C101** (partial) The batch script runs the requested analysis. Proved when every value is one plain word (no blanks, no shell syntax) and the seed list has no underscore. False otherwise: a label with a blank makes every task fail, an omitted data file becomes a file called None, the script's own defaults (mass range, samples) replace those of the analysis, and a second script with the same job name and seeds replaces the first whatever its label. Theorems: `C101_left_out_fails`, `C101_blank_label_fails`, `C101_empty_label_fails`, `C101_defaults_fails`, `C101_script_replaced_fails`.
* **C102** (partial) Random draws follow the distribution. Proved for Sine and Cosine on every sub-range, for Powerlaw on every positive range (given a support that contains it), for the gridded distributions on equally spaced grids. False: Powerlaw's default support is [0,1] whatever its range, PowerlawRedshift draws exceed maximum, BSplineDistribution returns one number per coefficient, PowerlawSmoothedPowerlaw always returns 1, PSplineCoeficientPrior's draw is rejected by its own log_prob. Theorems: `C102_powerlaw_support_fails`, `C102_redshift_maximum_fails`, `C102_bspline_shape_fails`, `C102_smoothed_powerlaw_fails`, `C102_pspline_fails`.
* **C103** (partial) The injection data set holds exactly the detected injections and the requested parameters. Proved for component spins requested together with a_1 and, with the rows spelled out, for chi_eff. False: a_2 or a tilt without a_1 raises KeyError, the additional cuts are ignored for O4a, and with chi_eff the rows are fixed (mass_1 and redshift always there, never both mass_2 and mass_ratio). Theorems: `C103_o4a_cuts_fails`, `C103_secondary_spin_fails`, `C103_chieff_names_fails`, `C103_both_masses_fails`.
* **C104** (partial) The posterior data set is aligned, and the file hands both data sets over unchanged. Proved for masses, redshift and component spins (C104_posterior) and the round trip; with chi_eff the rows are spelled out (C104_posterior_chieff_partial), the spin density being wrong as in C86. False: chi_p can never be loaded, any name containing .h5 is accepted whatever its extension, and the number of events still counts the ignored ones (C104_ignored_count_fails). Theorems: `C104_chip_fails`, `C104_ignored_count_fails`, `C104_extension_fails`.
* **C106** (partial) The Monte Carlo estimates converge to the hierarchical likelihood. (a)-(d) proved with the strong law of large numbers; square integrability of the weights under the posterior and the injection law is assumed (without it the variance limits are meaningless). (e) is false of the code: C106_selection_variance_fails proves n times the reported variance tends to the true limit minus one. Theorems: `C106_selection_variance_fails`.
* **C108** (partial) Posterior predictive draws follow the weights. (a) proved for an arbitrary probability space carrying independent uniform numbers per key. (b) is false of the code: C108_calls_fails. Theorems: `C108_calls_fails`.
* **C109** (partial) A configuration file describes the run completely. The imports of the command are taken as working here (C98 shows they are not). Fresh readers, runs and options proved; reuse and the defaults are false of the code: C109_reuse_fails, C109_defaults_fails. Theorems: `C109_reuse_fails`, `C109_defaults_fails`.
* **C120** (partial) A finished run from a configuration file saves its samples. Proved for the command from the sampling on, when the output directory exists, the flat names are distinct, the model comes from the configuration and the label has no slash (as shipped the command stops earlier, at an import: C98). The claim fails otherwise: nothing creates the directory, and the trace plot is made before the samples are saved, so a missing directory, a model without a quantity called rate, or a sampled name overwritten by a fixed value loses the samples. File contents are the stored names; the numbers are not modelled. Theorems: `C120_new_directory_fails`, `C120_no_rate_fails`, `C120_collision_fails`.
* **C121** (partial) A spline has the same value at an integer whether it is stored as an integer or as a float. False: the innermost basis functions are stored in np.zeros_like(xs), so 1/spacing is truncated for integer points. With default knots of spacing h every value is h*floor(1/h) times the right one (C121_scaled): equal when 1/h is an integer (C121_partial), smaller otherwise, and zero for knots more than 1 apart. Splines in log x are not concerned. For splines of the logarithm of the density, C121_logy_outside and C121_logy_partial say the same. Theorems: `C121_fails`, `C121_wide_fails`, `C121_logy_fails`.
* **C122** (partial) From the raw files to the likelihood value. Proved for O4a and O3 injection files (C122_o4a, C122_o3) with component parameters, for every density that reads the requested columns only. False when events are ignored at reading (C122_ignored_fails): the selection term keeps the number of events of the file. Missing: effective-spin parameters (their prior is not the density, C86). Theorems: `C122_ignored_fails`.
* **C123** (partial) A finished example run saves its curves. Proved when the posterior has exactly --samples draws (C123_plpeak_partial, C123_bspline_partial, C123_plpeak_sampled_partial): all files are written, every stored value is the calculator's. False otherwise: with two or more chains the sampler returns chains x samples draws but main packs --samples of them, so after posterior and figures it ends with ValueError and the curves are never saved (C123_*_chains_fails, C123_*_draw_count_fails). At this commit the sampling branch is itself unreachable (C97: the model's call to the likelihood raises TypeError), the --skip-inference branch is not. The posterior file is kept in all these cases (C123_posterior_kept). Theorems: `C123_plpeak_draw_count_fails`, `C123_plpeak_chains_fails`, `C123_bspline_draw_count_fails`, `C123_bspline_chains_fails`.
* **C124** (partial) The curves an example saves are densities. Proved for all curves of the spline example (C124_bspline) and for masses, tilts and rate of the power-law example (C124_plpeak_partial). False of the power-law example's spin magnitudes for every draw inside its priors (C124_magnitudes_fails): the shapes mu*var and (1-mu)*var are always below 1, so the stored curve is NaN at both ends of the grid and exactly 0 at the 798 points in between. Theorems: `C124_magnitudes_fails`.
* **C125** (partial) The sampler's gradient is the derivative of the likelihood. Reverse-mode differentiation modelled in the same extended arithmetic as the values (Model/AutoDiff.lean); its value is the model's likelihood for all inputs (likelihoodD_f). Proved for plain and log weights incl. weights 0 / -inf and the marginalised selection term: C125_gradient; C125_cut_flat: zero where a cut fires. False: log weights of a product of densities, one of them truncated, give a NaN gradient with a finite likelihood (C125_truncated_log_fails; fine with plain weights, C125_truncated_plain); an event without support gives NaN instead of zero under every flag (C125_empty_event_fails). Theorems: `C125_truncated_log_fails`, `C125_empty_event_fails`.
* **C126** (partial) Recorded subpopulation fractions are fractions. Proved for plain weights (C126_fractions_partial). False for log weights (C126_log_fails): pe_weights is exponentiated before the check but indv_weights is not, so a log weight is divided by a weight; every recorded value is negative whenever the weights are below 1. Theorems: `C126_log_fails`.
* **C127** (partial) The gradients of the densities in their hyper-parameters. Reverse mode modelled in the extended arithmetic (Model/AutoDiffDensities.lean); both branches of a where are pulled back. Proved: C127_truncnorm (all points off the bounds); C127_powerlaw_partial, C127_powerlaw_log_partial (slope != -1, inside and outside); C127_beta_partial (inside); C127_likelihood (any entry-wise sound weights) and C127_plpeak_partial (the seven mass hyper-parameters through hierarchical_likelihood for any catalogue off the edges). False: at slope -1 all three entries are NaN at every point although the density is smooth (C127_powerlaw_fails, C127_powerlaw_log_fails), so a likelihood differentiable there has a NaN gradient in alpha or beta for every catalogue (C127_plpeak_fails); betadist at points outside its range gives NaN in all entries (C127_beta_outside_fails), and at 0 with alpha > 1 in alpha (C127_beta_zero_fails). Theorems: `C127_powerlaw_fails`, `C127_powerlaw_log_fails`, `C127_beta_outside_fails`, `C127_beta_zero_fails`, `C127_plpeak_fails`.
* **C128** (partial) The gradients of the spline models in their coefficients. Reverse mode of the spline classes modelled in Model/AutoDiffSplines.lean (nan_to_num passes no cotangent where its input is not finite). Proved: C128_spline (all classes, in range), C128_model (all samples, out-of-range, infinite and NaN ones included: the models only evaluate the spline in range), C128_redshift (PowerlawSplineRedshiftModel in slope and coefficients), C128_difference_prior, C128_bspline (through hierarchical_likelihood for the example's models, any catalogue). False for the log-Y classes evaluated directly at a point outside their range: the value is 0 for all coefficients nearby, every entry of the gradient is NaN (C128_outside_fails). Theorems: `C128_outside_fails`.
* **C129** (partial) The gradients of the parametric models and of the power-law-plus-peak example in their hyper-parameters. Reverse mode of the parametric models in Model/AutoDiffParametric.lean. Proved: C129_smooth, C129_log_logistic, C129_logit, C129_tilt, C129_redshift at all their points; C129_plpeak_example_partial: the likelihood of the example, all fourteen hyper-parameters, every catalogue, samples outside the mass range or beyond the redshift maximum included. False: at alpha = -1 or beta = -1 the log likelihood is differentiable but the entry of its gradient for that slope is NaN (C129_plpeak_example_fails, also C129_falloff_fails and C129_plpeak_smooth_fails for the other mass models); one sample with m1 exactly mmin makes the gradient in beta NaN for all hyper-parameters (C129_plpeak_edge_fails). The edges of the taper and spin magnitudes at 0 or outside the range (C127_beta_zero_fails, C127_beta_outside_fails) are excluded from the partial theorems. Theorems: `C129_falloff_fails`, `C129_plpeak_smooth_fails`, `C129_plpeak_example_fails`, `C129_plpeak_edge_fails`.
* **C130** (partial) The errors reported with the estimates are the errors the estimates have. C130_bayes_factor, C130_selection_partial and C130_likelihood prove it for the Bayes factors, for the log efficiency with one over the returned effective number, and for the log likelihood with the errors put together from those. It is false of the variance detection_efficiency returns, which subtracts 1/Ninj although the effective number already contains it, and of the recorded variance_log_likelihood that contains it: C130_selection_variance_fails and C130_likelihood_variance_fails give the limits that hold instead, and that they differ from the normal probability for every c other than 0. Theorems: `C130_selection_variance_fails`, `C130_likelihood_variance_fails`.
* **C132** (partial) The number of injections may be given as the integer it is. C132_small_partial proves it up to 46340 injections. It is false of all larger numbers: Ninj**2 is computed in 32-bit integers inside the compiled function. C132_effective_number_fails: the effective number is then never the right one. C132_selection_cut_fails and C132_variance_cut_fails: with n injections of which at most n^2/2^32 are found (a hundred million and two million, say), the default cut and the variance cut fire at every hyper-parameter, so that the selection effects drop out of the sampled density. The model assumes JAX's default 32-bit integers, which nothing in the repository changes. Theorems: `C132_effective_number_fails`, `C132_selection_cut_fails`, `C132_variance_cut_fails`.
* **C133** (partial) Single precision does not change the log-likelihood by more than a small, stated amount. C133_exact: without rounding the model with explicit summation orders is the model of the other properties. C133_accuracy_partial proves the bound in the stated range for every flag setting; only the largest weight of an event is restricted, and with log weights hardly, so entries that underflow are covered; binary32_contract shows that IEEE single precision satisfies the contract. Partial: largest weights outside the range, more than half of the injections found, and fused multiply-add are not covered.
* **C134** (partial) The cuts on the effective numbers work in floating point. C134_cut_partial and C133_accuracy_partial: in the range of C133 the cuts are decided correctly up to the margin. False of small weights. C134_underflow_fails: if the weights of the found injections are zero or between 2^-85 and 2^-77, their squares underflow, the effective number comes out infinite and the selection cut is absent, with weights and with log weights; the likelihood there is large because the efficiency is small. C134_linear_underflow_fails: with weights rather than log weights, an event whose weights are all below 2^-92 is always cut. Theorems: `C134_underflow_fails`, `C134_linear_underflow_fails`.
* **C135** (partial) find_map finds the maximum-a-posteriori estimate. False of the defaults. C135_reach and C135_reach_default: whatever the gradients are, a parameter ends within 7.28 lr Niter of its start in the unconstrained coordinate, within 2.31 with the defaults. C135_far_fails: a MAP 50 units away is missed by more than 40. C135_interval_fails: a parameter with a uniform prior, started in the middle, stays in the inner 82 percent of the range in every model. Proved: the names of the result, that a stationary starting point is returned unchanged (C135_stationary_partial), and the exact path on a steady slope. Not proved: that a MAP within reach is approached, which fails for some models and holds for others. Theorems: `C135_far_fails`, `C135_interval_fails`.
* **C136** (partial) A natural cubic spline can be passed through JAX transformations. False: every transformation raises. tree_flatten returns three values where JAX asks for a pair (C136_jit_fails) and tree_unflatten takes one argument where JAX passes two (C136_unflatten_fails). The two methods called by hand give back the spline (C136_round_trip_partial), and C136_repaired shows that nothing else is in the way. Theorems: `C136_jit_fails`, `C136_unflatten_fails`.
* **C137** (partial) Keyword arguments reach the component they are meant for. Proved for six single and ten two-component classes: which arguments reach each basis spline, for every set of keywords (C137_component, C137_components, C137_primary_ratio), the defaults, and that private dictionaries are private. False: a keyword that is both shared and private raises TypeError instead of taking precedence (C137_override_fails); an xrange silently discards the mass limits (C137_limits_ignored_fails), and a shared xrange gives the ratio the range of the mass (C137_shared_range_fails); the order keyword k is refused (C137_order_fails). Not modelled: BSplineSymmetricChiEffective and BSplineRedshift, which no two-component class uses. Theorems: `C137_override_fails`, `C137_shared_range_fails`, `C137_limits_ignored_fails`, `C137_order_fails`.
* **C138** (partial) Python numbers and arrays as arguments give the same result. Proved for 0 < low < high: exactly when each function raises, for every combination of Python numbers and arrays, and that it otherwise returns the value of the array model. False: slope -1 with Python bounds raises ZeroDivisionError although that branch is not selected (C138_slope_minus_one_fails), a Python lower bound 0 always raises (C138_lower_bound_zero_fails), and Powerlaw with its default minimum=0.0 and a scalar slope raises in every method (C138_default_minimum_fails). Theorems: `C138_slope_minus_one_fails`, `C138_lower_bound_zero_fails`, `C138_default_minimum_fails`.
* **C139** (partial) The isotropic effective-spin prior acts on arrays entry by entry. Proved for a scalar mass ratio (all entries), for an array of mass ratios without boundary entries, and for one with boundary entries only. False: with an array of mass ratios, some but not all of them at a boundary entry, the nested call gets arrays of different lengths and raises ValueError (C139_array_ratio_fails); one effective spin with many mass ratios raises as well (C139_one_spin_many_ratios_fails). Theorems: `C139_array_ratio_fails`, `C139_one_spin_many_ratios_fails`.
* **C140** (partial) The power-law density is accurate in single precision. Proved: an error bound 9κ + 4κ (1 + |1+α| L)(1 + 2 / (|1+α| ln(high/low))) on the logarithm of computed over exact density (C140_error), and one for slope exactly -1 (C140_error_log), for every arithmetic meeting the contract. False near slope -1: with slope -1 + 2^-24 single precision returns +inf at every point for low = 1 and any high up to 3/2 (C140_infinite_fails), and at least 1.4 times the exact density on [5, 100] (C140_norm_fails). Theorems: `C140_infinite_fails`, `C140_norm_fails`.
* **C141** (partial) The methods of the redshift models can be called. Proved for PowerlawRedshiftModel, and for the call of PowerlawSplineRedshiftModel. False for log_prob of PowerlawSplineRedshiftModel: it is inherited, calls the overridden normalization without coefficients, and raises TypeError for every list of arguments (C141_spline_log_prob_fails). Theorems: `C141_spline_log_prob_fails`.
* **C142** (partial) The truncated normal density is accurate in single precision. Proved: an error bound κ (13 + 12 ((x-μ)/σ)² + 40 / P) on the logarithm of computed over exact density, P the probability of the interval under the untruncated normal, for points within eight standard deviations (C142_error). False for small P: if the interval is eight or more standard deviations from the mean the result is +inf or NaN at every point (C142_tail_fails). The log-normal branch is modelled but its error is not bounded. Theorems: `C142_tail_fails`.
* **C144** (partial) The density of a log-spline is accurate in single precision. Proved for coefficients up to 30 in absolute value: relative error 2 (10 order + 5 + 2 D) κ A + (16 + 2 D') κ with A the largest coefficient and D, D' the depths of the two summations (C144_density); the unnormalised density up to 78 (C144_project). False without the condition: with all coefficients 100 the exact density is uniform, and single precision returns NaN at every point (C144_overflow_fails). Theorems: `C144_overflow_fails`.
* **C146** (partial) The joint mass and mass-ratio model with two spline perturbations is a density. C146_density_partial: minimum masses that are not points of the mass grid. On a grid point the claim is false of the code: C146_minimum_on_grid_fails, C146_default_fails. C146_keywords covers the calls that raise. All of it is about the class without line 220 of its constructor. Theorems: `C146_minimum_on_grid_fails`, `C146_default_fails`.
* **C149** (proved) The log-spline density in the logarithm of mass, and the redshift density with a spline, are accurate in single precision. C149_project, C149_density (mass), C149_exponent, C149_redshift_prob, C149_redshift; Spline.Steady and Spline.LogPoint are the conditions. C149_exact: the values without rounding. C149_outside and C149_edge_fails: a logarithm rounded past the end of the range costs the density there, so the condition on the computed logarithm cannot be dropped. Theorems: `C149_edge_fails`.
* **C151** (proved) Splines in log x keep the ends of their range in single precision when the limits are single-precision numbers, and can lose them otherwise. C151_mono: rounding to single precision is monotone. C151_inside, C151_grid: the positive part. C151_limit_fails (the limit 1.3) and C151_density_fails (what the lost end costs) are the stated failure. Theorems: `C151_limit_fails`, `C151_density_fails`.
* **C152** (proved) The soft truncation is accurate in single precision, and its logarithmic form also where the linear form is zero. C152_unit, C152_log: the two forms. C152_powerlaw, C152_falloff: the densities with soft ends. C152_linear_fails: the overflow of the linear form, which the claim states. C152_exact, C152_exact_density: without rounding these are the functions of C20, C21 and C77. Theorems: `C152_linear_fails`.
* **C153** (proved) The low-mass taper is accurate in single precision inside its window, except at the very end. C153_taper: the bound (TaperPoint is the condition). C153_edge_fails: the stated failure at the upper end. C153_exact: without rounding this is the taper of C19. Theorems: `C153_edge_fails`.
* **C155** (proved) The P-spline penalty in single precision: accurate for first differences, only absolutely for higher ones. C155_first: the relative bound for first differences. C155_penalty: the absolute bound for every degree. C155_constant: equal coefficients. C155_second_fails: the stated failure of a relative bound at degree 2. C155_exact: without rounding this is the penalty of C30. Theorems: `C155_second_fails`.
* **C157** (proved) The spline in redshift is accurate in single precision. C157_norm, C157_rate: the bounds. C157_outside_fails: samples outside the limits are not cut (the claim says so). C157_exact: without rounding this is the documented rate. The default normalize=True is outside the claim (C35). Theorems: `C157_outside_fails`.
<!-- end -->

## 5. Not expressible

* Quality of MCMC convergence and statistical calibration are not expressible in this model.
* Rounding is modelled operation by operation (the modules named Rounding...); fused or reordered operations of compiled code are not, except that sums may be taken in any order.
