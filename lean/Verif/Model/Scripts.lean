import Verif.Model.PipelineUtils
import Verif.Model.Parametric
import Verif.Model.Construct

/-!
# Model of the shipped scripts: `examples/`, `bin/gwinferno_run_from_config.py` and `load_model_from_python_file`

The sampler (`MCMC`, `NUTS`) and file formats are not modelled: an analysis is one evaluation of the model function.
-/

noncomputable section
open Classical
namespace GW
open F

/-! ### Calling a Python function -/

/-- one parameter of a `def`: its name and whether it has a default -/
structure Param where
  name : String
  optional : Bool

/-- Python's argument binding for a `def` without `*args`/`**kwargs`: `npos` positional arguments and the keyword names `kws`
(distinct).  Every failure is a `TypeError`, raised before the body runs. -/
def bindCall (ps : List Param) (npos : ℕ) (kws : List String) : Except PyErr Unit :=
  if ps.length < npos then .error .typeError
  else if ∃ k ∈ kws, k ∉ ps.map Param.name then .error .typeError
  else if ∃ k ∈ kws, k ∈ (ps.take npos).map Param.name then .error .typeError
  else if ∃ p ∈ ps.drop npos, p.optional = false ∧ p.name ∉ kws then .error .typeError
  else .ok ()

/-- analysis.py:139-163: the parameters of `hierarchical_likelihood` -/
def likelihoodParams : List Param :=
  (["pe_weights", "inj_weights", "total_inj", "Nobs", "Tobs"].map fun n => ⟨n, false⟩) ++
  (["surveyed_hypervolume", "categorical", "marginal_qs", "indv_weights", "rngkey", "pop_frac", "reconstruct_rate", "marginalize_selection",
    "min_neff_cut", "max_variance_cut", "posterior_predictive_check", "param_names", "pedata", "injdata", "m2min", "m1min", "mmax", "log"].map
    fun n => ⟨n, true⟩)

/-- numpyro_distributions.py:163: the parameters of `PowerlawRedshift` after `self` -/
def powerlawRedshiftParams : List Param :=
  (["lamb", "maximum", "zgrid", "dVcdz"].map fun n => ⟨n, false⟩) ++ (["low", "high", "validate_args"].map fun n => ⟨n, true⟩)

/-- analysis.py:404-422: the call made by the model `construct_hierarchical_model` returns; two positional arguments and these keywords -/
def constructedCall : List String :=
  ["total_inj", "Nobs", "Tobs", "surveyed_hypervolume", "marginalize_selection", "min_neff_cut", "max_variance_cut",
   "posterior_predictive_check", "pedata", "injdata", "param_names", "m1min", "m2min", "mmax", "log"]

/-- examples/simple_bspline_example.py:75-89: five positional arguments and these keywords -/
def bsplineExampleCall : List String :=
  ["surv_hypervolume_fct", "vtfct_kwargs", "param_names", "pedata", "injdata", "m2min", "m1min", "mmax"]

/-- examples/simple_powerlaw_peak_example.py:98-113: five positional arguments and these keywords -/
def plpeakExampleCall : List String :=
  ["surv_hypervolume_fct", "vtfct_kwargs", "param_names", "posterior_predictive_check", "pedata", "injdata", "m2min", "m1min", "mmax"]

/-- examples/config_files/model.py:24-45: two positional arguments and these keywords -/
def configExampleCall : List String :=
  ["total_inj", "Nobs", "Tobs", "surv_hypervolume_fct", "vtfct_kwargs", "marginalize_selection", "min_neff_cut",
   "posterior_predictive_check", "pedata", "injdata", "param_names", "m1min", "m2min", "mmax"]

/-! ### examples/simple_powerlaw_peak_example.py -/

/-- numpyro priors used by the example -/
inductive HyperPrior where
  | normal (loc scale : ℝ)
  | uniform (low high : ℝ)
  | halfNormal (scale : ℝ)

/-- the values a prior can take -/
def HyperPrior.supports : HyperPrior → ℝ → Prop
  | .normal _ _, _ => True
  | .uniform lo hi, x => lo ≤ x ∧ x ≤ hi
  | .halfNormal _, x => 0 ≤ x

/-- simple_powerlaw_peak_example.py:52-77: the `numpyro.sample` sites in order -/
def plpeakPriors (mmin mmax : ℝ) : PyDict HyperPrior := [
  ("beta", .normal 0 5),
  ("alpha", .normal 0 5),
  ("mu_peak", .uniform mmin mmax),
  ("sig_peak", .halfNormal 10),
  ("lambda_m", .uniform 0 1),
  ("mu_a1", .uniform 0 1),
  ("var_a1", .uniform 0.005 0.25),
  ("mu_a2", .uniform 0 1),
  ("var_a2", .uniform 0.005 0.25),
  ("lambda_ct1", .uniform 0 1),
  ("lambda_ct2", .uniform 0 1),
  ("sig_ct1", .uniform 0.1 4),
  ("sig_ct2", .uniform 0.1 4),
  ("lamb", .normal 0 5)]

/-- simple_powerlaw_peak_example.py:64-67: `mu * var` and `(1 - mu) * var`, the shapes passed to the Beta density -/
def plpeakShapes (mu var : ℝ) : ℝ × ℝ := (mu * var, (1 - mu) * var)

/-- simple_powerlaw_peak_example.py:82-91 `get_weights`, entry `i`; `v` gives the sampled hyper-parameters, `twoD` says that the data
are the event samples.  A missing column is a `KeyError`, looked up in the order of the code. -/
def plpeakWeight (v : String → ℝ) (mmin mmax : ℝ) (zm : ZModel) (twoD : Bool) (d : PyDict (Arr ℝ)) : Except PyErr (ℕ → F) := do
  let (alpha1, beta1) := plpeakShapes (v "mu_a1") (v "var_a1")
  let (alpha2, beta2) := plpeakShapes (v "mu_a2") (v "var_a2")
  let m1 ← need' d "mass_1"
  let q ← need' d "mass_ratio"
  let a1 ← need' d "a_1"
  let a2 ← need' d "a_2"
  let ct1 ← need' d "cos_tilt_1"
  let ct2 ← need' d "cos_tilt_2"
  let z ← need' d "redshift"
  let prior ← need' d "prior"
  .ok fun i =>
    plpeak_primary_ratio_pdf (fin (m1.get i)) (fin (q.get i)) (fin (v "alpha")) (fin (v "beta")) (fin mmin) (fin mmax) (fin (v "mu_peak"))
        (fin (v "sig_peak")) (fin (v "lambda_m"))
      * independent_spin_magnitude_beta_dist (fin (a1.get i)) (fin (a2.get i)) (fin alpha1) (fin beta1) (fin alpha2) (fin beta2)
      * independent_spin_tilt (fin (ct1.get i)) (fin (ct2.get i)) (fin (v "lambda_ct1")) (fin (v "lambda_ct2")) (fin (v "sig_ct1"))
        (fin (v "sig_ct2"))
      * zm.call twoD z (v "lamb") i / fin (prior.get i)

/-- simple_powerlaw_peak_example.py:29-113 `model`: `like` is what the likelihood does with the two weight arrays once its arguments
are bound. -/
def plpeakModel (v : String → ℝ) (mmin mmax : ℝ) (zm : ZModel) (pe inj : PyDict (Arr ℝ)) (like : (ℕ → F) → (ℕ → F) → Except PyErr Unit) :
    Except PyErr Unit := do
  let wpe ← plpeakWeight v mmin mmax zm true pe
  let winj ← plpeakWeight v mmin mmax zm false inj
  bindCall likelihoodParams 5 plpeakExampleCall
  like wpe winj

/-! ### examples/simple_bspline_example.py -/

/-- an array of coefficients as a function -/
def coefFn (cs : List ℝ) (i : ℕ) : ℝ := cs.getD i 0

/-- element-wise `a / b` -/
def divArr (a b : List F) : List F := List.zipWith (· / ·) a b

/-- simple_bspline_example.py:58-68 `get_weights` -/
def bsplineWeights (mass mag tilt : Pair) (zm : PLSpline) (mass_cs q_cs a1_cs a2_cs t1_cs t2_cs z_cs : List ℝ) (lamb : ℝ) (pe : Bool)
    (d : PyDict (Arr ℝ)) : Except PyErr (List F) := do
  let p_m1q := mass.primaryRatioCall (coefFn mass_cs) (coefFn q_cs) pe
  let p_a := mag.indCall (coefFn a1_cs) (coefFn a2_cs) pe
  let p_ct := tilt.indCall (coefFn t1_cs) (coefFn t2_cs) pe
  let z ← need' d "redshift"
  let p_z := (List.range z.len).map (zm.call pe z lamb (coefFn z_cs))
  let prior ← need' d "prior"
  .ok (divArr (mulArr (mulArr (mulArr p_m1q p_a) p_ct) p_z) ((List.range prior.len).map fun i => fin (prior.get i)))

/-- `numpyro.sample(name, dist.Normal(0, sd))`, a scalar; recorded with size 1. -/
def sampleScalar (draws : String → ℕ → ℝ) (name : String) (sd : ℝ) : Prog ℝ := do
  emit (.sample name sd 1)
  pure (draws name 0)

/-- the coefficients and the slope one evaluation of the B-spline example works with -/
structure ExampleDraws where
  mass_cs : List ℝ
  q_cs : List ℝ
  a1_cs : List ℝ
  a2_cs : List ℝ
  tilt1_cs : List ℝ
  tilt2_cs : List ℝ
  z_cs : List ℝ
  lamb : ℝ

/-- simple_bspline_example.py:47-54: the priors of the B-spline example -/
def bsplineDraws (draws : String → ℕ → ℝ) (sizes : PyDict ℕ) : Prog ExampleDraws := do
  let nm ← (need' sizes "m1" : Except PyErr ℕ)
  let nq ← (need' sizes "q" : Except PyErr ℕ)
  match ← bspline_mass_prior draws (some nm) (some nq) (some 1) (some 1) with
  | .one _ => throw .valueError
  | .both mass_cs q_cs =>
    let na ← (need' sizes "a1" : Except PyErr ℕ)
    let nt ← (need' sizes "tilt1" : Except PyErr ℕ)
    match ← bspline_spin_prior draws (some na) (some nt) (some 25) (some 25) none false with
    | [a1_cs, tilt1_cs, a2_cs, tilt2_cs] =>
      let nz ← (need' sizes "redshift" : Except PyErr ℕ)
      let z_cs ← bspline_redshift_prior draws (some nz) (some 1)
      let lamb ← sampleScalar draws "lamb" 3
      pure ⟨mass_cs, q_cs, a1_cs, a2_cs, tilt1_cs, tilt2_cs, z_cs, lamb⟩
    | _ => throw .valueError

/-- simple_bspline_example.py:25-89 `model`, from the sites registered so far. -/
def bsplineModel (draws : String → ℕ → ℝ) (sizes : PyDict ℕ) (mass mag tilt : Pair) (zm : PLSpline) (pe inj : PyDict (Arr ℝ))
    (like : List F → List F → Prog Unit) : Prog Unit := do
  let c ← bsplineDraws draws sizes
  let wpe ← (bsplineWeights mass mag tilt zm c.mass_cs c.q_cs c.a1_cs c.a2_cs c.tilt1_cs c.tilt2_cs c.z_cs c.lamb true pe : Except PyErr (List F))
  let winj ← (bsplineWeights mass mag tilt zm c.mass_cs c.q_cs c.a1_cs c.a2_cs c.tilt1_cs c.tilt2_cs c.z_cs c.lamb false inj : Except PyErr (List F))
  (bindCall likelihoodParams 5 bsplineExampleCall : Except PyErr Unit)
  like wpe winj

/-! ### examples/config_files/model.py -/

/-- config_files/model.py:10-45 `model` up to the likelihood: the two mass distributions are built, `PowerlawRedshift(lamb, maximum=2.3)`
is called with one positional argument and one keyword, the weights look up four columns in each data set, then the likelihood is called. -/
def configModel (pe inj : PyDict (Arr ℝ)) (like : Except PyErr Unit) : Except PyErr Unit := do
  bindCall powerlawRedshiftParams 1 ["maximum"]
  let _ ← mapE' (need' inj) ["mass_1", "mass_ratio", "redshift", "prior"]
  let _ ← mapE' (need' pe) ["mass_1", "mass_ratio", "redshift", "prior"]
  bindCall likelihoodParams 2 configExampleCall
  like
where
  /-- look up several keys, stopping at the first that is missing -/
  mapE' {α : Type} (f : String → Except PyErr α) : List String → Except PyErr (List α)
    | [] => .ok []
    | k :: ks => do
      let a ← f k
      let as ← mapE' f ks
      .ok (a :: as)

/-! ### bin/gwinferno_run_from_config.py -/

/-- data_collection.py: the names the module defines or imports (lines 5-21, 24, 39, 95, 103, 145, 172, 203, 210) -/
def dataCollectionNames : List String :=
  ["json", "az", "h5py", "jnp", "np", "xr", "trapezoid", "trange", "cosmo", "chieff_from_q_component_spins", "chip_from_q_component_spins",
   "chi_effective_prior_from_isotropic_spins", "joint_prior_from_isotropic_spins", "get_o3_cumulative_injection_dict",
   "get_o4a_cumulative_injection_dict", "unprocessed_catalog_dict_from_metadata", "processed_catalog_dataset_from_dict", "dl_2_prior_on_z",
   "append_prior_to_processed_catalog", "load_posterior_dataset", "load_injection_dataset",
   "save_posterior_samples_and_injection_datasets_as_idata", "convert_component_spins_to_chieff"]

/-- selection.py: the names the module defines or imports (lines 5-9, 12, 82, 143) -/
def selectionNames : List String :=
  ["h5py", "jnp", "np", "xr", "random", "get_o4a_cumulative_injection_dict", "get_o3_cumulative_injection_dict", "resample_injections"]

/-- `from module import name` -/
def importFrom (names : List String) (name : String) : Except PyErr Unit :=
  if name ∈ names then .ok () else .error (.importError name)

/-- what the YAML file's `models` entry gives (parser.py:68-76): a Python file, or the source parameters -/
inductive ModelConf where
  | pythonFile (path : String)
  | params (names : List String)

/-- `config_reader.models.keys()` (parser.py:69-76) -/
def ModelConf.keys : ModelConf → List String
  | .pythonFile _ => ["file_path"]
  | .params ns => ns

/-- bin/gwinferno_run_from_config.py:38-41: copy every event's samples into the row of that event.  numpy copies an array of the right length and
repeats an array of length 1; any other length is a `ValueError`. -/
def fillRow (nPost : ℕ) (col : List F) : Except PyErr (List F) :=
  if col.length = nPost then .ok col
  else match col with
    | [x] => .ok (List.replicate nPost x)
    | _ => .error .valueError

/-- bin/gwinferno_run_from_config.py:39-41: the rows of parameter `p` -/
def fillParam (pe : PyDict (PyDict (List F))) (nPost : ℕ) (p : String) : List String → Except PyErr (List (List F))
  | [] => .ok []
  | ev :: evs => do
    let e ← need' pe ev
    let col ← need' e p
    let r ← fillRow nPost col
    let rs ← fillParam pe nPost p evs
    .ok (r :: rs)

/-- one array per parameter -/
def perParam {α : Type} (f : String → Except PyErr α) : List String → Except PyErr (PyDict α)
  | [] => .ok []
  | p :: ps => do
    let a ← f p
    let rest ← perParam f ps
    .ok ((p, a) :: rest)

/-- bin/gwinferno_run_from_config.py:29-45 `setup` after the two loaders, whose results are `pe`, `names` and `injections` (`total_generated` and
`analysis_time` already removed).  The loops over events and parameters are exchanged (both only fill rows). -/
def setupData (pe : PyDict (PyDict (List F))) (names : List String) (injections : PyDict (List F)) (params : List String) :
    Except PyErr (PyDict (List (List F)) × PyDict (List F) × ℕ) := do
  let params := params ++ ["prior"]
  let first ← (match names with | [] => .error .indexError | n :: _ => need' pe n : Except PyErr (PyDict (List F)))
  let m1 ← need' first "mass_1"
  let pes ← perParam (fun p => fillParam pe m1.length p names) params
  let injs ← perParam (fun p => need' injections p) params
  .ok (pes, injs, names.length)

/-- the script from its first line to the data handed to the sampler -/
def runFromConfig (conf : ModelConf) (pe : PyDict (PyDict (List F))) (names : List String) (injections : PyDict (List F)) :
    Except PyErr (PyDict (List (List F)) × PyDict (List F) × ℕ) := do
  importFrom dataCollectionNames "load_catalog_from_metadata"
  importFrom selectionNames "load_injection_dataset"
  setupData pe names injections conf.keys

/-! ### parser.py:34-38 `load_model_from_python_file` -/

/-- `s.split("/")[-1]` -/
def lastPart (s : List Char) : List Char := (s.reverse.takeWhile (· ≠ '/')).reverse

/-- `s.replace(pat, "")` for a non-empty `pat`: occurrences are removed from left to right. -/
def removeAll (pat : List Char) : ℕ → List Char → List Char
  | 0, s => s
  | _ + 1, [] => []
  | n + 1, c :: s => if pat <+: (c :: s) then removeAll pat n ((c :: s).drop pat.length) else c :: removeAll pat n s

/-- `s.replace(pat, "")` -/
def pyRemove (pat s : List Char) : List Char := removeAll pat s.length s

/-- the process: `sys.path`, the modules already imported (name to the file they came from), and the files that exist -/
structure PyProc where
  path : List (List Char)
  modules : List (List Char × List Char)

/-- the file `import_module(name)` finds first on the search path -/
def findModule (files : List Char → Prop) (name : List Char) : List (List Char) → Option (List Char)
  | [] => none
  | d :: ds => if files (d ++ '/' :: name ++ ".py".toList) then some (d ++ '/' :: name ++ ".py".toList) else findModule files name ds

/-- `import_module(name)` for a plain name: the cache first, then the search path.  Returns the file the module came from.  (Packages,
built-in modules and `.pyc` files are not modelled.) -/
def importModule (files : List Char → Prop) (p : PyProc) (name : List Char) : PyProc × Except PyErr (List Char) :=
  match p.modules.find? fun m => m.1 = name with
  | some m => (p, .ok m.2)
  | none => match findModule files name p.path with
    | some f => ({ p with modules := p.modules ++ [(name, f)] }, .ok f)
    | none => (p, .error (.importError (String.ofList name)))

/-- parser.py:34-38 `load_model_from_python_file`: the file whose `model` is returned. -/
def loadModelFile (files : List Char → Prop) (p : PyProc) (path : List Char) : PyProc × Except PyErr (List Char) :=
  let fn := lastPart path
  let direct := pyRemove ('/' :: fn) path
  importModule files { p with path := p.path ++ [direct] } (pyRemove ".py".toList fn)

/-! ### examples/utils.py: where results go -/

/-- the parsed command line, as far as the scripts use it -/
structure RunArgs where
  pe_inj_file : String
  run_label : String
  result_dir : String
  mmin : ℝ
  mmax : ℝ
  chains : ℤ
  samples : ℤ
  thinning : ℤ
  warmup : ℤ
  rngkey : ℤ
  sizes : List ℕ

/-- examples/utils.py:25 -/
def runLabel (a : RunArgs) : String := a.run_label ++ "_" ++ toString a.warmup ++ "w_" ++ toString a.samples ++ "s_rng" ++ toString a.rngkey

/-- examples/utils.py:26-27 -/
def runDir (a : RunArgs) : String :=
  (a.result_dir ++ "/" ++ a.run_label) ++ "/rngnum-" ++ toString a.rngkey ++ "/" ++ toString a.warmup ++ "w_" ++ toString a.samples ++ "s"

/-- simple_bspline_example.py:143 / simple_powerlaw_peak_example.py:157: the posterior file -/
def posteriorFile (a : RunArgs) : String := runDir a ++ ("/" ++ runLabel a ++ "_posterior_samples.h5")
/-- simple_bspline_example.py:229 / simple_powerlaw_peak_example.py:253: the curves -/
def pdfsFile (a : RunArgs) : String := runDir a ++ ("/" ++ runLabel a ++ "_pdfs.h5")

/-- One run of an example on a file system mapping names to contents: with `--skip-inference` the posterior is read, otherwise the
sampler's output `post` is written; then the curves computed from it are written (`curves`). -/
def runExample {P : Type} (fs : PyDict P) (a : RunArgs) (skip : Bool) (post : P) (curves : P → P) : Except PyErr (PyDict P) := do
  let (fs, p) ← (if skip then
      match fs.get? (posteriorFile a) with
      | some p => .ok (fs, p)
      | none => .error (.exception)
    else .ok (fs.set (posteriorFile a) post, post) : Except PyErr (PyDict P × P))
  .ok (fs.set (pdfsFile a) (curves p))

end GW
