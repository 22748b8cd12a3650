import Verif.Model.Parser
import Verif.Model.PipelineUtils

/-!
# Model of `ConfigReader.parse`, of `run_inference` in `bin/gwinferno_run_from_config.py`, and of `load_base_parser` in
`gwinferno/pipeline/parser.py`

The YAML text is taken as parsed: `yaml.safe_load` is not modelled, and the sections are taken to have the expected types.
-/

noncomputable section
open Classical
namespace GW
variable {V : Type}

/-- the "sampler" section, with the keys bin/gwinferno_run_from_config.py:64-65 reads -/
structure SamplerConf (V : Type) where
  kernel : Option String := none
  kernel_kwargs : Option (PyDict V) := none
  mcmc_kwargs : Option (PyDict V) := none

/-- the "data" section, with the keys bin/gwinferno_run_from_config.py:30, 34 reads -/
structure DataConf (V : Type) where
  catalog_summary_json : Option String := none
  seminanalytic_injs : Option V := none

/-- the "models" section: `python_file`, or one dictionary per source parameter -/
structure ModelsConf (V : Type) where
  python_file : Option String := none
  params : PyDict (Entry V) := []

/-- a configuration file; `none` is an absent section -/
structure Yaml (V : Type) where
  label : Option String := none
  outdir : Option String := none
  data : Option (DataConf V) := none
  sampler : Option (SamplerConf V) := none
  likelihood : Option (PyDict V) := none
  models : Option (ModelsConf V) := none

/-- parser.py:49-56: the attributes of a `ConfigReader`.  `file_path` is the entry "file_path" of `models`, kept apart because it is
a string where the others are models. `none` in the last five: not set yet. -/
structure ConfigState (V : Type) extends Reader V where
  file_path : Option String := none
  label : Option String := none
  outdir : Option String := none
  data_conf : Option (DataConf V) := none
  sampler_conf : Option (SamplerConf V) := none
  likelihood_kwargs : Option (PyDict V) := none

/-- parser.py:68-76 `construct_model_and_prior_dicts` -/
def constructDicts (im : Imports V) (m : ModelsConf V) (s : ConfigState V) : ConfigState V × Except PyErr Unit :=
  match m.python_file with
  | some p => ({ s with file_path := some p }, .ok ())
  | none => match parseModels im m.params s.toReader with
    | .error e => (s, .error e)
    | .ok r => ({ s with toReader := r }, .ok ())

/-- parser.py:58-66 `ConfigReader.parse` on a reader in state `s`: its state afterwards and the outcome.  Simplification: after an exception
inside `construct_model_and_prior_dicts` the half-filled dictionaries are not modelled. -/
def ConfigState.parse (im : Imports V) (y : Yaml V) (s : ConfigState V) : ConfigState V × Except PyErr Unit :=
  let s := { s with label := some (y.label.getD "label") }
  let s := { s with outdir := some (y.outdir.getD "./") }
  let s := { s with data_conf := some (y.data.getD {}) }
  let s := { s with sampler_conf := some (y.sampler.getD {}) }
  let s := { s with likelihood_kwargs := some (y.likelihood.getD []) }
  match y.models with
  | none => (s, .error (.keyError "models"))
  | some m => constructDicts im m s

/-- analysis.py:21 `NP_KERNEL_MAP` -/
def kernelMap : List String := ["NUTS", "HMC"]

/-- bin/gwinferno_run_from_config.py:64-65: the kernel's name and the arguments of the kernel and of the sampler -/
def samplerOf (c : SamplerConf V) : Except PyErr (String × PyDict V × PyDict V) := do
  let k ← need c.kernel "kernel"
  if k ∈ kernelMap then
    let kk ← need c.kernel_kwargs "kernel_kwargs"
    let mk ← need c.mcmc_kwargs "mcmc_kwargs"
    .ok (k, kk, mk)
  else .error (.keyError k)

/-- what the run hands to the sampler -/
structure RunPlan (V Data : Type) where
  kernel : String
  kernel_kwargs : PyDict V
  mcmc_kwargs : PyDict V
  data : Data
  sampling_params : List String
  label : String
  outdir : String

/-- bin/gwinferno_run_from_config.py:48-71 `run_inference` with the imports of the script taken as working (they are not, see C98): `loadModel` is
`load_model_from_python_file`, `build` is `construct_hierarchical_model(model_dict, prior_dict, **likelihood_kwargs)`, and `setup` is the
function of the same name after `data_conf["catalog_summary_json"]`, on the keys of `models`. -/
def runInference {Data : Type} (im : Imports V) (loadModel : String → Except PyErr Unit)
    (build : PyDict (Spec V) → PyDict (Prior V) → PyDict V → Except PyErr Unit)
    (setup : String → DataConf V → List String → Except PyErr Data) (y : Yaml V) : Except PyErr (RunPlan V Data) := do
  let p := ConfigState.parse im y {}
  let _ ← p.2
  let s := p.1
  match s.data_conf, s.sampler_conf, s.likelihood_kwargs, s.label, s.outdir with
  | some dc, some sc, some lk, some label, some outdir =>
    let _ ← (match s.file_path with | some f => loadModel f | none => build s.models s.priors lk)
    let cat ← need dc.catalog_summary_json "catalog_summary_json"
    let d ← setup cat dc (match s.file_path with | some _ => ["file_path"] | none => s.models.keys)
    let k ← samplerOf sc
    .ok ⟨k.1, k.2.1, k.2.2, d, s.sampling_params, label, outdir⟩
  | _, _, _, _, _ => .error .typeError

/-- parser.py:121-137 `load_base_parser` -/
def parserOptions : List Opt := [
  { name := "--data-dir", type := .str, default := .str "/home/bruce.edelman/projects/GWTC3_allevents/" },
  { name := "--inj-file", type := .str, default := .str "/home/bruce.edelman/projects/GWTC3_allevents/o1o2o3_mixture_injections.hdf5" },
  { name := "--outdir", type := .str, default := .str "results" },
  { name := "--mmin", type := .flt, default := .flt 3.0 },
  { name := "--mmax", type := .flt, default := .flt 100.0 },
  { name := "--chains", type := .int, default := .int 1 },
  { name := "--samples", type := .int, default := .int 1500 },
  { name := "--thinning", type := .int, default := .int 1 },
  { name := "--warmup", type := .int, default := .int 500 },
  { name := "--skip-inference", type := .flag, default := .bool false }]

end GW
end
