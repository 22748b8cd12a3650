import Verif.Model.Analysis
import Verif.PyDict

/-!
# Model of `construct_hierarchical_model` (gwinferno/pipeline/analysis.py:359-424)

`V` is the type of hyper-parameter values (numbers and arrays), left abstract. A distribution object is what the code
uses of it: an elementwise `log_prob` and, for some classes, an attribute `norm`.
-/

noncomputable section
open Classical
namespace GW
open F

/-- a distribution instance: `log_prob` acts elementwise; `norm = none` means there is no such attribute -/
structure Dist where
  logp : F → F
  norm : Option F

/-- a distribution class: the keyword arguments its `__init__` accepts and those without default -/
structure Cls (V : Type) where
  accepts : List String
  required : List String
  build : PyDict V → Dist

/-- calling a class with keyword arguments: Python raises `TypeError` on an unexpected or missing one -/
def Cls.call {V : Type} (c : Cls V) (kw : PyDict V) : Except PyErr Dist :=
  if ∀ k ∈ kw.keys, k ∈ c.accepts then
    if ∀ k ∈ c.required, k ∈ kw.keys then .ok (c.build kw) else .error .typeError
  else .error .typeError

/-- numpyro_distributions.py:163 `PowerlawRedshift.__init__(self, lamb, maximum, zgrid, dVcdz, low, high, validate_args)`;
only the signature matters here, so the instance is a parameter. -/
def powerlawRedshiftCls (V : Type) (build : PyDict V → Dist) : Cls V where
  accepts := ["lamb", "maximum", "zgrid", "dVcdz", "low", "high", "validate_args"]
  required := ["lamb", "maximum", "zgrid", "dVcdz"]
  build := build

/-- numpyro_distributions.py:266 `BSplineDistribution.__init__(self, minimum, maximum, cs, grid, grid_dmat, validate_args)` -/
def bsplineCls (V : Type) (build : PyDict V → Dist) : Cls V where
  accepts := ["minimum", "maximum", "cs", "grid", "grid_dmat", "validate_args"]
  required := ["minimum", "maximum", "cs", "grid", "grid_dmat"]
  build := build

/-- values of `model_dict` (parser.py:15-33): `PopMixtureModel`, `PopModel`, a string, anything else.  Components and
their parameter names come as pairs (the parser builds the two lists in lockstep). -/
inductive Spec (V : Type) where
  | mixture (model : Dist → List Dist → Dist) (mixing_dist : Cls V) (mixing_params : List String)
      (components : List (Cls V × List String))
  | pop (model : Cls V) (params : List String)
  | shared (name : String)
  | other

/-- values of `prior_dict`: a `PopPrior` (sampled) or a fixed value.  Simplification: building the prior distribution
itself does not raise. -/
inductive Prior (V : Type) where
  | prior (dist : String) (params : PyDict V)
  | fixed (v : V)

/-- analysis.py:377-381: the hyper-parameter values, `draw k` being the value of `numpyro.sample(k, …)`. -/
def hyperValues {V : Type} (prior_dict : PyDict (Prior V)) (draw : String → V) : PyDict V :=
  prior_dict.map fun kv => (kv.1, match kv.2 with | .prior _ _ => draw kv.1 | .fixed v => v)
def priorSites {V : Type} (prior_dict : PyDict (Prior V)) : List Site :=
  prior_dict.filterMap fun kv => match kv.2 with | .prior _ _ => some (.sample kv.1) | .fixed _ => none

/-- `d[k]` on an association list -/
def dictGet {α : Type} (d : PyDict α) (k : String) : Except PyErr α :=
  match d.get? k with | some v => .ok v | none => .error (.keyError k)

/-- `{p: hyper_params[f"{prefix}{p}"] for p in params}` -/
def kwargsOf {V : Type} (hyper : PyDict V) (pre : String) : List String → Except PyErr (PyDict V)
  | [] => .ok []
  | p :: ps => match dictGet hyper (pre ++ p) with
    | .error e => .error e
    | .ok v => match kwargsOf hyper pre ps with
      | .error e => .error e
      | .ok l => .ok ((p, v) :: l)

/-- analysis.py:385-388: the components, `i` counting from 1. -/
def mkComponents {V : Type} (hyper : PyDict V) (k : String) : ℕ → List (Cls V × List String) → Except PyErr (List Dist)
  | _, [] => .ok []
  | i, c :: cs => match kwargsOf hyper s!"{k}_component_{i}_" c.2 with
    | .error e => .error e
    | .ok kw => match c.1.call kw with
      | .error e => .error e
      | .ok d => match mkComponents hyper k (i + 1) cs with
        | .error e => .error e
        | .ok ds => .ok (d :: ds)

/-- analysis.py:384-399 for one entry: the distribution, `none` for a string entry. -/
def evalSpec {V : Type} (hyper : PyDict V) (zgrid : V) (k : String) : Spec V → Except PyErr (Option Dist)
  | .mixture model mixing_dist mixing_params comps => match mkComponents hyper k 1 comps with
    | .error e => .error e
    | .ok ds => match kwargsOf hyper s!"{k}_mixture_dist_" mixing_params with
      | .error e => .error e
      | .ok kw => match mixing_dist.call kw with
        | .error e => .error e
        | .ok m => .ok (some (model m ds))
  | .pop model params => match kwargsOf hyper s!"{k}_" params with
    | .error e => .error e
    | .ok kw => match model.call (if k = "redshift" then kw.set "grid" zgrid else kw) with
      | .error e => .error e
      | .ok d => .ok (some d)
  | .shared _ => .ok none
  | .other => .error .valueError

/-- state of the loop: `pop_models` (closure variable, survives the call), `iid_mapping`, and the exception if any -/
structure LoopSt where
  pop : PyDict (Option Dist)
  iid : PyDict String
  err : Option PyErr

/-- analysis.py:383-401: one iteration. -/
def loopStep {V : Type} (hyper : PyDict V) (zgrid : V) (st : LoopSt) (kv : String × Spec V) : LoopSt :=
  match st.err with
  | some _ => st
  | none => match kv.2 with
    | .shared v => { st with iid := st.iid.set v kv.1 }
    | s => match evalSpec hyper zgrid kv.1 s with
      | .error e => { st with err := some e }
      | .ok d => { st with pop := st.pop.set kv.1 d }

/-- analysis.py:402-403: `for shared_param, param in iid_mapping.items(): pop_models[shared_param] = pop_models[param]` -/
def iidStep (st : LoopSt) (kv : String × String) : LoopSt :=
  match st.err with
  | some _ => st
  | none => match dictGet st.pop kv.2 with
    | .error e => { st with err := some e }
    | .ok d => { st with pop := st.pop.set kv.1 d }

/-- `[pop_models[k].log_prob(data[k]) for k in source_param_names]` -/
def logProbs {α : Type} (pop : PyDict (Option Dist)) (data : String → Option (α → F)) :
    List String → Except PyErr (List (α → F))
  | [] => .ok []
  | k :: ks => match dictGet pop k with
    | .error e => .error e
    | .ok none => .error (.attributeError "log_prob")
    | .ok (some d) => match getKey data k with
      | .error e => .error e
      | .ok x => match logProbs pop data ks with
        | .error e => .error e
        | .ok l => .ok ((fun i => d.logp (x i)) :: l)

/-- analysis.py:405-406: summed log densities minus the log sampling prior. -/
def popWeights {α : Type} (pop : PyDict (Option Dist)) (data : String → Option (α → F)) (names : List String) :
    Except PyErr (α → F) :=
  match logProbs pop data names with
  | .error e => .error e
  | .ok l => match getKey data "prior" with
    | .error e => .error e
    | .ok p => .ok fun i => (l.map fun f => f i).sum - log (p i)

/-- the arguments of one call of the model function, with the random values it draws -/
structure CallEnv (V : Type) (E N M : ℕ) where
  samps : String → Option (Fin E → Fin N → F)
  injs : String → Option (Fin M → F)
  Ninj : ℕ
  Nobs : ℕ
  Tobs : F
  draw : String → V
  unscaled : F
  /-- the uniform number the generator makes from a key -/
  unif : Key → ℝ

/-- the keyword flags of `construct_hierarchical_model` (analysis.py:362-365) -/
structure ConstructFlags where
  marginalize_selection : Bool := false
  min_neff_cut : Bool := true
  max_variance_cut : Bool := false
  posterior_predictive_check : Bool := true

/-- analysis.py:377-403: everything before the weights. -/
def buildModels {V : Type} (model_dict : PyDict (Spec V)) (prior_dict : PyDict (Prior V)) (zgrid : V)
    (draw : String → V) (pop : PyDict (Option Dist)) : LoopSt :=
  let st := model_dict.foldl (loopStep (hyperValues prior_dict draw) zgrid) ⟨pop, [], none⟩
  st.iid.foldl iidStep st

/-- two-dimensional data as a function on index pairs, so that both data sets go through the same code -/
def uncurryData {E N : ℕ} (d : String → Option (Fin E → Fin N → F)) : String → Option (Fin E × Fin N → F) :=
  fun k => (d k).map fun f ij => f ij.1 ij.2

/-- the arguments handed to `hierarchical_likelihood` (analysis.py:408-424) -/
def runLikelihood {V : Type} {E N M : ℕ} (cf : ConstructFlags) (names : List String) (env : CallEnv V E N M)
    (pe : Fin E × Fin N → F) (inj : Fin M → F) (norm : F) : List Site × Except PyErr (Option F) :=
  hierarchical_likelihood
    { reconstruct_rate := true, marginalize_selection := cf.marginalize_selection, min_neff_cut := cf.min_neff_cut,
      max_variance_cut := cf.max_variance_cut, log := true }
    (.single fun e j => pe (e, j)) inj env.Ninj env.Nobs env.Tobs (some norm) env.unscaled
    (if cf.posterior_predictive_check then
      some { param_names := names, pedata := env.samps, injdata := env.injs, m1min := 2, m2min := 2, mmax := 100,
             unif := env.unif }
     else none)

/-- analysis.py:404-424: the weights and the likelihood, given `pop_models`. -/
def evalModel {V : Type} {E N M : ℕ} (cf : ConstructFlags) (names : List String) (pop : PyDict (Option Dist))
    (env : CallEnv V E N M) : List Site × Except PyErr Unit :=
  match popWeights pop env.injs names with
  | .error e => ([], .error e)
  | .ok inj => match popWeights pop (uncurryData env.samps) names with
    | .error e => ([], .error e)
    | .ok pe => match dictGet pop "redshift" with
      | .error e => ([], .error e)
      | .ok none => ([], .error (.attributeError "norm"))
      | .ok (some d) => match d.norm with
        | none => ([], .error (.attributeError "norm"))
        | some norm =>
          let r := runLikelihood cf names env pe inj norm
          (r.1, r.2.map fun _ => ())

/-- analysis.py:376-424 `model(samps, injs, Ninj, Nobs, Tobs)`: the new `pop_models`, the executed statements and the
outcome. -/
def modelCall {V : Type} {E N M : ℕ} (cf : ConstructFlags) (model_dict : PyDict (Spec V)) (prior_dict : PyDict (Prior V))
    (zgrid : V) (pop : PyDict (Option Dist)) (env : CallEnv V E N M) :
    PyDict (Option Dist) × List Site × Except PyErr Unit :=
  let st := buildModels model_dict prior_dict zgrid env.draw pop
  match st.err with
  | some e => (st.pop, priorSites prior_dict, .error e)
  | none =>
    let r := evalModel cf model_dict.keys st.pop env
    (st.pop, priorSites prior_dict ++ r.1, r.2)

/-- analysis.py:367-374: what `construct_hierarchical_model` does before returning the closure: the redshift grid
(`linspace(1e-9, prior_dict["redshift_maximum"], 1000)`, `lin` here; a `PopPrior` is not a number) and the initial
`pop_models`.  `dflt` stands for the unbound `z_grid`, which is then never read. -/
def construct {V : Type} (lin : V → V) (dflt : V) (model_dict : PyDict (Spec V)) (prior_dict : PyDict (Prior V)) :
    Except PyErr (V × PyDict (Option Dist)) :=
  let pop := model_dict.map fun kv => (kv.1, (none : Option Dist))
  if "redshift" ∈ model_dict.keys then
    match prior_dict.get? "redshift_maximum" with
    | none => .error (.keyError "redshift_maximum")
    | some (.prior _ _) => .error .typeError
    | some (.fixed v) => .ok (lin v, pop)
  else .ok (dflt, pop)

/-- the states of `pop_models` reachable by calling the returned function any number of times -/
inductive Reachable {V : Type} {E N M : ℕ} (cf : ConstructFlags) (model_dict : PyDict (Spec V)) (prior_dict : PyDict (Prior V))
    (zgrid : V) : PyDict (Option Dist) → Prop where
  | init : Reachable cf model_dict prior_dict zgrid (model_dict.map fun kv => (kv.1, none))
  | call (pop : PyDict (Option Dist)) (env : CallEnv V E N M) : Reachable cf model_dict prior_dict zgrid pop →
      Reachable cf model_dict prior_dict zgrid (modelCall cf model_dict prior_dict zgrid pop env).1

end GW
end
