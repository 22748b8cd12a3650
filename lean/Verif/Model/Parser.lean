import Verif.Model.Construct

/-!
# Model of the configuration reader (gwinferno/pipeline/parser.py)

The YAML file is taken as parsed (`yaml.safe_load` is not modelled): nested dictionaries with the keys the reader looks
at.  `V` is the type of the values appearing in it.
-/

noncomputable section
open Classical
namespace GW

/-- a hyper-parameter's sub-dictionary: keys "prior", "prior_params", "value" -/
structure HP (V : Type) where
  prior : Option String := none
  prior_params : Option (PyDict V) := none
  value : Option V := none

/-- a sub-dictionary with keys "model", "hyper_params" and "iid" (`some none`: no "shared_parameter" in it) -/
structure Sub (V : Type) where
  model : Option String := none
  hyper_params : Option (PyDict (HP V)) := none
  iid : Option (Option String) := none

/-- the dictionary of one source parameter: additionally "mixture_dist" and "component_1", … -/
structure Entry (V : Type) extends Sub V where
  mixture_dist : Option (Sub V) := none
  comps : PyDict (Sub V) := []

/-- what the reader's imports can resolve (parser.py:40-44 `load_dist_from_string`), and `len` of a list value -/
structure Imports (V : Type) where
  cls : String → Option (Cls V)
  mix : String → Option (Dist → List Dist → Dist)
  prior : String → Bool
  len : V → ℕ

/-- parser.py:47-56: the reader's attributes that this module fills -/
structure Reader (V : Type) where
  models : PyDict (Spec V) := []
  priors : PyDict (Prior V) := []
  sampling_params : List String := []

variable {V : Type}

/-- `subd[k]` where absence raises `KeyError` -/
def need {α : Type} (o : Option α) (k : String) : Except PyErr α :=
  match o with | some v => .ok v | none => .error (.keyError k)
/-- `load_dist_from_string` where absence raises -/
def load {α : Type} (o : Option α) (name : String) : Except PyErr α :=
  match o with | some v => .ok v | none => .error (.importError name)

/-- parser.py:78-89 `add_prior(key, subd)`.  Conversion of lists to arrays is not visible at this level. -/
def addPrior (im : Imports V) (key : String) (h : HP V) (r : Reader V) : Except PyErr (Reader V) :=
  match h.prior, h.prior_params with
  | some d, some ps =>
    if im.prior d then .ok { r with priors := r.priors.set key (.prior d ps), sampling_params := r.sampling_params ++ [key] }
    else .error (.importError d)
  | _, _ => match h.value with
    | some v => .ok { r with priors := r.priors.set key (.fixed v) }
    | none => .ok r

/-- `for hp in subd["hyper_params"]: self.add_prior(f"{pre}{hp}", subd["hyper_params"][hp])` -/
def addPriors (im : Imports V) (pre : String) : PyDict (HP V) → Reader V → Except PyErr (Reader V)
  | [], r => .ok r
  | (hp, h) :: l, r => match addPrior im (pre ++ hp) h r with
    | .error e => .error e
    | .ok r => addPriors im pre l r

/-- parser.py:98-99 `add_iid_model`, guarded by `if "iid" in subd` (lines 95-96, 117-118). -/
def addIid (iid : Option (Option String)) (param : String) (r : Reader V) : Except PyErr (Reader V) :=
  match iid with
  | none => .ok r
  | some none => .error (.keyError "shared_parameter")
  | some (some s) => .ok { r with models := r.models.set s (.shared param) }

/-- parser.py:91-96 `add_model`. -/
def addModel (im : Imports V) (param : String) (e : Entry V) (r : Reader V) : Except PyErr (Reader V) := do
  let name ← need e.model "model"
  let c ← load (im.cls name) name
  let hps ← need e.hyper_params "hyper_params"
  let r := { r with models := r.models.set param (.pop c hps.keys) }
  let r ← addPriors im (param ++ "_") hps r
  addIid e.iid param r

/-- parser.py:109-114: the loop over the components `i+1 .. i+n`. Returns also the last component's dictionary. -/
def addComponents (im : Imports V) (param : String) (e : Entry V) : ℕ → ℕ → Option (Sub V) → Reader V →
    Except PyErr (List (Cls V × List String) × Option (Sub V) × Reader V)
  | 0, _, last, r => .ok ([], last, r)
  | n + 1, i, _, r => do
    let sub ← need (e.comps.get? s!"component_{i + 1}") s!"component_{i + 1}"
    let name ← need sub.model "model"
    let c ← load (im.cls name) name
    let hps ← need sub.hyper_params "hyper_params"
    let r ← addPriors im s!"{param}_component_{i + 1}_" hps r
    let rest ← addComponents im param e n (i + 1) (some sub) r
    .ok ((c, hps.keys) :: rest.1, rest.2)

/-- parser.py:105 `len(subd["mixture_dist"]["hyper_params"][mix_params[0]]["prior_params"]["concentration"])` -/
def mixtureSize (im : Imports V) (hps : PyDict (HP V)) : Except PyErr ℕ :=
  match hps with
  | [] => .error .indexError
  | (_, h) :: _ => do
    let ps ← need h.prior_params "prior_params"
    let c ← need (ps.get? "concentration") "concentration"
    .ok (im.len c)

/-- parser.py:101-118 `add_mixture_model`. -/
def addMixture (im : Imports V) (param : String) (e : Entry V) (r : Reader V) : Except PyErr (Reader V) := do
  let name ← need e.model "model"
  let model ← load (im.mix name) name
  let md ← need e.mixture_dist "mixture_dist"
  let mname ← need md.model "model"
  let mc ← load (im.cls mname) mname
  let hps ← need md.hyper_params "hyper_params"
  let N ← mixtureSize im hps
  let r ← addPriors im s!"{param}_mixture_dist_" hps r
  let cs ← addComponents im param e N 0 none r
  let r := { cs.2.2 with models := cs.2.2.models.set param (.mixture model mc hps.keys cs.1) }
  match cs.2.1 with
  | none => .error (.unboundLocalError "name")
  | some last => addIid last.iid param r

/-- `"Mixture" in s` -/
def isMixture (s : String) : Prop := "Mixture".toList <:+: s.toList

/-- parser.py:72-76: one source parameter. -/
def addEntry (im : Imports V) (r : Reader V) (pe : String × Entry V) : Except PyErr (Reader V) :=
  match pe.2.model with
  | none => .error (.keyError "model")
  | some m => if isMixture m then addMixture im pe.1 pe.2 r else addModel im pe.1 pe.2 r

/-- parser.py:68-76 `construct_model_and_prior_dicts` (without "python_file"), from the state `r`. -/
def parseModels (im : Imports V) : PyDict (Entry V) → Reader V → Except PyErr (Reader V)
  | [], r => .ok r
  | pe :: l, r => match addEntry im r pe with
    | .error e => .error e
    | .ok r => parseModels im l r

end GW
end
