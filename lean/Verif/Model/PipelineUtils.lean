import Verif.PyDict
import Verif.Model.Analysis
import Verif.Model.NumpyroDistributions
import Verif.Model.SplineModels

/-!
# Model of `gwinferno/pipeline/utils.py` (prior helpers, packaging, model set-up, command line)

`load_pe_and_injections_as_dict` is in `Model/DataCollection.lean`.
-/

open Finset
noncomputable section
open Classical
namespace GW

/-! ### numpyro sites -/

/-- what `numpyro.sample` / `numpyro.factor` register -/
inductive PSite where
  /-- `numpyro.sample(name, dist.Normal(0, sd), sample_shape=(n,))` -/
  | sample (name : String) (sd : ℝ) (n : ℕ)
  /-- `numpyro.factor(name, v)` -/
  | factor (name : String) (v : ℝ)

/-- the name under which a site is registered -/
def PSite.name : PSite → String
  | .sample n _ _ => n
  | .factor n _ => n

/-- Running part of a numpyro model: the sites registered so far are the state.  The sampler's trace asserts that names are unique
(`numpyro.handlers.trace`, not in /repo). -/
abbrev Prog := StateT (List PSite) (Except PyErr)

/-- registering a site -/
def emit (s : PSite) : Prog Unit := fun tr =>
  if s.name ∈ tr.map PSite.name then .error .assertionError else .ok ((), tr ++ [s])

/-- `numpyro.sample(name, dist.Normal(0, sd), sample_shape=(n,))`; `draws` gives the value of every site.  A size `None` is a
`TypeError` in the shape. -/
def sampleNormal (draws : String → ℕ → ℝ) (name : String) (sd : ℝ) (n : Option ℕ) : Prog (List ℝ) := do
  match n with
  | none => throw .typeError
  | some n =>
    emit (.sample name sd n)
    pure ((List.range n).map (draws name))

/-- `numpyro.factor(name, apply_difference_prior(cs, tau, degree=deg))`; `tau = None` is a `TypeError` in `-0.5 * None`. -/
def penaltyFactor (name : String) (cs : List ℝ) (tau : Option ℝ) (deg : ℕ) : Prog Unit := do
  match tau with
  | none => throw .typeError
  | some tau => emit (.factor name (apply_difference_prior cs.length (fun i => cs.getD i 0) tau deg))

/-- utils.py:165, 187, 212 `"_" + name if name is not None else ""` -/
def suffix (name : Option String) : String := match name with | some n => "_" ++ n | none => ""

/-- what `bspline_mass_prior` returns: one array or a pair -/
inductive MassCoefs where
  | one (cs : List ℝ)
  | both (m q : List ℝ)

/-- utils.py:163-182 `bspline_mass_prior`. -/
def bspline_mass_prior (draws : String → ℕ → ℝ) (m_nsplines q_nsplines : Option ℕ := none) (m_tau q_tau : Option ℝ := some 1)
    (name : Option String := none) (m_cs_sig : ℝ := 15) (q_cs_sig : ℝ := 5) (m_deg q_deg : ℕ := 1) : Prog MassCoefs := do
  let name := suffix name
  let mass_cs ← if m_nsplines.isSome then do
      let mass_cs ← sampleNormal draws ("mass_cs" ++ name) m_cs_sig m_nsplines
      penaltyFactor ("mass_smoothing_prior" ++ name) mass_cs m_tau m_deg
      pure mass_cs
    else pure []
  let q_cs ← if q_nsplines.isSome then do
      let q_cs ← sampleNormal draws ("q_cs" ++ name) q_cs_sig q_nsplines
      penaltyFactor ("q_smoothing_prior" ++ name) q_cs q_tau q_deg
      pure q_cs
    else pure []
  if m_nsplines.isSome ∧ q_nsplines.isNone then pure (.one mass_cs)
  else if m_nsplines.isNone ∧ q_nsplines.isSome then pure (.one q_cs)
  else if m_nsplines.isNone ∧ q_nsplines.isNone then throw .assertionError
  else pure (.both mass_cs q_cs)

/-- utils.py:185-208 `bspline_spin_prior`: the tuple of returned arrays. -/
def bspline_spin_prior (draws : String → ℕ → ℝ) (a_nsplines ct_nsplines : Option ℕ := none) (a_tau ct_tau : Option ℝ := none)
    (name : Option String := none) (IID : Bool := false) (a_cs_sig ct_cs_sig : ℝ := 5) (a_deg ct_deg : ℕ := 2) : Prog (List (List ℝ)) := do
  let name := suffix name
  if IID then
    let a_cs ← sampleNormal draws ("a_cs" ++ name) a_cs_sig a_nsplines
    penaltyFactor ("a_smoothing_prior" ++ name) a_cs a_tau a_deg
    let ct_cs ← sampleNormal draws ("tilt_cs" ++ name) ct_cs_sig ct_nsplines
    penaltyFactor ("ct_smoothing_prior" ++ name) ct_cs ct_tau ct_deg
    pure [a_cs, ct_cs]
  else
    let a1_cs ← sampleNormal draws ("a1_cs" ++ name) a_cs_sig a_nsplines
    penaltyFactor ("a1_smoothing_prior" ++ name) a1_cs a_tau a_deg
    let a2_cs ← sampleNormal draws ("a2_cs" ++ name) a_cs_sig a_nsplines
    penaltyFactor ("a2_smoothing_prior" ++ name) a2_cs a_tau a_deg
    let ct1_cs ← sampleNormal draws ("tilt1_cs" ++ name) ct_cs_sig ct_nsplines
    penaltyFactor ("ct1_smoothing_prior" ++ name) ct1_cs ct_tau ct_deg
    let ct2_cs ← sampleNormal draws ("tilt2_cs" ++ name) ct_cs_sig ct_nsplines
    penaltyFactor ("ct2_smoothing_prior" ++ name) ct2_cs ct_tau ct_deg
    pure [a1_cs, ct1_cs, a2_cs, ct2_cs]

/-- utils.py:211-216 `bspline_redshift_prior`; `z_nsplines = 0` would ask for a negative shape. -/
def bspline_redshift_prior (draws : String → ℕ → ℝ) (z_nsplines : Option ℕ := none) (z_tau : Option ℝ := none) (name : Option String := none)
    (z_cs_sig : ℝ := 1) (z_deg : ℕ := 2) : Prog (List ℝ) := do
  let name := suffix name
  match z_nsplines with
  | none => throw .typeError
  | some 0 => throw .valueError
  | some (n + 1) =>
    let z_cs ← sampleNormal draws ("z_cs" ++ name) z_cs_sig (some n)
    let z_cs := 0 :: z_cs
    penaltyFactor ("z_smoothing_prior" ++ name) z_cs z_tau z_deg
    pure z_cs

/-! ### packaging -/

/-- an array: its shape and its entries -/
structure NdArr where
  shape : List ℕ
  get : List ℕ → F

/-- a value of the posterior dictionary: an array, or the dictionary `{"dims": …, "data": …}` the packaging replaces it with -/
inductive PVal where
  | arr (a : NdArr)
  | wrapped (dims : List String) (a : NdArr)

/-- `xr.Dataset`: variables and coordinates, each with its dimension names -/
structure Dataset where
  vars : PyDict (List String × NdArr)
  coords : PyDict (List String × NdArr)

/-- the pairs (dimension name, size) of one variable -/
def dimSizes (v : List String × NdArr) : List (String × ℕ) := v.1.zip v.2.shape

/-- xarray's checks on construction: as many names as axes, one size per dimension name, and no name used for both a variable
and a coordinate.  (xarray raises `ValueError` or a
subclass.  Not modelled: a multi-dimensional variable called like one of its own dimensions, the reserved keys `coords`,
`data_vars`, `attrs` of `from_dict`.) -/
def mkDataset (vars coords : PyDict (List String × NdArr)) : Except PyErr Dataset :=
  if (∀ v ∈ vars ++ coords, v.2.1.length = v.2.2.shape.length) ∧
    (∀ v ∈ vars ++ coords, ∀ w ∈ vars ++ coords, ∀ a ∈ dimSizes v.2, ∀ b ∈ dimSizes w.2, a.1 = b.1 → a.2 = b.2) ∧
    (∀ k ∈ vars.keys, k ∉ coords.keys)
  then .ok ⟨vars, coords⟩ else .error .valueError

/-- utils.py:226 `f"{key}_dim{i + 2}"` -/
def dimName (key : String) (i : ℕ) : String := key ++ "_dim" ++ toString (i + 2)

/-- utils.py:222-227: the body of the loop for one key; the dictionary is updated in place. -/
def wrapOne (key : String) (d : PyDict PVal) : Except PyErr (PyDict PVal) :=
  match d.get? key with
  | none => .error (.keyError key)
  | some (.wrapped _ _) => .error (.attributeError "shape")
  | some (.arr a) => match a.shape with
    | [] => .error .indexError
    | n :: _ =>
      if a.shape ≠ [n] then .ok (d.set key (.wrapped ("draw" :: (List.range (a.shape.length - 1)).map (dimName key)) a))
      else .ok (d.set key (.wrapped ["draw"] a))

/-- utils.py:221: the loop.  First component: the caller's dictionary afterwards. -/
def wrapAll : List String → PyDict PVal → PyDict PVal × Except PyErr Unit
  | [], d => (d, .ok ())
  | k :: ks, d => match wrapOne k d with
    | .error e => (d, .error e)
    | .ok d' => wrapAll ks d'

/-- `xr.Dataset.from_dict` on wrapped values -/
def fromDict (d : PyDict PVal) : Except PyErr Dataset :=
  mkDataset (d.map fun p => (p.1, match p.2 with | .wrapped dims a => (dims, a) | .arr a => ([], a))) []

/-- utils.py:219-229 `posterior_dict_to_xarray`: the caller's dictionary afterwards, and the returned dataset. -/
def posterior_dict_to_xarray (d : PyDict PVal) : PyDict PVal × Except PyErr Dataset :=
  match wrapAll d.keys d with
  | (d', .error e) => (d', .error e)
  | (d', .ok ()) => (d', fromDict d')

/-- `{**a, **b}` / `a | b` -/
def merge {α : Type} (a b : PyDict α) : PyDict α := b.foldl (fun d p => d.set p.1 p.2) a

/-- `del d[k]` -/
def delKey {α : Type} (d : PyDict α) (k : String) : PyDict α := d.filter fun p => p.1 ≠ k

/-- numpy `item[i]` -/
def NdArr.index (a : NdArr) (i : ℕ) : Except PyErr NdArr :=
  match a.shape with
  | [] => .error .indexError
  | n :: rest => if i < n then .ok ⟨rest, fun idx => a.get (i :: idx)⟩ else .error .indexError

/-- utils.py:242: `{f"{nm}_{key}_pdfs": (["draw", key], item[i]) for key, item in pdf_dict.items()}` -/
def subpopVars (nm : String) (i : ℕ) : PyDict NdArr → Except PyErr (PyDict (List String × NdArr))
  | [] => .ok []
  | (key, item) :: d => do
    let x ← item.index i
    let rest ← subpopVars nm i d
    pure ((nm ++ "_" ++ key ++ "_pdfs", (["draw", key], x)) :: rest)

/-- utils.py:241-243: the loop over the sub-populations. -/
def subpopLoop (d : PyDict NdArr) : List String → ℕ → PyDict (List String × NdArr) → Except PyErr (PyDict (List String × NdArr))
  | [], _, xr => .ok xr
  | nm :: nms, i, xr => do
    let single ← subpopVars nm i d
    subpopLoop d nms (i + 1) (merge xr (merge [] single))

/-- utils.py:245-246 -/
def pdfCoords (param_dict : PyDict NdArr) (n_samples : ℕ) : PyDict (List String × NdArr) :=
  PyDict.set (param_dict.map fun p => (p.1, ([p.1], p.2))) "draw" (["draw"], ⟨[n_samples], fun idx => F.fin (idx.headD 0 : ℕ)⟩)

/-- utils.py:232-250 `pdf_dict_to_xarray`: the caller's `pdf_dict` afterwards, and the returned dataset. -/
def pdf_dict_to_xarray (pdf_dict param_dict : PyDict NdArr) (n_samples : ℕ) (subpop_names : Option (List String) := none) :
    PyDict NdArr × Except PyErr Dataset :=
  match subpop_names with
  | none =>
    let pdfs := merge [] (pdf_dict.map fun p => (p.1 ++ "_pdfs", (["draw", p.1], p.2)))
    (pdf_dict, mkDataset (merge [] pdfs) (pdfCoords param_dict n_samples))
  | some names =>
    match pdf_dict.get? "redshift" with
    | none => (pdf_dict, .error (.keyError "redshift"))
    | some _ =>
      -- line 239 builds `xr_dict | z` and drops it
      let d := delKey pdf_dict "redshift"
      match subpopLoop d names 0 [] with
      | .error e => (d, .error e)
      | .ok xr => (d, mkDataset xr (pdfCoords param_dict n_samples))

/-! ### setting up the spline models -/

/-- `d[k]` -/
def need' {α : Type} (d : PyDict α) (k : String) : Except PyErr α :=
  match d.get? k with | some v => .ok v | none => .error (.keyError k)

/-- a size argument that may be `None`: arithmetic on it is a `TypeError` -/
def sizeOf' (n : Option ℕ) : Except PyErr ℕ := match n with | some n => .ok n | none => .error .typeError

/-- constructor errors, as seen by the caller -/
def liftInit {α : Type} (x : Except InitErr α) : Except PyErr α := match x with | .ok a => .ok a | .error _ => .error .exception

/-- utils.py:104-118 `setup_bspline_mass_models`. -/
def setup_bspline_mass_models (pe inj : PyDict (List F)) (m_nsplines q_nsplines : ℕ) (mmin mmax : ℝ) : Except PyErr Pair := do
  let m1 ← need' pe "mass_1"
  let m1i ← need' inj "mass_1"
  let q ← need' pe "mass_ratio"
  let qi ← need' inj "mass_ratio"
  liftInit (primaryRatio m_nsplines q_nsplines m1 m1i q qi mmax mmin mmin)

/-- utils.py:121-146 `setup_bspline_spin_models`: the magnitude and the tilt model. -/
def setup_bspline_spin_models (pe inj : PyDict (List F)) (a1_nsplines ct1_nsplines : ℕ) (IID : Bool := false)
    (a2_nsplines ct2_nsplines : Option ℕ := none) : Except PyErr (Pair × Pair) := do
  let ct1 ← need' pe "cos_tilt_1"
  let ct2 ← need' pe "cos_tilt_2"
  let ct1i ← need' inj "cos_tilt_1"
  let ct2i ← need' inj "cos_tilt_2"
  if IID then
    let tilt ← liftInit (iidSpinTilts ct1_nsplines ct1 ct2 ct1i ct2i)
    let a1 ← need' pe "a_1"
    let a2 ← need' pe "a_2"
    let a1i ← need' inj "a_1"
    let a2i ← need' inj "a_2"
    let mag ← liftInit (iidSpinMagnitudes a1_nsplines a1 a2 a1i a2i)
    pure (mag, tilt)
  else
    let n2 ← sizeOf' ct2_nsplines
    let tilt ← liftInit (independentSpinTilts ct1_nsplines n2 ct1 ct2 ct1i ct2i)
    let a1 ← need' pe "a_1"
    let a2 ← need' pe "a_2"
    let a1i ← need' inj "a_1"
    let a2i ← need' inj "a_2"
    let na2 ← sizeOf' a2_nsplines
    let mag ← liftInit (independentSpinMagnitudes a1_nsplines na2 a1 a2 a1i a2i)
    pure (mag, tilt)

/-- utils.py:149-155 `setup_powerlaw_spline_redshift_model`; `dV` is the comoving volume element the model tabulates. -/
def setup_powerlaw_spline_redshift_model (dV : ℝ → ℝ) (pe inj : PyDict (Arr ℝ)) (z_nsplines : ℕ) : Except PyErr PLSpline := do
  let zpe ← need' pe "redshift"
  let zinj ← need' inj "redshift"
  liftInit (PLSpline.make z_nsplines dV zpe zinj)

/-! ### command line -/

/-- values `argparse` can produce here -/
inductive ArgVal where
  | none
  | str (s : String)
  | int (n : ℤ)
  | flt (x : ℝ)
  | bool (b : Bool)

/-- the `type=` of an option; `flag` is `action="store_true"` -/
inductive ArgType where
  | str | int | flt | bool | flag

/-- one `add_argument` call -/
structure Opt where
  name : String
  type : ArgType
  default : ArgVal := .none

/-- utils.py:21-43 `load_base_parser`. -/
def baseOptions : List Opt := [
  { name := "--pe-inj-file", type := .str },
  { name := "--run-label", type := .str },
  { name := "--result-dir", type := .str },
  { name := "--m-nsplines", type := .str, default := .int 50 },
  { name := "--q-nsplines", type := .str, default := .int 30 },
  { name := "--a-nsplines", type := .str, default := .int 16 },
  { name := "--tilt-nsplines", type := .str, default := .int 16 },
  { name := "--z-nsplines", type := .str, default := .int 20 },
  { name := "--mmin", type := .flt, default := .flt 3.0 },
  { name := "--mmax", type := .flt, default := .flt 100.0 },
  { name := "--chains", type := .int, default := .int 1 },
  { name := "--samples", type := .int, default := .int 1500 },
  { name := "--thinning", type := .int, default := .int 1 },
  { name := "--warmup", type := .int, default := .int 1000 },
  { name := "--skip-inference", type := .flag, default := .bool false },
  { name := "--rngkey", type := .int, default := .int 1 },
  { name := "--save-plots", type := .bool, default := .bool true }]

/-- What `argparse` stores for an option given with text `s` (ignored for a flag): `type(s)`.  `parseInt`/`parseFlt` are Python's
`int` and `float`; `none` is their `ValueError`, which ends the program. `bool(s)` is `s != ""`. -/
def argValue (parseInt : String → Option ℤ) (parseFlt : String → Option ℝ) (t : ArgType) (s : String) : Option ArgVal :=
  match t with
  | .str => some (.str s)
  | .int => (parseInt s).map .int
  | .flt => (parseFlt s).map .flt
  | .bool => some (.bool (s ≠ ""))
  | .flag => some (.bool true)

/-- `parser.parse_args(argv)`, `argv` given as pairs (exact option name, text); abbreviations, `--x=y` and positional arguments are
not modelled.  Returns the value of the option `name`. -/
def argOf (parseInt : String → Option ℤ) (parseFlt : String → Option ℝ) (argv : List (String × String)) (o : Opt) : Option ArgVal :=
  match (argv.filter fun p => p.1 = o.name).getLast? with
  | none => some o.default
  | some p => argValue parseInt parseFlt o.type p.2

/-- a size used by the spline constructors (`n_splines - order + …`): a string is a `TypeError` -/
def asSize : ArgVal → Except PyErr ℕ
  | .int n => if 0 ≤ n then .ok n.toNat else .error .valueError
  | _ => .error .typeError

/-- examples/simple_bspline_example.py:108-116 reads the size from the parsed arguments and utils.py:106-118 builds the models with it -/
def sizeFromArgs (parseInt : String → Option ℤ) (parseFlt : String → Option ℝ) (argv : List (String × String)) (o : Opt) : Except PyErr ℕ :=
  match argOf parseInt parseFlt argv o with
  | none => .error .valueError
  | some v => asSize v

end GW
end
