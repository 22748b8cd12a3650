import Verif.Arr
import Verif.PyDict
import Verif.Model.Analysis
import Verif.Model.Cosmology
import Verif.Model.Conversions
import Verif.Model.SpinPriors

/-!
# Model of `gwinferno/preprocess/data_collection.py` and of the loader in `gwinferno/pipeline/utils.py`

Samples are finite reals.  File reading (`h5py`, `json`, NetCDF) is not modelled: functions receive the contents.  An
`xarray.DataArray` over ("param", "samples") is a dictionary from parameter names to equally long columns.
-/

noncomputable section
open Classical
namespace GW
open Cosmo

/-- sequential loop over a list that stops at the first exception -/
def mapE {α β : Type} (f : α → Except PyErr β) : List α → Except PyErr (List β)
  | [] => .ok []
  | a :: l => match f a with
    | .error e => .error e
    | .ok b => match mapE f l with
      | .error e => .error e
      | .ok bs => .ok (b :: bs)

/-- One event of the raw catalogue (data_collection.py:24-36): a structured array of posterior samples. -/
structure PEEvent where
  catalog : String
  zprior : String
  fields : List String
  rows : List (String → ℝ)

/-- `posterior[field]` on a structured array: a missing field raises `ValueError` -/
def PEEvent.col (e : PEEvent) (f : String) : Except PyErr (List ℝ) :=
  if f ∈ e.fields then .ok (e.rows.map fun r => r f) else .error .valueError

/-- data_collection.py:40-49 `param_mapping` -/
def paramMapping : List (String × String) :=
  [("mass_1", "mass_1_source"), ("mass_2", "mass_2_source"), ("mass_ratio", "mass_ratio"), ("redshift", "redshift"),
    ("a_1", "a_1"), ("a_2", "a_2"), ("cos_tilt_1", "cos_tilt_1"), ("cos_tilt_2", "cos_tilt_2")]

/-- data_collection.py:77-83: the data array of one event; `n` is `data.shape[1]`. -/
structure EvData where
  cols : PyDict (List ℝ)
  n : ℕ
  zprior : String

/-- data_collection.py:56-66: the GWTC-1 branch. -/
def gwtc1 (cosmo : Obj) (e : PEEvent) : Except PyErr EvData := do
  let dl ← e.col "luminosity_distance_Mpc"
  let z ← (cosmo.DL2z dl).2
  let d1 ← e.col "m1_detector_frame_Msun"
  let s1 ← e.col "spin1"
  let t1 ← e.col "costilt1"
  let d2 ← e.col "m2_detector_frame_Msun"
  let s2 ← e.col "spin2"
  let t2 ← e.col "costilt2"
  let m1 := List.zipWith (fun m z => m / (1 + z)) d1 z
  let m2 := List.zipWith (fun m z => m / (1 + z)) d2 z
  let q := List.zipWith (fun b a => b / a) m2 m1
  pure ⟨[("mass_1", m1), ("mass_2", m2), ("mass_ratio", q), ("redshift", z), ("a_1", s1), ("a_2", s2),
    ("cos_tilt_1", t1), ("cos_tilt_2", t2)], m1.length, e.zprior⟩

/-- data_collection.py:69-73: the mask of kept samples. -/
def massMask (mmax : ℝ) (m1 : List ℝ) : List Bool :=
  if 0 < (m1.filter fun m => decide (m > mmax)).length then m1.map fun m => decide (m < mmax) else m1.map fun _ => true

/-- `col[sel]` -/
def maskB (sel : List Bool) (col : List ℝ) : List ℝ := ((sel.zip col).filter Prod.fst).map Prod.snd

/-- data_collection.py:68-75: the branch for other catalogues. -/
def modern (e : PEEvent) (mmax : ℝ) : Except PyErr EvData := do
  let m1 ← e.col "mass_1_source"
  let sel := massMask mmax m1
  let cols ← mapE (fun (pf : String × String) => (e.col pf.2).map fun c => (pf.1, maskB sel c)) paramMapping
  pure ⟨cols, (maskB sel m1).length, e.zprior⟩

/-- data_collection.py:54-84: one iteration of the first loop. -/
def processEvent (cosmo : Obj) (mmax : ℝ) (e : PEEvent) : Except PyErr EvData :=
  if e.catalog = "GWTC-1" then gwtc1 cosmo e else modern e mmax

/-- selecting the samples with the given positions, data_collection.py:88 -/
def gatherCol (idx : List ℕ) (col : List ℝ) : List ℝ := idx.map fun i => col.getD i 0

/-- data_collection.py:51, 84: the common number of samples. -/
def maxSamples (ds : List (String × EvData)) : ℕ := ds.foldl (fun m d => min d.2.n m) 10000

/-- data_collection.py:39-92 `processed_catalog_dataset_from_dict`; `choice ev n k` are the positions drawn by
`np.random.choice(arange(n), k, replace=False)` for the event. -/
def processed (cosmo : Obj) (cat : List (String × PEEvent)) (mmax : ℝ) (choice : String → ℕ → ℕ → List ℕ) :
    Except PyErr (List (String × EvData)) := do
  let ds ← mapE (fun (p : String × PEEvent) => (processEvent cosmo mmax p.2).map fun d => (p.1, d)) cat
  let k := maxSamples ds
  pure (ds.map fun p => (p.1, { p.2 with cols := p.2.cols.map fun c => (c.1, gatherCol (choice p.1 p.2.n k) c.2), n := k }))

/-- data_collection.py:95-100 `dl_2_prior_on_z`; the calls may extend the tables of the cosmology object. -/
def dl2PriorOnZ (s : Obj) (z : List ℝ) (euclidean : Bool) : Obj × Except PyErr (List ℝ) :=
  if euclidean then
    let r := s.z2DL z 1e-3
    (r.1, r.2.map fun dl => List.zipWith (fun z dl => dl ^ 2 * (dl / (1 + z) + (1 + z) * s.par.dDcdz z)) z dl)
  else
    let r := s.dVcdz z none 1e-3
    (r.1, r.2.map fun v => List.zipWith (fun z v => v / (1 + z)) z v)

/-- data_collection.py:105-107: upper end of the redshift range.  (For a catalogue without samples `max` is NaN and the
comparison false; for one without events `to_array` raises, see `appendPrior`.) -/
def zMax (cat : List (String × EvData)) : ℝ :=
  (cat.flatMap fun p => (p.2.cols.get? "redshift").getD []).foldl max 1.9

/-- data_collection.py:109 -/
def zGrid (zmax : ℝ) : Arr ℝ := linspace 0 (zmax * 1.01) 1000

/-- data_collection.py:110-113: the two tabulated densities, normalised. -/
def zPriors (s : Obj) (zmax : ℝ) : Except PyErr ((ℕ → ℝ) × (ℕ → ℝ)) :=
  let zs := entries 1000 (zGrid zmax).get
  let e := dl2PriorOnZ s zs true
  match e.2 with
  | .error er => .error er
  | .ok pe => match (dl2PriorOnZ e.1 zs false).2 with
    | .error er => .error er
    | .ok pc =>
      let pe := fun i => pe.getD i 0
      let pc := fun i => pc.getD i 0
      .ok (fun i => pe i / trapz 1000 pe (zGrid zmax).get, fun i => pc i / trapz 1000 pc (zGrid zmax).get)

/-- `catalog_dataset[ev].sel(param=k).values` (a missing label raises `KeyError`) -/
def EvData.row (d : EvData) (k : String) : Except PyErr (List ℝ) :=
  match d.cols.get? k with
  | some c => .ok c
  | none => .error (.keyError k)

/-- one statement `if k in param_names: prior *= row(...)` of data_collection.py:121-131 -/
def mulIf (c : Prop) (row : Except PyErr (List ℝ)) (prior : List ℝ) : Except PyErr (List ℝ) :=
  if c then match row with
    | .error e => .error e
    | .ok r => .ok (List.zipWith (· * ·) prior r)
  else .ok prior

/-- data_collection.py:122-126: the redshift factor. -/
def zFactor (zmax : ℝ) (pz : (ℕ → ℝ) × (ℕ → ℝ)) (d : EvData) : Except PyErr (List ℝ) :=
  if d.zprior ∉ ["euclidean", "comoving"] then .error .assertionError
  else (d.row "redshift").map fun z => z.map fun x => interp 1000 (zGrid zmax).get (if d.zprior = "euclidean" then pz.1 else pz.2) x

/-- data_collection.py:121-131: the prior of one event. -/
def eventPrior (zmax : ℝ) (pz : (ℕ → ℝ) × (ℕ → ℝ)) (ps : List String) (d : EvData) : Except PyErr (List ℝ) := do
  let p1 ← mulIf ("redshift" ∈ ps) (zFactor zmax pz d) (List.replicate d.n (1 : ℝ))
  let p2 ← mulIf ("mass_1" ∈ ps) ((d.row "redshift").map fun z => z.map fun x => (1 + x) ^ 2) p1
  let p3 ← mulIf ("mass_ratio" ∈ ps) (d.row "mass_1") p2
  mulIf ("a_1" ∈ ps) (.ok (List.replicate d.n (1 / 4))) p3

/-- data_collection.py:103-142 `append_prior_to_processed_catalog`: every event gets the additional row `prior`. -/
def appendPrior (s : Obj) (cat : List (String × EvData)) (ps : List String) : Except PyErr (List (String × EvData)) := do
  if cat = [] then throw .valueError
  let pz ← if "redshift" ∈ ps then zPriors s (zMax cat) else .ok (fun _ => 0, fun _ => 0)
  mapE (fun (p : String × EvData) =>
    (eventPrior (zMax cat) pz ps p.2).map fun pr => (p.1, { p.2 with cols := p.2.cols ++ [("prior", pr)] })) cat

/-- data_collection.py:165-169 and 198-200: `setxor1d`, `remove("prior")`, `drop_sel`; the remaining parameter rows. -/
def keepParams {α : Type} (cols : PyDict α) (ps : List String) : Except PyErr (PyDict α) :=
  let remove := (cols.keys.filter fun k => decide (k ∉ ps)) ++ (ps.dedup.filter fun k => decide (k ∉ cols.keys))
  if "prior" ∉ remove then .error .valueError
  else
    let remove := remove.erase "prior"
    match remove.find? fun k => decide (k ∉ cols.keys) with
    | some k => .error (.keyError k)
    | none => .ok (cols.filter fun c => decide (c.1 ∉ remove))

/-- data_collection.py:145-150: how the metadata are obtained; `readJson` is the result of opening and parsing a key file
(`open(None)` raises `TypeError`). -/
def metadata {α : Type} (catalog_metadata : Option α) (key_file : Option String) (readJson : String → Except PyErr α) :
    Except PyErr α :=
  match catalog_metadata with
  | some m => .ok m
  | none => match key_file with
    | none => .error .typeError
    | some f => readJson f

/-- data_collection.py:242-252, 256-266, 273-296: the converted prior of one sample, `spin` being the value of the effective-spin
prior. -/
def newPrior (prior a1 a2 : ℝ) (spin : F) : F :=
  F.fin (prior) / F.fin ((2 * Real.pi * a1 ^ 2) * (2 * Real.pi * a2 ^ 2)) * spin

/-- one sample of the table handed to the conversion -/
structure SpinSample where
  q : ℝ
  a1 : ℝ
  a2 : ℝ
  ct1 : ℝ
  ct2 : ℝ
  prior : ℝ

/-- data_collection.py:214-296 for one sample without `chi_p`: effective spin and new prior (`a_max = 1`).  `Di` is the
dilogarithm used by the spin prior, `depth` Python's recursion allowance. -/
def chieffSample (iso : ℝ → ℝ → Except PyErr F) (r : SpinSample) : Except PyErr (ℝ × F) :=
  let x := chieff r.q r.a1 r.a2 r.ct1 r.ct2
  match iso x r.q with
  | .error e => .error e
  | .ok v => .ok (x, newPrior r.prior r.a1 r.a2 v)

/-- data_collection.py:214-296 for one sample with `chi_p`; `joint` is the joint spin prior. -/
def chipSample (joint : ℝ → ℝ → ℝ → Except PyErr F) (r : SpinSample) : Except PyErr (ℝ × ℝ × F) :=
  let x := chieff r.q r.a1 r.a2 r.ct1 r.ct2
  let y := chip r.q r.a1 r.a2 r.ct1 r.ct2
  match joint y x r.q with
  | .error e => .error e
  | .ok v => .ok (x, y, newPrior r.prior r.a1 r.a2 v)

/-- data_collection.py:340-346: `chi_p.reshape(1, chi_p.shape[0])` of an (events × samples) array followed by a
`DataArray` with three dimension names: `reshape` needs equal sizes, and two axes never match three names. -/
def chipArrayPE (events samples : ℕ) : Except PyErr Unit :=
  if events * samples ≠ 1 * events then .error .valueError
  else if 2 ≠ 3 then .error .valueError
  else .ok ()

/-- data_collection.py:210-353 on posterior samples: rows `event × sample`. -/
def convertPE (iso : ℝ → ℝ → Except PyErr F) (joint : ℝ → ℝ → ℝ → Except PyErr F) (ps : List String)
    (events : List (List SpinSample)) (nsamples : ℕ) : Except PyErr (List (List (ℝ × F))) :=
  if "chi_p" ∈ ps then
    match mapE (mapE (chipSample joint)) events with
    | .error e => .error e
    | .ok l => match chipArrayPE events.length nsamples with
      | .error e => .error e
      | .ok () => .ok (l.map fun r => r.map fun t => (t.1, t.2.2))
  else mapE (mapE (chieffSample iso)) events

/-- data_collection.py:210-353 on injections. -/
def convertInj (iso : ℝ → ℝ → Except PyErr F) (joint : ℝ → ℝ → ℝ → Except PyErr F) (ps : List String)
    (injs : List SpinSample) : Except PyErr (List (ℝ × Option ℝ × F)) :=
  if "chi_p" ∈ ps then (mapE (chipSample joint) injs).map fun l => l.map fun t => (t.1, some t.2.1, t.2.2)
  else (mapE (chieffSample iso) injs).map fun l => l.map fun t => (t.1, none, t.2)

/-! ### pipeline/utils.py `load_pe_and_injections_as_dict` -/

/-- The saved posterior file: event names and, per parameter, one list of samples per event. -/
structure PEFile where
  events : List String
  cols : PyDict (List (List ℝ))

/-- rows of a 2-D array at the positions where the event is not ignored -/
def dropEvents (events ignore : List String) (col : List (List ℝ)) : List (List ℝ) :=
  ((events.zip col).filter fun p => decide (p.1 ∉ ignore)).map Prod.snd

/-- utils.py:51-96 `load_pe_and_injections_as_dict`: posterior dictionary and the constant `nObs`
(the injections are passed through). -/
def loadPE (f : PEFile) (ignore : Option (List String)) : PyDict (List (List ℝ)) × ℕ :=
  (match ignore with
    | some ig => f.cols.map fun c => (c.1, dropEvents f.events ig c.2)
    | none => f.cols, f.events.length)

end GW
end
