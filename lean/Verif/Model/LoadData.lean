import Verif.Model.Selection
import Verif.Model.DataCollection

/-!
# Model of the loaders of `gwinferno/preprocess/data_collection.py` and of the file written between the two stages

`load_injection_dataset` (172-200), `load_posterior_dataset` (145-169), `save_posterior_samples_and_injection_datasets_as_idata`
(203-207) and the reading back in `pipeline/utils.py` (51-96).  A data set is a dictionary from parameter name to row (one row per
event for posterior samples) with its attributes; `to_dataset(promote_attrs=True)`, `drop_sel` and `xr.concat` (default
`combine_attrs="override"`: the attributes of the first array) keep the attributes.
-/

noncomputable section
open Classical
namespace GW
open Cosmo

/-- An injection file: the O4a table `events` (number of rows and fields), the O3 group `injections`, the attributes of the file, and
the attribute `total_generated` of the file and of the group. -/
structure InjFile where
  events : Option (ℕ × PyDict (ℕ → F))
  injections : Option O3Data
  attrs : PyDict F
  fileTotal : Option F
  groupTotal : Option F

/-- looking up a key of a file or an attribute -/
def orKey {α : Type} (o : Option α) (k : String) : Except PyErr α :=
  match o with
  | some a => .ok a
  | none => .error (.keyError k)

/-- `ff["events"]`, `ff.attrs["total_generated"]` and the rest of selection.py:28-79 -/
def readO4a (f : InjFile) (ps : List String) (ifar snr : ℝ) : Except PyErr InjArray := do
  let tg ← orKey f.fileTotal "total_generated"
  let ev ← orKey f.events "events"
  getO4a ev.1 ev.2 f.attrs tg ps ifar snr

/-- `ff["injections"]` and the rest of selection.py:87-140.  Simplification: the attribute `total_generated` is looked up before the
columns, so that when several are missing the exception may name another one. -/
def readO3 (f : InjFile) (ps : List String) (ifar snr : ℝ) (cuts : Option (List (String × ℝ))) : Except PyErr InjArray := do
  let d ← orKey f.injections "injections"
  let tg ← orKey f.groupTotal "total_generated"
  getO3 d f.attrs tg ps ifar snr cuts

/-- `dat_array.drop_sel(param=remove)`: a missing label raises `KeyError`. -/
def dropSel {α : Type} (rows : PyDict α) (remove : List String) : Except PyErr (PyDict α) :=
  match remove.find? fun k => decide (k ∉ rows.keys) with
  | some k => .error (.keyError k)
  | none => .ok (rows.filter fun c => decide (c.1 ∉ remove))

/-- data_collection.py:158-160 and 191-193: the parameters removed after the conversion to effective spins. -/
def removedForChieff (ps : List String) : List String :=
  ["a_1", "a_2", "cos_tilt_1", "cos_tilt_2"] ++ [if "mass_2" ∈ ps then "mass_ratio" else "mass_2"]

/-- data_collection.py:214-219 on injections: the six rows, as one record per injection.  Non-finite entries are outside the model. -/
def injSamples (rows : PyDict (List F)) : Except PyErr (List SpinSample) := do
  let q ← orKey (rows.get? "mass_ratio") "mass_ratio"
  let a1 ← orKey (rows.get? "a_1") "a_1"
  let a2 ← orKey (rows.get? "a_2") "a_2"
  let t1 ← orKey (rows.get? "cos_tilt_1") "cos_tilt_1"
  let t2 ← orKey (rows.get? "cos_tilt_2") "cos_tilt_2"
  let p ← orKey (rows.get? "prior") "prior"
  let at' := fun (l : List F) i => F.toReal (l.getD i F.nan)
  pure ((List.range q.length).map fun i => ⟨at' q i, at' a1 i, at' a2 i, at' t1 i, at' t2 i, at' p i⟩)

/-- data_collection.py:210-353 `convert_component_spins_to_chieff(..., injections=True)`: the old rows without the prior, then
`chi_eff`, the new prior and, if requested, `chi_p` (lines 314-323, 350-353). -/
def convertInjRows (iso : ℝ → ℝ → Except PyErr F) (joint : ℝ → ℝ → ℝ → Except PyErr F) (ps : List String)
    (rows : PyDict (List F)) : Except PyErr (PyDict (List F)) := do
  let samples ← injSamples rows
  let conv ← convertInj iso joint ps samples
  let old ← dropSel rows ["prior"]
  pure (old ++ [("chi_eff", conv.map fun t => F.fin t.1), ("prior", conv.map fun t => t.2.2)] ++
    (if "chi_p" ∈ ps then [("chi_p", conv.map fun t => F.fin (t.2.1.getD 0))] else []))

/-- data_collection.py:172-200 `load_injection_dataset`. -/
def loadInjections (iso : ℝ → ℝ → Except PyErr F) (joint : ℝ → ℝ → ℝ → Except PyErr F) (f : InjFile) (ps : List String)
    (through_o4a : Bool := false) (through_o3 : Bool := true) (ifar : ℝ := 1) (snr : ℝ := 10)
    (cuts : Option (List (String × ℝ)) := none) : Except PyErr InjArray := do
  let injs ← if through_o4a then readO4a f ps ifar snr
    else if through_o3 then readO3 f ps ifar snr cuts
    else .error .assertionError
  if "chi_eff" ∈ ps then
    let rows ← convertInjRows iso joint ps injs.rows
    let rows ← dropSel rows (removedForChieff ps)
    pure { injs with rows := rows }
  else
    let rows ← keepParams injs.rows ps
    pure { injs with rows := rows }

/-! ### posterior samples -/

/-- data_collection.py:214-219 on one event. -/
def peSamples (d : EvData) : Except PyErr (List SpinSample) := do
  let q ← d.row "mass_ratio"
  let a1 ← d.row "a_1"
  let a2 ← d.row "a_2"
  let t1 ← d.row "cos_tilt_1"
  let t2 ← d.row "cos_tilt_2"
  let p ← d.row "prior"
  pure ((List.range d.n).map fun i => ⟨q.getD i 0, a1.getD i 0, a2.getD i 0, t1.getD i 0, t2.getD i 0, p.getD i 0⟩)

/-- one event of a posterior data set -/
abbrev PERows := String × PyDict (List F)

/-- the rows of an event as model floats -/
def EvData.rows (d : EvData) : PyDict (List F) := d.cols.map fun c => (c.1, c.2.map F.fin)

/-- the common number of samples of a catalogue (data_collection.py:262, the second axis of the array) -/
def sampleCount (cat : List (String × EvData)) : ℕ :=
  match cat with
  | [] => 0
  | o :: _ => o.2.n

/-- data_collection.py:210-353 `convert_component_spins_to_chieff` on posterior samples (the common number of samples is the one of the
first event). -/
def convertPERows (iso : ℝ → ℝ → Except PyErr F) (joint : ℝ → ℝ → ℝ → Except PyErr F) (ps : List String)
    (cat : List (String × EvData)) : Except PyErr (List PERows) := do
  let samples ← mapE (fun (o : String × EvData) => peSamples o.2) cat
  let conv ← convertPE iso joint ps samples (sampleCount cat)
  let old ← mapE (fun (o : String × EvData) => (dropSel o.2.rows ["prior"]).map fun r => (o.1, r)) cat
  pure (List.zipWith (fun (o : PERows) l => (o.1, o.2 ++ [("chi_eff", l.map fun t => F.fin t.1), ("prior", l.map fun t => t.2)])) old conv)

/-- data_collection.py:145-169 `load_posterior_dataset` once the raw catalogue has been read: `cosmo` is the cosmology object when the
catalogue is processed, `s` the same object when the priors are computed (its tables may have been extended in between). -/
def loadPosterior (iso : ℝ → ℝ → Except PyErr F) (joint : ℝ → ℝ → ℝ → Except PyErr F) (cosmo s : Obj)
    (choice : String → ℕ → ℕ → List ℕ) (cat : List (String × PEEvent)) (mmax : ℝ := 100)
    (ps : List String := ["mass_1", "mass_ratio", "redshift"]) : Except PyErr (List PERows) := do
  let d ← processed cosmo cat mmax choice
  let full ← appendPrior s d ps
  if "chi_eff" ∈ ps then
    let new ← convertPERows iso joint ps full
    mapE (fun (o : PERows) => (dropSel o.2 (removedForChieff ps)).map fun r => (o.1, r)) new
  else mapE (fun (o : String × EvData) => (keepParams o.2.rows ps).map fun r => (o.1, r)) full

/-! ### the file in between -/

/-- the saved inference data -/
structure SavedData where
  pe : List PERows
  inj : InjArray

/-- data_collection.py:203-207: the file is written under any name that contains `.h5`. -/
def saveIdata (fs : PyDict SavedData) (filename : String) (pe : List PERows) (inj : InjArray) : Except PyErr (PyDict SavedData) :=
  if ¬ strIn ".h5" filename then .error .assertionError else .ok (fs.set filename ⟨pe, inj⟩)

/-- what `load_pe_and_injections_as_dict` returns -/
structure Loaded where
  pedict : PyDict (List (List F))
  injdict : PyDict (List F)
  total_inj : F
  obs_time : F
  nObs : ℕ
  param_names : List String

/-- utils.py:76-96 `load_pe_and_injections_as_dict` of a saved file.  All events of a data set share their parameter labels (those of the
first event here). -/
def loadIdata (fs : PyDict SavedData) (filename : String) (ignore : Option (List String) := none) : Except PyErr Loaded := do
  let d ← orKey (fs.get? filename) filename
  let names := match d.pe with | [] => [] | o :: _ => PyDict.keys o.2
  let used := match ignore with
    | none => d.pe
    | some ig => d.pe.filter fun o => decide (o.1 ∉ ig)
  pure ⟨names.map fun k => (k, used.map fun o => (PyDict.get? o.2 k).getD []), d.inj.rows, d.inj.total_generated, d.inj.analysis_time,
    d.pe.length, names⟩

end GW
end
