import Verif.Num
import Verif.PyDict
import Verif.Model.Analysis
import Mathlib.Analysis.SpecialFunctions.Trigonometric.Basic
import Mathlib.Data.List.Infix

/-!
# Model of `gwinferno/preprocess/selection.py`

A table is the number `n` of injections and a dictionary of numeric columns (`ℕ → F`, entry `i < n`); selected columns are
lists.  HDF5 reading is not modelled: the functions receive the contents.
-/

noncomputable section
open Classical
namespace GW
open F

/-- `"…" in key` on strings -/
def strIn (s key : String) : Prop := s.toList <:+: key.toList

/-- numpy boolean-mask indexing `col[found]` of a length-`n` array: the entries at the true positions, in order -/
def mask (n : ℕ) (found : ℕ → Prop) (col : ℕ → F) : List F := ((List.range n).filter fun i => decide (found i)).map col

/-- elementwise operation on equally long arrays -/
def zip2 (f : F → F → F) (a b : List F) : List F := List.zipWith f a b

/-- the `xarray.DataArray` returned: rows by parameter name, and two attributes -/
structure InjArray where
  rows : PyDict (List F)
  total_generated : F
  analysis_time : F

/-- `injections[key]` on a structured array: a missing field raises `ValueError`. -/
def field (cols : PyDict (ℕ → F)) (k : String) : Except PyErr (ℕ → F) :=
  match cols.get? k with
  | some c => .ok c
  | none => .error .valueError

/-- selection.py:31-36 and 109-114: the last of the three attribute names that is present. -/
def analysisTime (attrs : PyDict F) : Except PyErr F :=
  match ["analysis_time", "total_analysis_time", "analysis_time_s"].foldl
      (fun (t : Option F) key => match attrs.get? key with | some v => some v | none => t) none with
  | some t => .ok t
  | none => .error .exception

/-- seconds to years: `/ 365.25 / 24 / 60 / 60` (selection.py:55, 112) -/
def toYears (t : F) : F := t / fin 365.25 / fin 24 / fin 60 / fin 60

/-- the long column name of selection.py:57 -/
def lnpdrawName : String := "lnpdraw_mass1_source_mass2_source_redshift_spin1x_spin1y_spin1z_spin2x_spin2y_spin2z"

/-- selection.py:38-42: the found mask. -/
def o4aFound (cols : PyDict (ℕ → F)) (snrcol : ℕ → F) (ifar snr : ℝ) : ℕ → Prop :=
  cols.foldl (fun found (p : String × (ℕ → F)) => if strIn "far" p.1 then fun i => found i ∨ F.le (p.2 i) (fin (1 / ifar)) else found)
    (fun i => F.ge (snrcol i) (fin snr))

/-- the spin magnitude and cosine of selection.py:64-67, 120-125 from the three selected components -/
def spinMag (x y z : List F) : List F :=
  (zip2 (· + ·) (zip2 (· + ·) (x.map sq) (y.map sq)) (z.map sq)).map fun s => F.pow s (fin (1 / 2))

/-- `(2 π a_1²)(2 π a_2²)` (selection.py:68, 127) -/
def spinJac (a1 a2 : List F) : List F := zip2 (fun a b => fin (2 * Real.pi) * sq a * (fin (2 * Real.pi) * sq b)) a1 a2

/-- selection.py:12-79 `get_o4a_cumulative_injection_dict`.  `1 / ifar` raises `ZeroDivisionError` at 0. -/
def getO4a (n : ℕ) (cols : PyDict (ℕ → F)) (attrs : PyDict F) (total_generated : F) (param_names : List String)
    (ifar snr : ℝ) : Except PyErr InjArray := do
  let t ← analysisTime attrs
  let snrcol ← field cols "semianalytic_observed_phase_maximized_snr_net"
  if ifar = 0 ∧ (∃ p ∈ cols, strIn "far" p.1) then throw .zeroDivisionError
  let found := o4aFound cols snrcol ifar snr
  let w ← field cols "weights"
  let m1 ← field cols "mass1_source"
  let m2 ← field cols "mass2_source"
  let z ← field cols "redshift"
  let lnp ← field cols lnpdrawName
  let sel := mask n found
  let prior := zip2 (· / ·) ((sel lnp).map F.exp) (sel w)
  let prior := if "mass_ratio" ∈ param_names then zip2 (· * ·) prior (sel m1) else prior
  let base : PyDict (List F) := [("mass_1", sel m1), ("mass_2", sel m2), ("mass_ratio", zip2 (· / ·) (sel m2) (sel m1)),
    ("redshift", sel z)]
  if "a_1" ∈ param_names ∨ "chi_eff" ∈ param_names then
    let x1 ← field cols "spin1x"
    let y1 ← field cols "spin1y"
    let z1 ← field cols "spin1z"
    let x2 ← field cols "spin2x"
    let y2 ← field cols "spin2y"
    let z2 ← field cols "spin2z"
    let a1 := spinMag (sel x1) (sel y1) (sel z1)
    let a2 := spinMag (sel x2) (sel y2) (sel z2)
    let prior := zip2 (· * ·) prior (spinJac a1 a2)
    pure ⟨base ++ [("prior", prior), ("a_1", a1), ("cos_tilt_1", zip2 (· / ·) (sel z1) a1), ("a_2", a2),
      ("cos_tilt_2", zip2 (· / ·) (sel z2) a2)], total_generated, toYears t⟩
  else pure ⟨base ++ [("prior", prior)], total_generated, toYears t⟩

/-- Contents of the O3 file: numeric datasets, the optional dataset `name` (here only whether it is `b"o1"` or `b"o2"`). -/
structure O3Data where
  n : ℕ
  cols : PyDict (ℕ → F)
  name : Option (ℕ → Prop)

/-- `"ifar" in key.lower()` -/
def isIfar (key : String) : Prop := "ifar".toList <:+: key.toList.map Char.toLower

/-- selection.py:93-95: the O1/O2 branch of the loop body. -/
def nameStep (d : O3Data) (optsnr : ℕ → F) (snr : ℝ) (found : ℕ → Prop) : ℕ → Prop := fun i =>
  match d.name with
  | some g => found i ∨ (g i ∧ F.gt (optsnr i) (fin snr))
  | none => found i

/-- selection.py:89-95: the mask before the additional cuts.  `name` is itself a key of `data`, so when present its branch
runs at least once; the loop is modelled by one run per numeric key and one for `name`. -/
def o3Found (d : O3Data) (optsnr : ℕ → F) (ifar snr : ℝ) : ℕ → Prop :=
  nameStep d optsnr snr (d.cols.foldl (fun found (p : String × (ℕ → F)) =>
    nameStep d optsnr snr (if isIfar p.1 then fun i => found i ∨ F.gt (p.2 i) (fin ifar) else found)) (fun _ => False))

/-- selection.py:96-98: the additional cuts. -/
def o3Cuts (cols : PyDict (ℕ → F)) : List (String × ℝ) → (ℕ → Prop) → Except PyErr (ℕ → Prop)
  | [], found => .ok found
  | (k, v) :: cs, found =>
    match cols.get? k with
    | some c => o3Cuts cols cs (fun i => found i ∨ F.ge (c i) (fin v))
    | none => .error (.keyError k)

/-- `data[key][()]` on an h5py group: a missing dataset raises `KeyError`. -/
def dset (cols : PyDict (ℕ → F)) (k : String) : Except PyErr (ℕ → F) :=
  match cols.get? k with
  | some c => .ok c
  | none => .error (.keyError k)

/-- number of true entries, `sum(found)` -/
def nFound (n : ℕ) (found : ℕ → Prop) : ℕ := ((List.range n).filter fun i => decide (found i)).length

/-- selection.py:121-122 `data.get(key, np.zeros(n_found))[()][found]`: when the dataset is missing, an array of length
`n_found` is indexed with a mask of length `n`, which raises `IndexError` unless the two lengths agree. -/
def getOrZeros (n : ℕ) (cols : PyDict (ℕ → F)) (found : ℕ → Prop) (k : String) : Except PyErr (List F) :=
  match cols.get? k with
  | some c => .ok (mask n found c)
  | none => if nFound n found = n then .ok (mask n found fun _ => fin 0) else .error .indexError

/-- selection.py:95-97: the SNR dataset is only read when the file has a `name` dataset. -/
def optSnr (d : O3Data) : Except PyErr (ℕ → F) :=
  match d.name with
  | some _ => dset d.cols "optimal_snr_net"
  | none => .ok fun _ => fin 0

/-- selection.py:82-140 `get_o3_cumulative_injection_dict`. -/
def getO3 (d : O3Data) (attrs : PyDict F) (total_generated : F) (param_names : List String) (ifar snr : ℝ)
    (cuts : Option (List (String × ℝ))) : Except PyErr InjArray := do
  let m1 ← dset d.cols "mass1_source"
  let optsnr ← optSnr d
  let found ← o3Cuts d.cols (cuts.getD []) (o3Found d optsnr ifar snr)
  let m2 ← dset d.cols "mass2_source"
  let z ← dset d.cols "redshift"
  let t ← analysisTime attrs
  let pdf ← dset d.cols "sampling_pdf"
  let sel := mask d.n found
  let base : PyDict (List F) := [("mass_1", sel m1), ("mass_2", sel m2), ("mass_ratio", zip2 (· / ·) (sel m2) (sel m1)),
    ("redshift", sel z)]
  let finish := fun (prior : List F) => if "mass_ratio" ∈ param_names then zip2 (· * ·) prior (sel m1) else prior
  if "a_1" ∈ param_names ∨ "chi_eff" ∈ param_names then
    let x1 ← getOrZeros d.n d.cols found "spin1x"
    let y1 ← getOrZeros d.n d.cols found "spin1y"
    let z1 ← dset d.cols "spin1z"
    let x2 ← getOrZeros d.n d.cols found "spin2x"
    let y2 ← getOrZeros d.n d.cols found "spin2y"
    let z2 ← dset d.cols "spin2z"
    let a1 := spinMag x1 y1 (sel z1)
    let a2 := spinMag x2 y2 (sel z2)
    let prior := zip2 (· * ·) (sel pdf) (spinJac a1 a2)
    pure ⟨base ++ [("prior", finish prior), ("a_1", a1), ("cos_tilt_1", zip2 (· / ·) (sel z1) a1), ("a_2", a2),
      ("cos_tilt_2", zip2 (· / ·) (sel z2) a2)], total_generated, toYears t⟩
  else pure ⟨base ++ [("prior", finish (sel pdf))], total_generated, toYears t⟩

/-! ### resampling -/

/-- selection.py:144: one weight per injection, `model` being the model density of each injection and `prior` the stored one
(both positive reals; `model_prob` is evaluated column by column). -/
def rsWts {n : ℕ} (model prior : Fin n → ℝ) (i : Fin n) : ℝ := model i / prior i
/-- selection.py:145 -/
def rsP {n : ℕ} (model prior : Fin n → ℝ) (i : Fin n) : ℝ := rsWts model prior i / ∑ j, rsWts model prior j
/-- selection.py:148: `int(sum(w)**2 // sum(w*w))` -/
def rsN {n : ℕ} (model prior : Fin n → ℝ) : ℕ :=
  ⌊(∑ j, rsWts model prior j) ^ 2 / ∑ j, rsWts model prior j * rsWts model prior j⌋₊
/-- selection.py:149 -/
def rsNorm {n : ℕ} (model prior : Fin n → ℝ) (Ndraw : ℝ) : ℝ := (∑ j, rsWts model prior j) / Ndraw

/-- selection.py:150-155: the new table for drawn indices `idxs` (entry `k` of every row is the drawn injection `idxs k`,
with the prior row replaced), the number of draws and the new effective sample size. -/
structure Resampled (n : ℕ) where
  N : ℕ
  /-- which original injection each new column is -/
  src : Fin N → Fin n
  /-- the new prior row -/
  prior : Fin N → ℝ
  neff : ℝ

/-- selection.py:143-156 `resample_injections`, for the indices chosen by `random.choice(key, Ndet, shape=[N], p=p)`. -/
def resample {n : ℕ} (model prior : Fin n → ℝ) (Ndraw : ℝ) (idxs : Fin (rsN model prior) → Fin n) : Resampled n :=
  let norm := rsNorm model prior Ndraw
  let s2 := (∑ j, rsWts model prior j * rsWts model prior j) / (Ndraw * Ndraw) - norm * norm / Ndraw
  { N := rsN model prior, src := idxs, prior := fun k => model (idxs k) / norm, neff := norm * norm / s2 }

end GW
end
