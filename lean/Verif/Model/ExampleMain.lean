import Verif.Model.PipelineUtils
import Verif.Model.Plot
import Verif.Model.Postprocess
import Verif.Model.Scripts

/-!
# Model of the examples' `main`, from the posterior to the saved curves

`examples/simple_bspline_example.py:134-229` and `examples/simple_powerlaw_peak_example.py:148-253`.  A run is the list of the files
it writes, in order, and the exception that ends it, if any.  The sampler is not modelled: its draws are an argument.  Messages and the
progress bars are left out.  Writing and reading back a netCDF file is taken to preserve the dataset.
-/

open Finset
noncomputable section
open Classical
namespace GW
open F

/-- contents of a result file -/
inductive Out where
  | posterior (d : Dataset)
  | figure (f : List Drawn)
  | curves (d : Dataset)

/-- files written so far, and the value or the exception -/
abbrev Run (α : Type) := List (String × Out) × Except PyErr α

/-- sequencing: an exception ends the run, what was written stays -/
def Run.andThen {α β : Type} (r : Run α) (f : α → Run β) : Run β :=
  match r.2 with
  | .error e => (r.1, .error e)
  | .ok a => (r.1 ++ (f a).1, (f a).2)

/-- a plotting call as part of a run -/
def Run.ofSaved (s : Saved) : Run Unit :=
  (s.1.map fun p => (p.1, .figure p.2), match s.2 with | none => .ok () | some e => .error e)

/-- the grids and the curves computed from a posterior (local variables of `main`) -/
structure ExampleCurves where
  m1s : List ℝ
  qs : List ℝ
  mags : List ℝ
  tilts : List ℝ
  zs : List ℝ
  mass : Curves
  ratio : Curves
  mag1 : Curves
  mag2 : Curves
  tilt1 : Curves
  tilt2 : Curves
  rate : Curves

/-- an array of curves with its shape -/
def Curves.toArr (c : Curves) : NdArr :=
  ⟨[c.rows.length, c.width], fun idx => (c.rows.getD (idx.getD 0 0) fun _ => 0) (idx.getD 1 0)⟩

/-- a grid as an array -/
def gridArr (x : List ℝ) : NdArr := ⟨[x.length], fun idx => fin (x.getD (idx.getD 0 0) 0)⟩

/-- simple_bspline_example.py:214-222 / simple_powerlaw_peak_example.py:238-246 `pdf_dict` -/
def ExampleCurves.pdfDict (c : ExampleCurves) : PyDict NdArr := [
  ("a1", c.mag1.toArr), ("cos_tilt1", c.tilt1.toArr), ("a2", c.mag2.toArr), ("cos_tilt2", c.tilt2.toArr), ("mass_1", c.mass.toArr),
  ("mass_ratio", c.ratio.toArr), ("redshift", c.rate.toArr)]

/-- simple_bspline_example.py:223 / simple_powerlaw_peak_example.py:247 `param_dict` -/
def ExampleCurves.paramDict (c : ExampleCurves) : PyDict NdArr := [
  ("a1", gridArr c.mags), ("a2", gridArr c.mags), ("cos_tilt1", gridArr c.tilts), ("cos_tilt2", gridArr c.tilts), ("mass_1", gridArr c.m1s),
  ("redshift", gridArr c.zs), ("mass_ratio", gridArr c.qs)]

/-- simple_bspline_example.py:196-229 / simple_powerlaw_peak_example.py:220-253: plots, then the dataset of curves, with
`n_samples = args.samples` (`arange` of a negative number is empty). -/
def exampleTail (name : String) (a : RunArgs) (save : Bool) (c : ExampleCurves) : Run Unit :=
  (Run.ofSaved (plot_mass_pdfs [c.mass] [c.ratio] c.m1s c.qs [name] (runLabel a) (runDir a) save ["tab:blue"])).andThen fun _ =>
  (Run.ofSaved (plot_spin_pdfs [c.mag1] [c.tilt1] c.mags c.tilts [name] (runLabel a) (runDir a) save ["tab:blue"])).andThen fun _ =>
  (Run.ofSaved (plot_spin_pdfs [c.mag2] [c.tilt2] c.mags c.tilts [name] (runLabel a) (runDir a) save ["tab:blue"] true)).andThen fun _ =>
  (Run.ofSaved (plot_rate_of_z_pdfs c.rate c.zs (runLabel a) (runDir a) save)).andThen fun _ =>
  match (pdf_dict_to_xarray c.pdfDict c.paramDict a.samples.toNat).2 with
  | .error e => ([], .error e)
  | .ok ds => ([(pdfsFile a, .curves ds)], .ok ())

/-- simple_bspline_example.py:134-144 / simple_powerlaw_peak_example.py:148-158: with `--skip-inference` the posterior is the stored
dataset (`none`: no such file), otherwise the sampler's draws are packed and written. -/
def examplePosterior (a : RunArgs) (skip : Bool) (stored : Option Dataset) (draws : PyDict NdArr) : Run Dataset :=
  if skip then
    match stored with
    | none => ([], .error .exception)
    | some d => ([], .ok d)
  else
    match (posterior_dict_to_xarray (plainArrays draws)).2 with
    | .error e => ([], .error e)
    | .ok d => ([(posteriorFile a, .posterior d)], .ok d)
where
  /-- the dictionary of plain arrays the sampler returns -/
  plainArrays (d : PyDict NdArr) : PyDict PVal := d.map fun p => (p.1, .arr p.2)

/-- the whole of `main` after the set-up; `compute` gives the curves -/
def exampleMain (name : String) (compute : Dataset → Except PyErr ExampleCurves) (a : RunArgs) (save skip : Bool) (stored : Option Dataset)
    (draws : PyDict NdArr) : Run Unit :=
  (examplePosterior a skip stored draws).andThen fun post =>
  Run.andThen ([], compute post) fun c => exampleTail name a save c

/-- `posterior[k].values` -/
def siteOf (post : Dataset) (k : String) : Except PyErr NdArr :=
  match post.vars.get? k with
  | none => .error (.keyError k)
  | some v => .ok v.2

/-- a scalar site with one value per draw.  Every variable of a posterior file has the common first dimension `draw`, so another
shape is another kind of posterior: some exception, not modelled further.  Draws are finite numbers. -/
def scalarSite (post : Dataset) (n : ℕ) (k : String) : Except PyErr (ℕ → ℝ) := do
  let v ← siteOf post k
  if v.shape = [n] then .ok fun d => (v.get [d]).toReal else .error .exception

/-- a site of `w` coefficients per draw; another number of coefficients does not fit the spline bases (some exception) -/
def coefSite (post : Dataset) (n w : ℕ) (k : String) : Except PyErr (ℕ → ℕ → ℝ) := do
  let v ← siteOf post k
  if v.shape = [n, w] then .ok fun d i => (v.get [d, i]).toReal else .error .exception

/-- number of draws of a site, `v.shape[0]` -/
def drawsIn (post : Dataset) (k : String) : Except PyErr ℕ := do
  let v ← siteOf post k
  match v.shape with
  | [] => .error .indexError
  | n :: _ => .ok n

/-- `n` rows of `w` grid points -/
def rowsOf (n w : ℕ) (row : ℕ → ℕ → F) : Curves := ⟨(List.range n).map row, w⟩

/-- the `w` points of a grid -/
def pointsOf (w : ℕ) (x : ℕ → ℝ) : List ℝ := (List.range w).map x

/-- simple_powerlaw_peak_example.py:174-218: the curves of the power-law-plus-peak example. -/
def plpeakExampleCurves (zm : ZModel) (mmin mmax : ℝ) (post : Dataset) : Except PyErr ExampleCurves := do
  let n ← drawsIn post "alpha"
  let alpha ← scalarSite post n "alpha"
  let beta ← scalarSite post n "beta"
  let mu ← scalarSite post n "mu_peak"
  let sig ← scalarSite post n "sig_peak"
  let lam ← scalarSite post n "lambda_m"
  let alpha1 ← scalarSite post n "alpha_a1"
  let beta1 ← scalarSite post n "beta_a1"
  let alpha2 ← scalarSite post n "alpha_a2"
  let beta2 ← scalarSite post n "beta_a2"
  let sig1 ← scalarSite post n "sig_ct1"
  let lam1 ← scalarSite post n "lambda_ct1"
  let sig2 ← scalarSite post n "sig_ct2"
  let lam2 ← scalarSite post n "lambda_ct2"
  let lamb ← scalarSite post n "lamb"
  let rate ← scalarSite post n "rate"
  .ok
    { m1s := pointsOf ppdN (massGrid mmin mmax)
      qs := pointsOf ppdN (ratioGrid mmin mmax)
      mags := pointsOf ppdN (linspace 0 1 ppdN).get
      tilts := pointsOf ppdN (linspace (-1) 1 ppdN).get
      zs := pointsOf zm.zs.len zm.zs.get
      mass := rowsOf n ppdN fun d => (plpeakMassPPDs alpha beta mu sig lam mmin mmax none none d).1
      ratio := rowsOf n ppdN fun d => (plpeakMassPPDs alpha beta mu sig lam mmin mmax none none d).2
      mag1 := rowsOf n ppdN fun d => betaSpinPPD alpha1 beta1 1 none none d
      mag2 := rowsOf n ppdN fun d => betaSpinPPD alpha2 beta2 1 none none d
      tilt1 := rowsOf n ppdN fun d => mixtureTiltPPD sig1 lam1 none none d
      tilt2 := rowsOf n ppdN fun d => mixtureTiltPPD sig2 lam2 none none d
      rate := rowsOf n zm.zs.len fun d => powerlawRate zm lamb rate none d }

/-- the constructors' errors inside `main` -/
def initErr {α : Type} (x : Except InitErr α) : Except PyErr α := match x with | .ok a => .ok a | .error _ => .error .exception

/-- simple_bspline_example.py:160-194: the curves of the spline example.  The five size options are `m`, `q`, `a`, `t`, `z`
(simple_bspline_example.py:108-116). -/
def bsplineExampleCurves (zm : PLSpline) (m q a t z : ℕ) (mmin mmax : ℝ) (post : Dataset) : Except PyErr ExampleCurves := do
  let n ← drawsIn post "mass_cs"
  let mcs ← coefSite post n m "mass_cs"
  let qcs ← coefSite post n q "q_cs"
  let mass ← initErr (bsplineMassPPDs m q mmin mmax mcs qcs none none)
  let a1 ← coefSite post n a "a1_cs"
  let t1 ← coefSite post n t "tilt1_cs"
  let a2 ← coefSite post n a "a2_cs"
  let t2 ← coefSite post n t "tilt2_cs"
  let spins ← initErr (bsplineSpinPPDs2 a a t t a1 t1 a2 t2 none none)
  let lamb ← scalarSite post n "lamb"
  let zcs ← coefSite post n (z - 1) "z_cs"
  let rate ← scalarSite post n "rate"
  .ok
    { m1s := pointsOf ppdN (massGrid mmin mmax)
      qs := pointsOf ppdN (ratioGrid mmin mmax)
      mags := pointsOf ppdN (linspace 0 1 ppdN).get
      tilts := pointsOf ppdN (linspace (-1) 1 ppdN).get
      zs := pointsOf zm.parent.zs.len zm.parent.zs.get
      mass := rowsOf n ppdN fun d => (mass d).1
      ratio := rowsOf n ppdN fun d => (mass d).2
      mag1 := rowsOf n ppdN fun d => (spins d).1.1
      mag2 := rowsOf n ppdN fun d => (spins d).1.2
      tilt1 := rowsOf n ppdN fun d => (spins d).2.1
      tilt2 := rowsOf n ppdN fun d => (spins d).2.2
      rate := rowsOf n zm.parent.zs.len fun d => powerlawSplineRate zm lamb zcs rate none d }

/-- simple_powerlaw_peak_example.py:116-253 after the set-up -/
def plpeakMain (zm : ZModel) (a : RunArgs) (save skip : Bool) (stored : Option Dataset) (draws : PyDict NdArr) : Run Unit :=
  exampleMain "PowerlawPeak" (plpeakExampleCurves zm a.mmin a.mmax) a save skip stored draws

/-- simple_bspline_example.py:92-229 after the set-up -/
def bsplineMain (zm : PLSpline) (m q na nt nz : ℕ) (a : RunArgs) (save skip : Bool) (stored : Option Dataset) (draws : PyDict NdArr) : Run Unit :=
  exampleMain "B-Spline" (bsplineExampleCurves zm m q na nt nz a.mmin a.mmax) a save skip stored draws

end GW
end
