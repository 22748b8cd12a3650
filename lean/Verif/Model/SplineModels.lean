import Verif.Model.Interpolation
import Verif.Model.Parametric

/-!
# Model of `gwinferno/models/bsplines/single.py`, `separable.py` and the redshift model of `spline_perturbation.py`

Sample arrays of any shape are modelled by their row-major flattening (a list): boolean indexing `xx[mask]` and
`pdf.at[mask].set(v)` both work in that order, and everything else in these files is elementwise.
-/

open Finset
noncomputable section
open Classical
namespace GW
open F

/-! ### the interpolator object -/

/-- The basis classes accepted as `basis=` (interpolation.py:235, 320, 360, 410). -/
inductive Kind where
  | b | logX | logY | logXY

/-- An interpolator instance: its class, knots/domain and the `normalize` attribute. -/
structure Interp where
  kind : Kind
  s : Spline
  normalize : Bool

/-- `basis(n_df, xrange=(lo, hi), k=k, normalize=normalize)` with default knots (interpolation.py:236-268, 321-344,
361-379, 411-434). -/
def Interp.make (kind : Kind) (nDf : ℕ) (lo hi : ℝ) (k : ℕ) (normalize : Bool) : Except InitErr Interp :=
  match kind with
  | .b => do let s ← Spline.init nDf none none lo hi k; pure ⟨.b, s, normalize⟩
  | .logX => do let s ← logXInit nDf none none lo hi k; pure ⟨.logX, s, normalize⟩
  | .logY => do let s ← Spline.init nDf none none lo hi k; pure ⟨.logY, s, normalize⟩
  | .logXY => do let s ← logXInit nDf none none lo hi k; pure ⟨.logXY, s, normalize⟩

/-- `interpolator.bases(x)`, component `i`, at one finite point. -/
def Interp.bases (I : Interp) (i : ℕ) (x : ℝ) : F :=
  match I.kind with
  | .b => fin (I.s.bBases i x)
  | .logX => fin (I.s.logXBases i x)
  | .logY => I.s.logYBases i x
  | .logXY => I.s.logXYBases i x

/-- `interpolator._project(bases, coefs)` (interpolation.py:293-304, 381-394). -/
def Interp.rawProject (I : Interp) (bases : ℕ → F) (coefs : ℕ → ℝ) : F :=
  match I.kind with
  | .b | .logX => einsumF I.s.N bases (fun i => fin (coefs i))
  | .logY | .logXY => logYProject I.s.N bases (fun i => fin (coefs i))

/-- the grid built when `normalize` is set. -/
def Interp.grid (I : Interp) : Arr ℝ :=
  match I.kind with
  | .b | .logY => I.s.grid
  | .logX => I.s.logXGrid
  | .logXY => I.s.logXYGrid

/-- `interpolator.norm(coefs)` (interpolation.py:280-291). -/
def Interp.norm (I : Interp) (coefs : ℕ → ℝ) : F :=
  if I.normalize then
    1 / trapzF I.grid.len (fun j => I.rawProject (fun i => I.bases i (I.grid.get j)) coefs) (fun j => fin (I.grid.get j))
  else 1

/-- `interpolator.project(bases, coefs)` (interpolation.py:306-317). -/
def Interp.project (I : Interp) (bases : ℕ → F) (coefs : ℕ → ℝ) : F := I.rawProject bases coefs * I.norm coefs

/-- `interpolator.eval(x, coefs)` (interpolation.py:209-220). -/
def Interp.eval (I : Interp) (coefs : ℕ → ℝ) (x : ℝ) : F := I.project (fun i => I.bases i x) coefs

/-! ### boolean-mask indexing -/

/-- numpy `a[mask]`. -/
def gather {α : Type} : List Bool → List α → List α
  | true :: m, a :: as => a :: gather m as
  | false :: m, _ :: as => gather m as
  | _, _ => []

/-- JAX `jnp.zeros(mask.shape).at[mask].set(v)`: consecutive entries of `v` go to the positions where `mask` holds. -/
def scatter : List Bool → List F → List F
  | true :: m, v :: vs => v :: scatter m vs
  | true :: m, [] => 0 :: scatter m []
  | false :: m, vs => 0 :: scatter m vs
  | [], _ => []

/-! ### Base1DBSplineModel (single.py:16-128) -/

/-- The attributes set by `Base1DBSplineModel.__init__` (single.py:45-58).  A design matrix is stored by columns: one
vector of basis components per *valid* sample. -/
structure Base1D where
  interp : Interp
  validXX : List Bool
  validInj : List Bool
  peDesign : List (ℕ → F)
  injDesign : List (ℕ → F)

/-- single.py:54-55. -/
def validMask (lo hi : ℝ) (xs : List F) : List Bool := xs.map fun x => decide (ge x (fin lo) ∧ le x (fin hi))

/-- single.py:56-57 `interpolator.bases(xx[valid])`; a valid sample is finite, so it is passed on as a real number. -/
def design (I : Interp) (mask : List Bool) (xs : List F) : List (ℕ → F) :=
  (gather mask xs).map fun x i => I.bases i x.toReal

/-- single.py:35-58 `__init__`. -/
def Base1D.make (kind : Kind) (n : ℕ) (xx xxInj : List F) (lo hi : ℝ) (degree : ℕ) (normalize : Bool) :
    Except InitErr Base1D := do
  let I ← Interp.make kind n lo hi (degree + 1) normalize
  let v := validMask lo hi xx
  let vi := validMask lo hi xxInj
  pure ⟨I, v, vi, design I v xx, design I vi xxInj⟩

/-- single.py:77-92 `pe_pdf`. -/
def Base1D.pePdf (m : Base1D) (coefs : ℕ → ℝ) : List F :=
  scatter m.validXX (m.peDesign.map fun b => m.interp.project b coefs)

/-- single.py:94-109 `inj_pdf`. -/
def Base1D.injPdf (m : Base1D) (coefs : ℕ → ℝ) : List F :=
  scatter m.validInj (m.injDesign.map fun b => m.interp.project b coefs)

/-- single.py:111-128 `__call__`. -/
def Base1D.call (m : Base1D) (coefs : ℕ → ℝ) (pe : Bool) : List F := if pe then m.pePdf coefs else m.injPdf coefs

/-- single.py:131-162 `BSplineSpinMagnitude`. -/
def spinMagnitudeModel (n : ℕ) (a aInj : List F) (kind : Kind := .logY) (lo : ℝ := 0) (hi : ℝ := 1) (degree : ℕ := 3)
    (normalize : Bool := true) := Base1D.make kind n a aInj lo hi degree normalize
/-- single.py:165-196 `BSplineSpinTilt`. -/
def spinTiltModel (n : ℕ) (ct ctInj : List F) (kind : Kind := .logY) (lo : ℝ := -1) (hi : ℝ := 1) (degree : ℕ := 3)
    (normalize : Bool := true) := Base1D.make kind n ct ctInj lo hi degree normalize
/-- single.py:199-230 `BSplineChiEffective`. -/
def chiEffectiveModel (n : ℕ) (x xInj : List F) (kind : Kind := .b) (lo : ℝ := -1) (hi : ℝ := 1) (degree : ℕ := 3)
    (normalize : Bool := false) := Base1D.make kind n x xInj lo hi degree normalize
/-- single.py:287-318 `BSplineChiPrecess`. -/
def chiPrecessModel (n : ℕ) (x xInj : List F) (kind : Kind := .b) (lo : ℝ := 0) (hi : ℝ := 1) (degree : ℕ := 3)
    (normalize : Bool := false) := Base1D.make kind n x xInj lo hi degree normalize
/-- single.py:321-355 `BSplineRatio`. -/
def ratioModel (n : ℕ) (q qInj : List F) (qmin : ℝ := 0) (kind : Kind := .logY) (degree : ℕ := 3)
    (normalize : Bool := true) := Base1D.make kind n q qInj qmin 1 degree normalize
/-- single.py:358-395 `BSplineMass`. -/
def massModel (n : ℕ) (x xInj : List F) (mmin : ℝ := 2) (mmax : ℝ := 100) (kind : Kind := .logXY) (degree : ℕ := 3)
    (normalize : Bool := true) := Base1D.make kind n x xInj mmin mmax degree normalize

/-! ### BSplineSymmetricChiEffective (single.py:233-284) -/

/-- single.py:249-265: the absolute values of both sample arrays are passed on. -/
def symChiEffectiveModel (n : ℕ) (x xInj : List F) (kind : Kind := .b) (lo : ℝ := 0) (hi : ℝ := 1) (degree : ℕ := 3)
    (normalize : Bool := false) := Base1D.make kind n (x.map F.abs) (xInj.map F.abs) lo hi degree normalize

/-- single.py:267-284 `__call__`. -/
def symCall (m : Base1D) (coefs : ℕ → ℝ) (pe : Bool) : List F :=
  if pe then (m.pePdf coefs).map (fun v => fin 0.5 * v) else (m.injPdf coefs).map (fun v => fin 0.5 * v)

/-! ### separable.py -/

/-- elementwise product of two arrays of the same shape -/
def mulArr (a b : List F) : List F := List.zipWith (· * ·) a b

/-- The two component models of a separable model. -/
structure Pair where
  m1 : Base1D
  m2 : Base1D

/-- separable.py:38-58 `BSplineIIDSpinMagnitudes.__init__`. -/
def iidSpinMagnitudes (n : ℕ) (a1 a2 a1i a2i : List F) (kind : Kind := .logY) (lo : ℝ := 0) (hi : ℝ := 1)
    (degree : ℕ := 3) (normalize : Bool := true) : Except InitErr Pair := do
  let p ← spinMagnitudeModel n a1 a1i kind lo hi degree normalize
  let s ← spinMagnitudeModel n a2 a2i kind lo hi degree normalize
  pure ⟨p, s⟩
/-- separable.py:60-79 (and 199-218 for the tilts) `__call__`. -/
def Pair.iidCall (p : Pair) (coefs : ℕ → ℝ) (pe : Bool) : List F :=
  let p_a1 := p.m1.call coefs pe
  let p_a2 := p.m2.call coefs pe
  mulArr p_a1 p_a2

/-- separable.py:107-132 `BSplineIndependentSpinMagnitudes.__init__` (same extra keywords for both components). -/
def independentSpinMagnitudes (n1 n2 : ℕ) (a1 a2 a1i a2i : List F) (kind : Kind := .logY) (lo : ℝ := 0) (hi : ℝ := 1)
    (degree : ℕ := 3) (normalize : Bool := true) : Except InitErr Pair := do
  let p ← spinMagnitudeModel n1 a1 a1i kind lo hi degree normalize
  let s ← spinMagnitudeModel n2 a2 a2i kind lo hi degree normalize
  pure ⟨p, s⟩
/-- separable.py:134-153 (and 273-292, 759-778) `__call__`. -/
def Pair.indCall (p : Pair) (pcoefs scoefs : ℕ → ℝ) (pe : Bool) : List F :=
  let p_a1 := p.m1.call pcoefs pe
  let p_a2 := p.m2.call scoefs pe
  mulArr p_a1 p_a2

/-- separable.py:177-197 `BSplineIIDSpinTilts.__init__`. -/
def iidSpinTilts (n : ℕ) (ct1 ct2 ct1i ct2i : List F) (kind : Kind := .logY) (lo : ℝ := -1) (hi : ℝ := 1)
    (degree : ℕ := 3) (normalize : Bool := true) : Except InitErr Pair := do
  let p ← spinTiltModel n ct1 ct1i kind lo hi degree normalize
  let s ← spinTiltModel n ct2 ct2i kind lo hi degree normalize
  pure ⟨p, s⟩

/-- separable.py:246-271 `BSplineIndependentSpinTilts.__init__`. -/
def independentSpinTilts (n1 n2 : ℕ) (ct1 ct2 ct1i ct2i : List F) (kind : Kind := .logY) (lo : ℝ := -1) (hi : ℝ := 1)
    (degree : ℕ := 3) (normalize : Bool := true) : Except InitErr Pair := do
  let p ← spinTiltModel n1 ct1 ct1i kind lo hi degree normalize
  let s ← spinTiltModel n2 ct2 ct2i kind lo hi degree normalize
  pure ⟨p, s⟩

/-- separable.py:731-757 `BSplineEffectiveSpinDims.__init__`; its `__call__` (759-778) is `Pair.indCall`. -/
def effectiveSpinDims (ne np : ℕ) (e p ei pi : List F) (kind : Kind := .b) (degree : ℕ := 3)
    (normalize : Bool := false) : Except InitErr Pair := do
  let a ← chiEffectiveModel ne e ei kind (-1) 1 degree normalize
  let b ← chiPrecessModel np p pi kind 0 1 degree normalize
  pure ⟨a, b⟩

/-- separable.py:480-511 `BSplinePrimaryBSplineRatio.__init__`; `m1` is the mass model, `m2` the ratio model. -/
def primaryRatio (nm nq : ℕ) (m1 m1i q qi : List F) (mmax : ℝ := 100) (m1min : ℝ := 3) (m2min : ℝ := 3)
    (degree : ℕ := 3) (normalize : Bool := true) : Except InitErr Pair := do
  let p ← massModel nm m1 m1i m1min mmax .logXY degree normalize
  let r ← ratioModel nq q qi (m2min / mmax) .logY degree normalize
  pure ⟨p, r⟩
/-- separable.py:513-530 `__call__`. -/
def Pair.primaryRatioCall (p : Pair) (mcoefs qcoefs : ℕ → ℝ) (pe : Bool) : List F :=
  mulArr (p.m2.call qcoefs pe) (p.m1.call mcoefs pe)

/-- separable.py:342-365 `BSplinePrimaryPowerlawRatio.__call__`; `m` is the mass model of line 333. -/
def primaryPowerlawRatioCall (m : Base1D) (m1 q : List F) (beta mmin : F) (coefs : ℕ → ℝ) (pe : Bool) : List F :=
  let p_m1 := m.call coefs pe
  let p_q := List.zipWith (fun q m1 => powerlaw_pdf q beta (mmin / m1) 1) q m1
  mulArr p_m1 p_q

/-- separable.py:410-443 `PLPeakPrimaryBSplineRatio.__call__`; `m` is the ratio model of line 403. -/
def plpeakRatioCall (m : Base1D) (m1 : List F) (alpha mmin mmax mean sd frac : F) (coefs : ℕ → ℝ) (pe : Bool) : List F :=
  let p_q := m.call coefs pe
  let p_m1 := m1.map fun m1 => plpeak_primary_pdf m1 alpha mmin mmax mean sd frac
  mulArr p_m1 p_q

/-- A component-mass model: the two mass splines and the stored mass ratios (separable.py:585, 679). -/
structure CompMass where
  m1 : Base1D
  m2 : Base1D
  qInj : List F
  qPe : List F

/-- separable.py:558-585 `BSplineIIDComponentMasses.__init__`. -/
def iidComponentMasses (n : ℕ) (m1 m2 m1i m2i : List F) (mmin : ℝ := 2) (mmax : ℝ := 100) (kind : Kind := .logXY)
    (degree : ℕ := 3) (normalize : Bool := true) : Except InitErr CompMass := do
  let p ← massModel n m1 m1i mmin mmax kind degree normalize
  let s ← massModel n m2 m2i mmin mmax kind degree normalize
  pure ⟨p, s, List.zipWith (· / ·) m2i m1i, List.zipWith (· / ·) m2 m1⟩

/-- separable.py:587-613 `__call__`. -/
def CompMass.iidCall (c : CompMass) (coefs : ℕ → ℝ) (beta : F) (pe : Bool) : List F :=
  let p_m1 := c.m1.call coefs pe
  let p_m2 := c.m2.call coefs pe
  let qs := if pe then c.qPe else c.qInj
  mulArr (List.zipWith (fun q v => if lt q 0 ∨ gt q 1 then 0 else v) qs (mulArr p_m1 p_m2)) (qs.map fun q => pow q beta)

/-- separable.py:645-679 `BSplineIndependentComponentMasses.__init__`. -/
def independentComponentMasses (n1 n2 : ℕ) (m1 m2 m1i m2i : List F) (mmin1 : ℝ := 2) (mmax1 : ℝ := 100)
    (mmin2 : ℝ := 2) (mmax2 : ℝ := 100) (kind : Kind := .logXY) (degree : ℕ := 3) (normalize : Bool := true) :
    Except InitErr CompMass := do
  let p ← massModel n1 m1 m1i mmin1 mmax1 kind degree normalize
  let s ← massModel n2 m2 m2i mmin2 mmax2 kind degree normalize
  pure ⟨p, s, List.zipWith (· / ·) m2i m1i, List.zipWith (· / ·) m2 m1⟩

/-- separable.py:681-703 `__call__`. -/
def CompMass.indCall (c : CompMass) (pcoefs scoefs : ℕ → ℝ) (beta : F) (pe : Bool) : List F :=
  let p_m1 := c.m1.call pcoefs pe
  let p_m2 := c.m2.call scoefs pe
  let qs := if pe then c.qPe else c.qInj
  mulArr (mulArr p_m1 p_m2) (qs.map fun q => pow q beta)

/-! ### BSplineRedshift (single.py:398-492) -/

/-- single.py:425-451: the base model plus the redshift data. -/
structure ZSpline where
  base : Base1D
  dV : ℝ → ℝ
  z : List F
  zInj : List F
  dVdc : List F
  dVdcInj : List F
  zmin : ℝ
  zmax : ℝ

/-- `jnp.min` / `jnp.max` of a list of finite redshifts -/
def listMin (xs : List F) : ℝ := ((xs.map F.toReal).foldr min (xs.headD 0).toReal)
def listMax (xs : List F) : ℝ := ((xs.map F.toReal).foldr max (xs.headD 0).toReal)

/-- single.py:425-451 `__init__`; `dV` is `Planck15.dVcdz`. -/
def ZSpline.make (dV : ℝ → ℝ) (n : ℕ) (z zInj dVdc dVdcInj : List F) (lo : ℝ := 0.0001) (hi : ℝ := 2.3)
    (kind : Kind := .logX) (degree : ℕ := 3) (normalize : Bool := true) : Except InitErr ZSpline := do
  let base ← Base1D.make kind n z zInj lo hi degree normalize
  pure ⟨base, dV, z, zInj, dVdc, dVdcInj, max (listMin z) (listMin zInj), min (listMax z) (listMax zInj)⟩

/-- single.py:447. -/
def ZSpline.zgrid (m : ZSpline) : Arr ℝ := linspace m.zmin m.zmax 1000

/-- single.py:453-469 `normalization`: a plain einsum of the stored grid bases with the coefficients. -/
def ZSpline.normalization (m : ZSpline) (cs : ℕ → ℝ) : F :=
  trapzF m.zgrid.len
    (fun j => fin (m.dV (m.zgrid.get j)) / (1 + fin (m.zgrid.get j)) *
      exp (einsumF m.base.interp.s.N (fun i => m.base.interp.bases i (m.zgrid.get j)) (fun i => fin (cs i))))
    (fun j => fin (m.zgrid.get j))

/-- single.py:471-492 `__call__`. -/
def ZSpline.call (m : ZSpline) (coefs : ℕ → ℝ) (pe : Bool) : List F :=
  let vals := if pe then m.base.pePdf coefs else m.base.injPdf coefs
  let vols := if pe then m.dVdc else m.dVdcInj
  let zs := if pe then m.z else m.zInj
  List.zipWith (fun e z => e / (1 + z) / m.normalization coefs) (mulArr (vals.map exp) vols) zs

/-! ### PowerlawSplineRedshiftModel (spline_perturbation.py:304-372) -/

/-- spline_perturbation.py:305-321: the parent's data (parametric.py:112-121), and a `normalize=False` interpolator on
`(zmin, zmax)`, default class LogXBSpline. -/
structure PLSpline where
  parent : ZModel
  interp : Interp

/-- spline_perturbation.py:305-321 `__init__`. -/
def PLSpline.make (n : ℕ) (dV : ℝ → ℝ) (zpe zinj : Arr ℝ) (kind : Kind := .logX) : Except InitErr PLSpline := do
  let p : ZModel := ⟨dV, zpe, zinj⟩
  let I ← Interp.make kind n p.zmin p.zmax 4 false
  pure ⟨p, I⟩

/-- spline_perturbation.py:323-336 `normalization`. -/
def PLSpline.normalization (m : PLSpline) (lamb : ℝ) (cs : ℕ → ℝ) : F :=
  trapzF m.parent.zs.len
    (fun j => fin (m.parent.dV (m.parent.zs.get j)) * pow (1 + fin (m.parent.zs.get j)) (fin (lamb - 1)) *
      exp (m.interp.project (fun i => m.interp.bases i (m.parent.zs.get j)) cs))
    (fun j => fin (m.parent.zs.get j))

/-- spline_perturbation.py:338-352 `prob`, entry `i` of the stored data set (the design matrices hold the bases at the
*stored* redshifts, `z` is the caller's array). -/
def PLSpline.prob (m : PLSpline) (twoD : Bool) (z : Arr ℝ) (lamb : ℝ) (cs : ℕ → ℝ) (i : ℕ) : F :=
  fin (m.parent.dVdz twoD i) * pow (1 + fin (z.get i)) (fin (lamb - 1)) *
    exp (m.interp.project (fun k => m.interp.bases k ((if twoD then m.parent.zpe else m.parent.zinj).get i)) cs)

/-- spline_perturbation.py:354-372 `__call__`. -/
def PLSpline.call (m : PLSpline) (twoD : Bool) (z : Arr ℝ) (lamb : ℝ) (cs : ℕ → ℝ) (i : ℕ) : F :=
  if z.get i ≤ m.parent.zmax then m.prob twoD z lamb cs i / m.normalization lamb cs else 0

end GW
end
