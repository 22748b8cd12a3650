import Verif.Model.RoundingPopulation
import Verif.Model.RoundingParametric

/-!
# Model of the splines in the logarithm of their argument, of the power law with a spline in redshift, and of the weights of the B-spline example, in rounded arithmetic

As in `Verif.Model.RoundingSpline`: every operation and every library function is rounded.  The range of a spline, its knots and its grid are the stored floating-point numbers.
-/

noncomputable section
open Classical
namespace GW
open F

/-- interpolation.py:345-357 `LogXBSpline.bases`, component `i`: the design matrix at the rounded logarithm (compare `Spline.logXBases`).  An infinite logarithm is out of range; a NaN one (negative
`x`) fails both comparisons and makes the recursion NaN (order at least two). -/
def Spline.logXBasesR (f : Arith) (s : Spline) (i : ℕ) (x : ℝ) : F :=
  match f.log (fin x) with
  | fin y => s.bBasesR f i y
  | nan => nan
  | _ => 0

/-- interpolation.py:438-450 `LogXLogYBSpline.bases`, component `i` (compare `Spline.logXYBases`). -/
def Spline.logXYBasesR (f : Arith) (s : Spline) (i : ℕ) (x : ℝ) : F :=
  match f.log (fin x) with
  | fin y => s.logYBasesR f i y
  | nan => nan
  | _ => ninf

/-- interpolation.py:381-394 `_project(bases(x), coefs)` of a `LogXLogYBSpline`. -/
def Spline.logXYProjectR (f : Arith) (s : Spline) (o : RTree s.N) (coefs : ℕ → F) (x : ℝ) : F :=
  f.exp (nanToNumLogY (einsumR f o (fun i => s.logXYBasesR f i x) coefs))

/-- `LogXLogYBSpline.eval(x, coefs)` with `normalize=True` (interpolation.py:209-220, 280-291, 306-317; compare `Spline.logXYEval`). -/
def Spline.logXYEvalR (f : Arith) (s : Spline) (o : RTree s.N) {n : ℕ} (og : RTree n) (grid : ℕ → ℝ) (coefs : ℕ → F) (x : ℝ) : F :=
  f.r (s.logXYProjectR f o coefs x * f.r (1 / trapzR f og (fun j => s.logXYProjectR f o coefs (grid j)) grid))

/-- `LogXBSpline.project(bases(x), coefs)` with `normalize=False` (interpolation.py:280-317): the norm is the number 1.0. -/
def Spline.logXProjectR (f : Arith) (s : Spline) (o : RTree s.N) (coefs : ℕ → F) (x : ℝ) : F := f.r (einsumR f o (fun i => s.logXBasesR f i x) coefs * 1)

/-- spline_perturbation.py:351-352 (and, at the points of the grid, 334-335) `PowerlawSplineRedshiftModel.prob` at one redshift. -/
def splineRedshiftProbR (f : Arith) (pw : F → F → F) (s : Spline) (o : RTree s.N) (coefs : ℕ → F) (z : ℝ) (dVdz lamb : F) : F :=
  f.r (redshiftProbR f pw (fin z) dVdz lamb * f.exp (s.logXProjectR f o coefs z))

/-- spline_perturbation.py:323-336 `PowerlawSplineRedshiftModel.normalization`. -/
def splineRedshiftNormR (f : Arith) (pw : F → F → F) (s : Spline) (o : RTree s.N) (coefs : ℕ → F) {n : ℕ} (og : RTree n) (zs : ℕ → ℝ) (dVdz_ : ℕ → F) (lamb : F) : F :=
  trapzR f og (fun j => splineRedshiftProbR f pw s o coefs (zs j) (dVdz_ j) lamb) zs

/-- spline_perturbation.py:354-372 `PowerlawSplineRedshiftModel.__call__` at one redshift. -/
def splineRedshiftCallR (f : Arith) (pw : F → F → F) (s : Spline) (o : RTree s.N) (coefs : ℕ → F) {n : ℕ} (og : RTree n) (zs : ℕ → ℝ) (dVdz_ : ℕ → F) (zmax z : ℝ) (dVdz lamb : F) : F :=
  if le (fin z) (fin zmax) then f.r (splineRedshiftProbR f pw s o coefs z dVdz lamb / splineRedshiftNormR f pw s o coefs og zs dVdz_ lamb) else 0

/-! ### the weights of examples/simple_bspline_example.py -/

/-- one `Base1DBSplineModel` (single.py:35-58): the limits compared with the samples, the interpolator and its grid, the orders of its sums, and the coefficients -/
structure SplineModel where
  (xmin xmax : ℝ)
  s : Spline
  o : RTree s.N
  n : ℕ
  og : RTree n
  grid : ℕ → ℝ
  c : ℕ → ℝ

/-- single.py:77-109 `pe_pdf`, `inj_pdf` at one sample, basis `LogYBSpline`: zero outside the limits -/
def SplineModel.callYR (f : Arith) (d : SplineModel) (x : ℝ) : F :=
  if d.xmin ≤ x ∧ x ≤ d.xmax then d.s.logYEvalR f d.o d.og d.grid (fun i => fin (d.c i)) x else 0

/-- the same, basis `LogXLogYBSpline` -/
def SplineModel.callXYR (f : Arith) (d : SplineModel) (x : ℝ) : F :=
  if d.xmin ≤ x ∧ x ≤ d.xmax then d.s.logXYEvalR f d.o d.og d.grid (fun i => fin (d.c i)) x else 0

/-- the spline models of `model` (simple_bspline_example.py; pipeline/utils.py:104-155) with the sampled coefficients; for the redshift `grid` is `zs`, `dVdz_` the stored volume elements and `xmax` is `zmax` -/
structure SplinePop where
  (mass ratio a1 a2 ct1 ct2 red : SplineModel)
  dVdz_ : ℕ → ℝ
  lamb : ℝ

/-- simple_bspline_example.py:57-68 `get_weights` at one entry: `BSplinePrimaryBSplineRatio` (separable.py:531, ratio times primary), `BSplineIndependentSpinMagnitudes` and `-Tilts` (separable.py:152-153, 291-292) and
`PowerlawSplineRedshiftModel`. -/
def splineWeightR (f : Arith) (pw : F → F → F) (p : SplinePop) (d : PeakSample) : F :=
  weightR f (f.r (p.ratio.callYR f d.mass_ratio * p.mass.callXYR f d.mass_1))
    [f.r (p.a1.callYR f d.a_1 * p.a2.callYR f d.a_2), f.r (p.ct1.callYR f d.cos_tilt_1 * p.ct2.callYR f d.cos_tilt_2),
      splineRedshiftCallR f pw p.red.s p.red.o (fun i => fin (p.red.c i)) p.red.og p.red.grid (fun j => fin (p.dVdz_ j)) p.red.xmax d.redshift (fin d.dVdz) (fin p.lamb)]
    d.prior

end GW
end
