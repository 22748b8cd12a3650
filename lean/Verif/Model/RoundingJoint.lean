import Verif.Model.RoundingLogSpline
import Verif.Model.RoundingParametric

/-!
# Model of the joint spline densities in rounded arithmetic

The classes of `gwinferno/models/bsplines/separable.py` (and the symmetric effective spin of `single.py`) that combine splines with each other or with a parametric density, at one sample and on the default
bases: every operation is rounded (`Arith.r`).  The spline densities themselves are those of `Verif.Model.RoundingLogSpline`.
-/

noncomputable section
open Classical
namespace GW
open F

/-- separable.py:342-365 `BSplinePrimaryPowerlawRatio.__call__` -/
def splinePrimaryPowerlawRatioR (f : Arith) (pw : F → F → F) (d : SplineModel) (m1 q : ℝ) (beta mmin : F) : F :=
  f.r (d.callXYR f m1 * powerlaw_pdfR f pw (fin q) beta (f.r (mmin / fin m1)) 1)

/-- separable.py:410-443 `PLPeakPrimaryBSplineRatio.__call__` -/
def plpeakPrimarySplineRatioR (f : Arith) (pw : F → F → F) (erf : F → F) (d : SplineModel) (m1 q : ℝ) (alpha mmin mmax mean sd frac : F) : F :=
  f.r (plpeak_primary_pdfR f pw erf (fin m1) alpha mmin mmax mean sd frac * d.callYR f q)

/-- separable.py:587-614 `BSplineIIDComponentMasses.__call__`; both models have the same knots and coefficients, `qs` is the quotient of line 585. -/
def iidComponentMassesR (f : Arith) (pw : F → F → F) (d : SplineModel) (m1 m2 : ℝ) (beta : F) : F :=
  let q := f.r (fin m2 / fin m1)
  f.r ((if lt q 0 ∨ gt q 1 then 0 else f.r (d.callXYR f m1 * d.callXYR f m2)) * pw q beta)

/-- separable.py:681-703 `BSplineIndependentComponentMasses.__call__`; `qs` is the quotient of line 679. -/
def independentComponentMassesR (f : Arith) (pw : F → F → F) (d1 d2 : SplineModel) (m1 m2 : ℝ) (beta : F) : F :=
  f.r (f.r (d1.callXYR f m1 * d2.callXYR f m2) * pw (f.r (fin m2 / fin m1)) beta)

/-- single.py:267-284 `BSplineSymmetricChiEffective.__call__` -/
def symmetricChiEffectiveR (f : Arith) (d : SplineModel) (x : ℝ) : F := f.r (fin (1 / 2) * d.callYR f x)

end GW
end
