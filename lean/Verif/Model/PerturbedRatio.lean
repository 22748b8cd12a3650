import Verif.Model.SplinePerturbation
import Verif.Model.Analysis

/-!
# Model of the methods of `PowerlawBasisSplinePrimaryRatio`

The constructor of `gwinferno/models/spline_perturbation.py:153-222` always raises (C76), because line 220 reads an attribute that is never assigned.  The list made on that line
is used nowhere.  Here the class is modelled with that line left out, to see what its other methods do.
-/

open Finset
noncomputable section
open Classical
namespace GW
open F

/-- what the constructor keeps: bounds, the two splines (class BSpline, no normalisation) and the stored masses and mass ratios behind the design matrices -/
structure PLRatio where
  mmin : ℝ
  mmax : ℝ
  s : Spline
  sq : Spline
  m1pe : Arr ℝ
  m1inj : Arr ℝ
  qpe : Arr ℝ
  qinj : Arr ℝ

/-- spline_perturbation.py:154-222 `__init__` without line 220; note the literal `k=4` of lines 201 and 212. -/
def PLRatio.make (nm nq : ℕ) (m1pe qpe m1inj qinj : Arr ℝ) (mmin : ℝ := 2) (mmax : ℝ := 100) (k : ℕ := 4) : Except InitErr PLRatio := do
  if nm + 2 < k + 2 then throw InitErr.index
  if nq + 2 < k + 2 then throw InitErr.index
  let s ← Spline.init nm (some (plKnots nm k (Real.log mmin) (Real.log mmax)))
    (some (linspace (Real.log mmin) (Real.log mmax) (nm + 2 - k))) (Real.log mmin) (Real.log mmax) 4
  let sq ← Spline.init nq (some (plKnots nq k 0 1)) (some (linspace 0 1 (nq + 2 - k))) 0 1 4
  pure ⟨mmin, mmax, s, sq, m1pe, m1inj, qpe, qinj⟩

/-- spline_perturbation.py:175. -/
def PLRatio.ms (m : PLRatio) : Arr ℝ := linspace m.mmin m.mmax 1000
/-- spline_perturbation.py:176. -/
def PLRatio.qs (m : PLRatio) : Arr ℝ := linspace (m.mmin / m.mmax) 1 500

/-- `exp(interpolator.project(design matrix at x, cs))` -/
def perturbBy (s : Spline) (cs : ℕ → ℝ) (x : ℝ) : F :=
  exp (fin (bProject false s.N 0 (fun _ _ => 0) (fun _ => 0) (fun i => s.bBases i x) cs))

/-- spline_perturbation.py:224-241 `p_m1`, entry `i`: the perturbation is at the stored masses of the data set selected by the number of dimensions. -/
def PLRatio.p_m1 (m : PLRatio) (twoD : Bool) (m1 : Arr ℝ) (alpha mmin mmax : F) (cs : ℕ → ℝ) (i : ℕ) : F :=
  powerlaw_pdf (fin (m1.get i)) (-alpha) mmin mmax * perturbBy m.s cs (Real.log ((if twoD then m.m1pe else m.m1inj).get i))

/-- spline_perturbation.py:243-263 `norm_pm1q`: the trapezoidal sum over mass ratio (axis 0 of the mesh), then over mass. -/
def PLRatio.norm (m : PLRatio) (alpha mmin mmax : F) (cs : ℕ → ℝ) (beta : F) (vs : ℕ → ℝ) : F :=
  trapzF 1000 (fun j => trapzF 500 (fun i =>
      powerlaw_pdf (fin (m.ms.get j)) (-alpha) mmin mmax * perturbBy m.s cs (Real.log (m.ms.get j)) *
        powerlaw_pdf (fin (m.qs.get i)) beta (mmin / fin (m.ms.get j)) 1 * perturbBy m.sq vs (m.qs.get i))
    (fun i => fin (m.qs.get i))) (fun j => fin (m.ms.get j))

/-- spline_perturbation.py:265-282 `p_q`, entry `i`. -/
def PLRatio.p_q (m : PLRatio) (twoD : Bool) (q m1 : Arr ℝ) (beta mmin : F) (vs : ℕ → ℝ) (i : ℕ) : F :=
  powerlaw_pdf (fin (q.get i)) beta (mmin / fin (m1.get i)) 1 * perturbBy m.sq vs ((if twoD then m.qpe else m.qinj).get i)

/-- the keyword arguments of a call: the six the class knows, and the names of any others -/
structure PRKw where
  alpha : Option F := none
  beta : Option F := none
  mmin : Option F := none
  mmax : Option F := none
  cs : Option (ℕ → ℝ) := none
  vs : Option (ℕ → ℝ) := none
  others : List String := []

/-- spline_perturbation.py:284-301 `__call__`: `beta`, `mmin` (default: the stored one) and `vs` are taken out of the keywords, the others are passed on to `p_m1` first. -/
def PLRatio.call (m : PLRatio) (twoD : Bool) (m1 q : Arr ℝ) (kw : PRKw) : Except PyErr (ℕ → F) :=
  match kw.beta with
  | none => .error (.keyError "beta")
  | some beta =>
  let mmin := kw.mmin.getD (fin m.mmin)
  match kw.vs with
  | none => .error (.keyError "vs")
  | some vs =>
  match kw.alpha, kw.mmax, kw.cs, kw.others with
  | some alpha, some mmax, some cs, [] =>
    .ok fun i => m.p_m1 twoD m1 alpha mmin mmax cs i * m.p_q twoD q m1 beta mmin vs i / m.norm alpha mmin mmax cs beta vs
  | _, _, _, _ => .error .typeError

end GW
end
