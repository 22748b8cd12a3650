import Verif.Model.SplineModels

/-! # Model of the mass models of `gwinferno/models/spline_perturbation.py` -/

open Finset
noncomputable section
open Classical
namespace GW
open F

/-- spline_perturbation.py:47-55: the hand-made knot vector in log mass. -/
def plKnots (n k : ℕ) (lo hi : ℝ) : Arr ℝ :=
  let interior := linspace lo hi (n + 2 - k)
  let dx := interior.get 1 - interior.get 0
  ⟨(k - 1) + interior.len + (k - 1), fun j =>
    if j < k - 1 then lo - dx * ((k - 1 - j : ℕ) : ℝ)
    else if j < k - 1 + interior.len then interior.get (j - (k - 1))
    else hi + dx * ((j - (k - 1) - interior.len + 1 : ℕ) : ℝ)⟩

/-- spline_perturbation.py:15-61: what `PowerlawBasisSplinePrimaryPowerlawRatio` keeps: bounds, the spline (class
BSpline, no normalisation) and the stored primary masses behind the design matrices. -/
structure PLMass where
  m2min : ℝ
  mmin : ℝ
  mmax : ℝ
  s : Spline
  m1pe : Arr ℝ
  m1inj : Arr ℝ

/-- spline_perturbation.py:16-61 `__init__`; note the literal `k=4` of line 57. -/
def PLMass.make (n : ℕ) (m1pe m1inj : Arr ℝ) (mmin : ℝ := 3) (m2min : ℝ := 3) (mmax : ℝ := 100) (k : ℕ := 4) :
    Except InitErr PLMass := do
  if n + 2 < k + 2 then throw InitErr.index
  let s ← Spline.init n (some (plKnots n k (Real.log mmin) (Real.log mmax)))
    (some (linspace (Real.log mmin) (Real.log mmax) (n + 2 - k))) (Real.log mmin) (Real.log mmax) 4
  pure ⟨m2min, mmin, mmax, s, m1pe, m1inj⟩

/-- spline_perturbation.py:46. -/
def PLMass.ms (m : PLMass) : Arr ℝ := linspace m.mmin m.mmax 1000

/-- spline_perturbation.py:101, 118: `exp(interpolator.project(design matrix at log x, cs))`. -/
def PLMass.perturbation (m : PLMass) (cs : ℕ → ℝ) (x : ℝ) : F :=
  exp (fin (bProject false m.s.N 0 (fun _ _ => 0) (fun _ => 0) (fun i => m.s.bBases i (Real.log x)) cs))

/-- spline_perturbation.py:105-120 `norm_p_m1`. -/
def PLMass.norm (m : PLMass) (alpha mmin mmax : F) (cs : ℕ → ℝ) : F :=
  trapzF m.ms.len (fun j => powerlaw_pdf (fin (m.ms.get j)) (-alpha) mmin mmax * m.perturbation cs (m.ms.get j))
    (fun j => fin (m.ms.get j))

/-- spline_perturbation.py:63-83 `smoothing(ms, mmin, delta_m)`, entry by entry (the object itself is not used). -/
def massSmoothing (ms mmin delta_m : F) : F :=
  let sm := ms - mmin
  let window := if gt sm 0 ∧ lt sm delta_m then 1 / (exp (delta_m / sm + delta_m / (sm - delta_m)) + 1) else 1
  let window := if isinf window ∨ isnan window then 1 else window
  if le ms mmin then 0 else window

/-- spline_perturbation.py:85-103 `p_m1`, entry `i`: `m1` is the caller's array, the perturbation is at the stored
masses of the data set selected by the number of dimensions. -/
def PLMass.p_m1 (m : PLMass) (twoD : Bool) (m1 : Arr ℝ) (alpha mmin mmax : F) (cs : ℕ → ℝ) (i : ℕ) : F :=
  powerlaw_pdf (fin (m1.get i)) (-alpha) mmin mmax *
    m.perturbation cs ((if twoD then m.m1pe else m.m1inj).get i) / m.norm alpha mmin mmax cs

/-- spline_perturbation.py:122-135 `p_q`. -/
def PLMass.p_q (m : PLMass) (q m1 beta : F) : F := powerlaw_pdf q beta (fin m.m2min / m1) 1

/-- spline_perturbation.py:137-150 `__call__`, entry `i`. -/
def PLMass.call (m : PLMass) (twoD : Bool) (m1 q : Arr ℝ) (alpha beta mmin mmax : F) (cs : ℕ → ℝ) (i : ℕ) : F :=
  m.p_m1 twoD m1 alpha mmin mmax cs i * m.p_q (fin (q.get i)) (fin (m1.get i)) beta

/-! ### PowerlawBasisSplinePrimaryRatio (spline_perturbation.py:153-222) -/

/-- The attributes assigned by `__init__` before line 220, in order, and the one read on line 220. -/
def primaryRatioAssigned : List String :=
  ["n_splines_m", "n_splines_q", "mmin", "mmax", "ms", "qs", "mm", "qq", "knotsm", "knotsq", "interpolator",
   "pe_design_matrix", "inj_design_matrix", "dmats", "qinterpolator", "qpe_design_matrix", "qinj_design_matrix", "qdmats"]

/-- Ways the constructor raises. -/
inductive PRErr | init (e : InitErr) | attribute (name : String)

/-- spline_perturbation.py:154-222 `__init__`: both splines are built (202-219), then line 220 reads `self.qknots`,
which raises unless some earlier statement assigned it.  The class has no such class attribute or property. -/
def primaryRatioInit (nm nq : ℕ) (mmin mmax : ℝ) (k : ℕ) : Except PRErr Unit := do
  if nm + 2 < k + 2 then throw (.init .index)
  if nq + 2 < k + 2 then throw (.init .index)
  match Spline.init nm (some (plKnots nm k (Real.log mmin) (Real.log mmax))) none (Real.log mmin) (Real.log mmax) 4 with
  | .error e => throw (.init e)
  | .ok _ =>
  match Spline.init nq (some (plKnots nq k 0 1)) none 0 1 4 with
  | .error e => throw (.init e)
  | .ok _ =>
  if "qknots" ∈ primaryRatioAssigned then pure () else throw (.attribute "qknots")

end GW
end
