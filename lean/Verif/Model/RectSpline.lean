import Verif.Model.Interpolation
import Mathlib.Analysis.SpecialFunctions.Exp

/-! # Model of `RectBivariateBasisSpline` (gwinferno/interpolation.py:452-552) -/

open Finset
noncomputable section
namespace GW

/-- Python exceptions that occur in this class. -/
inductive RectErr
  /-- a component constructor raised -/
  | component (e : InitErr)
  /-- `AttributeError: object has no attribute name` -/
  | attribute (name : String)
  deriving DecidableEq

/-- Attributes an instance has when `bases` runs: the methods of the class body (interpolation.py:453, 493, 505, 509, 528,
541) and what `__init__` assigns (lines 478-488). -/
def rectAttrs : List String :=
  ["__init__", "norm_2d", "_reset_bases", "bases", "_project", "project",
   "xdf", "ydf", "x_interpolator", "y_interpolator", "normalize", "x_bases", "y_bases", "gridx", "gridy", "gxx", "gyy"]

/-- Python attribute lookup `self.name`. -/
def getAttr (attrs : List String) (name : String) : Except RectErr Unit :=
  if name ∈ attrs then .ok () else .error (.attribute name)

/-- An instance: dimensions and the two 1-D design-matrix functions (component `i` at a point). -/
structure Rect where
  xdf : ℕ
  ydf : ℕ
  xb : ℕ → ℝ → ℝ
  yb : ℕ → ℝ → ℝ
  normalize : Bool

/-- interpolation.py:521-523: the nested list has shape `(ydf, xdf)` — row `j`, column `i` holds `x_i * y_j` — and is
then reshaped (C order) to `(xdf, ydf)`: entry `(a, b)` is the flat element number `a*ydf + b`. -/
def Rect.out (r : Rect) (x y : ℝ) (a b : ℕ) : ℝ :=
  r.xb ((a * r.ydf + b) % r.xdf) x * r.yb ((a * r.ydf + b) / r.xdf) y

/-- interpolation.py:509-526 `bases(xs, ys)` at one point, for an instance with the given attribute names:
line 525 is `self.reset_bases()`. -/
def Rect.basesWith (attrs : List String) (r : Rect) (x y : ℝ) : Except RectErr (ℕ → ℕ → ℝ) := do
  let out := r.out x y
  getAttr attrs "reset_bases"
  return out

/-- `bases` of the class as it exists. -/
def Rect.bases (r : Rect) (x y : ℝ) : Except RectErr (ℕ → ℕ → ℝ) := r.basesWith rectAttrs x y

/-- interpolation.py:453-491 `__init__` with BSpline components; with `normalize` it evaluates `bases` on the grid
(line 491; here at the first grid point). -/
def Rect.init (xdf ydf : ℕ) (xlo xhi ylo yhi : ℝ) (kx ky : ℕ) (normalize : Bool) : Except RectErr Rect :=
  match Spline.init xdf none none xlo xhi kx with
  | .error e => .error (.component e)
  | .ok sx => match Spline.init ydf none none ylo yhi ky with
    | .error e => .error (.component e)
    | .ok sy =>
      let r : Rect := ⟨xdf, ydf, sx.bBases, sy.bBases, normalize⟩
      if normalize then (r.bases xlo ylo).map (fun _ => r) else .ok r

/-- interpolation.py:528-539 `_project`: `exp(einsum("ij...,ij->...", bases, coefs))`. -/
def Rect.project_ (r : Rect) (B c : ℕ → ℕ → ℝ) : ℝ :=
  Real.exp (∑ i ∈ range r.xdf, ∑ j ∈ range r.ydf, B i j * c i j)

end GW
end
