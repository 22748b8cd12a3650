import Verif.Model.Interpolation

/-!
# Model of the splines of `gwinferno/interpolation.py` at integer-typed points

The innermost basis functions are stored in an array made by `np.zeros_like(xs)`, which has the type of `xs`.  If `xs` holds integers, the stored
value `1/(knots[i+1]-knots[i])` loses its fractional part.  The splines in log x are not concerned: `jnp.log(xs)` is of floating-point type
(interpolation.py:357, 449).
-/

open Finset
noncomputable section
open Classical

namespace GW

/-- interpolation.py:128-149 `BasisSpline._basis(xs, i, k)` at one point of an integer array: as `basis`, but in lines 144-145 the value is
assigned to an integer array (it is positive there, so that truncation is the floor). -/
def basisInt (t : ℕ → ℝ) (x : ℤ) : ℕ → ℕ → ℝ
  | 0, _ => 0
  | 1, i =>
    if t (i + 1) - t i < knotEps then 0
    else if t i ≤ x ∧ x < t (i + 1) then (⌊1 / (t (i + 1) - t i)⌋ : ℤ) else 0
  | k + 2, i =>
    if t (i + (k + 2)) - t i < knotEps then 0
    else ((x - t i) * basisInt t x (k + 1) i + (t (i + (k + 2)) - x) * basisInt t x (k + 1) (i + 1)) * ((k : ℝ) + 2)
      / (((k : ℝ) + 1) * (t (i + (k + 2)) - t i))

/-- interpolation.py:151-175 `BasisSpline.bases` at an integer point -/
def Spline.mBasesInt (s : Spline) (i : ℕ) (x : ℤ) : ℝ := if s.outside x then 0 else basisInt s.knots.get x s.order i

/-- interpolation.py:163-175, 268-278 `BSpline.bases` at an integer point -/
def Spline.bBasesInt (s : Spline) (i : ℕ) (x : ℤ) : ℝ :=
  if s.outside x then 0 else (s.knots.get (i + s.order) - s.knots.get i) / s.order * basisInt s.knots.get x s.order i

/-- `BasisSpline.eval` (interpolation.py:209-220) at an integer point; the normalisation grid is of floating-point type. -/
def Spline.mEvalInt (s : Spline) (normalize : Bool) (coefs : ℕ → ℝ) (x : ℤ) : ℝ :=
  mProject normalize s.N (basisVols s.grid.len (fun i j => s.mBases i (s.grid.get j)) s.grid.get) (fun i => s.mBasesInt i x) coefs

/-- `BSpline.eval` (interpolation.py:209-220) at an integer point; the normalisation grid is of floating-point type. -/
def Spline.bEvalInt (s : Spline) (normalize : Bool) (coefs : ℕ → ℝ) (x : ℤ) : ℝ :=
  bProject normalize s.N s.grid.len (fun i j => s.bBases i (s.grid.get j)) s.grid.get (fun i => s.bBasesInt i x) coefs

/-- interpolation.py:396-407 `LogYBSpline.bases` at an integer point -/
def Spline.logYBasesInt (s : Spline) (i : ℕ) (x : ℤ) : F := if s.outside x then F.ninf else F.fin (s.bBasesInt i x)

/-- `LogYBSpline.eval` (interpolation.py:209-220, 306-317, 375-394) at an integer point -/
def Spline.logYEvalInt (s : Spline) (normalize : Bool) (coefs : ℕ → F) (x : ℤ) : F :=
  logYProject s.N (fun i => s.logYBasesInt i x) coefs *
    logYNorm normalize s.N s.grid.len (fun i j => s.logYBases i (s.grid.get j)) s.grid.get coefs

end GW
end
