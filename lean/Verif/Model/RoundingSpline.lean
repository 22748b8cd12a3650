import Verif.Model.Rounding
import Verif.Model.Interpolation

/-!
# Model of the basis splines in rounded arithmetic

The functions of `gwinferno/interpolation.py` as in `Verif.Model.Interpolation`, but with floating-point knots, points and coefficients of one format: the result of every
operation is rounded (`Arith.r`, see `Verif.Model.Rounding`).  What is assumed about rounding and library is stated in the properties, not here.
Not modelled: fused operations of the compiled code, and knots given as an array of another format than the points.
-/

noncomputable section
open Classical
namespace GW
open F

/-- interpolation.py:128-149 `BasisSpline._basis(xs, i, k)` at one point `x` with rounded operations (compare `basis`).  The literal `1e-6` is rounded to the format of the
knots; the orders `k` and `k - 1` are small integers, hence exact. -/
def basisR (f : Arith) (t : ℕ → ℝ) (x : ℝ) : ℕ → ℕ → F
  | 0, _ => 0
  | 1, i =>
    let gap := f.r (fin (t (i + 1)) - fin (t i))
    if lt gap (f.rd knotEps) then 0
    else if t i ≤ x ∧ x < t (i + 1) then f.r (1 / gap) else 0
  | k + 2, i =>
    let gap := f.r (fin (t (i + (k + 2))) - fin (t i))
    if lt gap (f.rd knotEps) then 0
    else
      let v := f.r (f.r (f.r (fin x - fin (t i)) * basisR f t x (k + 1) i)
        + f.r (f.r (fin (t (i + (k + 2))) - fin x) * basisR f t x (k + 1) (i + 1)))
      f.r (f.r (v * fin ((k : ℝ) + 2)) / f.r (fin ((k : ℝ) + 1) * gap))

/-- interpolation.py:268-278 `BSpline._bases`, component `i`, with rounded operations (compare `Spline.bBase`) -/
def Spline.bBaseR (f : Arith) (s : Spline) (i : ℕ) (x : ℝ) : F :=
  f.r (f.r (f.r (fin (s.knots.get (i + s.order)) - fin (s.knots.get i)) / fin s.order) * basisR f s.knots.get x s.order i)

/-- interpolation.py:163-175 `BSpline.bases`, component `i`: zero outside the range (compare `Spline.bBases`) -/
def Spline.bBasesR (f : Arith) (s : Spline) (i : ℕ) (x : ℝ) : F := if s.outside x then 0 else s.bBaseR f i x

/-- `jnp.einsum("i...,i->...", bases, coefs)` at one point, the products rounded and added in the order `o` -/
def einsumR (f : Arith) {N : ℕ} (o : RTree N) (bases coefs : ℕ → F) : F := f.sum (fun i => f.r (bases i * coefs i)) o

/-- interpolation.py:396-407 `LogYBSpline.bases`, component `i` (compare `Spline.logYBases`) -/
def Spline.logYBasesR (f : Arith) (s : Spline) (i : ℕ) (x : ℝ) : F := if s.outside x then ninf else s.bBasesR f i x

/-- interpolation.py:381-394 `LogYBSpline._project(bases(x), coefs)` (compare `logYProject`) -/
def Spline.logYProjectR (f : Arith) (s : Spline) (o : RTree s.N) (coefs : ℕ → F) (x : ℝ) : F :=
  f.exp (nanToNumLogY (einsumR f o (fun i => s.logYBasesR f i x) coefs))

/-- `jax.scipy.integrate.trapezoid(y, x)` on `n + 1` points, the areas added in the order `o` (compare `trapzF`) -/
def trapzR (f : Arith) {n : ℕ} (o : RTree n) (y : ℕ → F) (x : ℕ → ℝ) : F :=
  f.r (fin 0.5 * f.sum (fun i => f.r (f.r (fin (x (i + 1)) - fin (x i)) * f.r (y (i + 1) + y i))) o)

/-- `LogYBSpline.eval(x, coefs)` with `normalize=True` (interpolation.py:209-220, 280-291, 306-317; compare `Spline.logYEval`).  `grid` is the stored array `self.grid` of `n + 1` points;
`o` is the order of the sum over components, `og` the one over the grid. -/
def Spline.logYEvalR (f : Arith) (s : Spline) (o : RTree s.N) {n : ℕ} (og : RTree n) (grid : ℕ → ℝ) (coefs : ℕ → F) (x : ℝ) : F :=
  f.r (s.logYProjectR f o coefs x * f.r (1 / trapzR f og (fun j => s.logYProjectR f o coefs (grid j)) grid))

end GW
end
