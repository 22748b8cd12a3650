import Verif.Arr

/-!
# Model of `gwinferno/interpolation.py` — basis splines

`BasisSpline`, `BSpline`, `LogXBSpline`, `LogYBSpline`, `LogXLogYBSpline`.
All vectorised functions are modelled at one evaluation point (they act elementwise on `xs`).
-/

open Finset
noncomputable section
open Classical

namespace GW

/-- The literal `1e-6` of interpolation.py:141. -/
def knotEps : ℝ := 1 / 1000000

/-- interpolation.py:128-149 `BasisSpline._basis(xs, i, k)` at one point `x`, knots `t`:
* gap `t[i+k]-t[i] < 1e-6` → zeros,
* `k == 1` → `1/(t[i+1]-t[i])` on `t[i] ≤ x < t[i+1]`, else 0,
* else the Cox–de Boor step `k*((x-t[i])*M_{i,k-1} + (t[i+k]-x)*M_{i+1,k-1}) / ((k-1)*(t[i+k]-t[i]))`.
`k = 0` takes the first branch in the code too (`t[i]-t[i] = 0 < 1e-6`).
Simplification: floating-point input arrays (an integer-typed `xs` is modelled in Model/IntegerPoints.lean). -/
def basis (t : ℕ → ℝ) (x : ℝ) : ℕ → ℕ → ℝ
  | 0, _ => 0
  | 1, i =>
    if t (i + 1) - t i < knotEps then 0
    else if t i ≤ x ∧ x < t (i + 1) then 1 / (t (i + 1) - t i) else 0
  | k + 2, i =>
    if t (i + (k + 2)) - t i < knotEps then 0
    else ((x - t i) * basis t x (k + 1) i + (t (i + (k + 2)) - x) * basis t x (k + 1) (i + 1)) * ((k : ℝ) + 2)
      / (((k : ℝ) + 1) * (t (i + (k + 2)) - t i))

/-- What the spline object stores (interpolation.py:95-106): order, number of basis functions, domain, knots. -/
structure Spline where
  /-- `self.order` -/
  order : ℕ
  /-- `self.N` -/
  N : ℕ
  /-- `self.xrange` -/
  lo : ℝ
  hi : ℝ
  /-- `self.knots` -/
  knots : Arr ℝ

/-- Ways construction can raise. -/
inductive InitErr
  /-- `interior_knots[1]` on an array with fewer than two entries, or `np.linspace` with a negative count -/
  | index
  /-- `assert len(self.knots) == self.N + self.order` (interpolation.py:106) -/
  | assertion
  deriving DecidableEq

/-- interpolation.py:98-102: the knots used when `knots is None`, for `m` interior knots with first spacing `dx`:
`linspace(lo - dx*(k-1), hi + dx*(k-1), m + (k-1)*2)`. -/
def extendKnots (lo hi dx : ℝ) (m k : ℕ) : Arr ℝ :=
  linspace (lo - dx * ((k : ℝ) - 1)) (hi + dx * ((k : ℝ) - 1)) (m + (k - 1) * 2)

/-- interpolation.py:73-106 `BasisSpline.__init__` up to and including the length assertion.
`interior_knots` only enters through its length and its first two entries (lines 101-102).
Simplification: `k ≥ 1` (the natural-number subtraction `k - 1`). -/
def Spline.init (nDf : ℕ) (knots interior : Option (Arr ℝ)) (lo hi : ℝ) (k : ℕ) : Except InitErr Spline := do
  let kn ← match knots with
    | some kn => pure kn
    | none => do
      let ik ← match interior with
        | some ik => pure ik
        | none => if nDf + 2 < k then throw InitErr.index else pure (linspace lo hi (nDf + 2 - k))
      if ik.len < 2 then throw InitErr.index
      let dx := ik.get 1 - ik.get 0
      pure (extendKnots lo hi dx ik.len k)
  if kn.len = nDf + k then pure ⟨k, nDf, lo, hi, kn⟩ else throw InitErr.assertion

/-- interpolation.py:175 the condition `jnp.less(xs, xrange[0]) | jnp.greater(xs, xrange[1])`. -/
def Spline.outside (s : Spline) (x : ℝ) : Prop := x < s.lo ∨ x > s.hi

/-- interpolation.py:151-161 `BasisSpline._bases`, component `i` (M-spline). -/
def Spline.mBase (s : Spline) (i : ℕ) (x : ℝ) : ℝ := basis s.knots.get x s.order i

/-- interpolation.py:163-175 `BasisSpline.bases`, component `i`: zero outside the range. -/
def Spline.mBases (s : Spline) (i : ℕ) (x : ℝ) : ℝ := if s.outside x then 0 else s.mBase i x

/-- interpolation.py:268-278 `BSpline._bases`, component `i`: `(t[i+k]-t[i])/k * M_i`. -/
def Spline.bBase (s : Spline) (i : ℕ) (x : ℝ) : ℝ :=
  (s.knots.get (i + s.order) - s.knots.get i) / s.order * basis s.knots.get x s.order i

/-- interpolation.py:163-175 with BSpline's `_bases`: `BSpline.bases`, component `i`. -/
def Spline.bBases (s : Spline) (i : ℕ) (x : ℝ) : ℝ := if s.outside x then 0 else s.bBase i x

/-- `jnp.einsum("i...,i->...", bases, coefs)` at one point (interpolation.py:207, 304), finite data. -/
def einsum (N : ℕ) (bases coefs : ℕ → ℝ) : ℝ := ∑ i ∈ range N, bases i * coefs i

/-- interpolation.py:110-113 `BasisSpline.basis_vols`: trapezoid of each grid basis row.
`gb i j` is `grid_bases[i, j]`, `n` the grid length. -/
def basisVols (n : ℕ) (gb : ℕ → ℕ → ℝ) (grid : ℕ → ℝ) (i : ℕ) : ℝ := trapz n (gb i) grid

/-- interpolation.py:115-126 `BasisSpline.norm(coefs)`, real part (finite non-zero denominator in the theorems). -/
def mNorm (normalize : Bool) (N : ℕ) (vols coefs : ℕ → ℝ) : ℝ :=
  if normalize then 1 / ∑ i ∈ range N, vols i * coefs i else 1

/-- interpolation.py:195-207 `BasisSpline.project`: `coefs /= sum(coefs)`, then `einsum * norm(coefs)`. -/
def mProject (normalize : Bool) (N : ℕ) (vols bases coefs : ℕ → ℝ) : ℝ :=
  let c := fun i => coefs i / ∑ j ∈ range N, coefs j
  einsum N bases c * mNorm normalize N vols c

/-- interpolation.py:280-291 `BSpline.norm(coefs)`: `1 / trapezoid(_project(grid_bases, coefs), grid)`. -/
def bNorm (normalize : Bool) (N n : ℕ) (gb : ℕ → ℕ → ℝ) (grid coefs : ℕ → ℝ) : ℝ :=
  if normalize then 1 / trapz n (fun j => einsum N (fun i => gb i j) coefs) grid else 1

/-- interpolation.py:306-317 `BSpline.project` = `_project * norm`. -/
def bProject (normalize : Bool) (N n : ℕ) (gb : ℕ → ℕ → ℝ) (grid bases coefs : ℕ → ℝ) : ℝ :=
  einsum N bases coefs * bNorm normalize N n gb grid coefs

/-- interpolation.py:111, 378: the BasisSpline/BSpline/LogYBSpline normalisation grid `linspace(*xrange, 1000)`. -/
def Spline.grid (s : Spline) : Arr ℝ := linspace s.lo s.hi 1000

/-- `BSpline.eval(xs, coefs)` (interpolation.py:209-220) for a normalised or un-normalised BSpline:
`project(bases(xs), coefs)` with the grid bases computed from the spline itself (lines 110-112). -/
def Spline.bEval (s : Spline) (normalize : Bool) (coefs : ℕ → ℝ) (x : ℝ) : ℝ :=
  bProject normalize s.N s.grid.len (fun i j => s.bBases i (s.grid.get j)) s.grid.get
    (fun i => s.bBases i x) coefs

/-- `BasisSpline.eval(xs, coefs)` (interpolation.py:209-220). -/
def Spline.mEval (s : Spline) (normalize : Bool) (coefs : ℕ → ℝ) (x : ℝ) : ℝ :=
  mProject normalize s.N
    (basisVols s.grid.len (fun i j => s.mBases i (s.grid.get j)) s.grid.get)
    (fun i => s.mBases i x) coefs

/-! ### LogXBSpline -/

/-- interpolation.py:335-338 `LogXBSpline.__init__`: knots, interior knots and xrange are replaced by their logs
before calling the parent constructor.  (Positive inputs; `np.log` of a non-positive bound is outside the model.) -/
def logXInit (nDf : ℕ) (knots interior : Option (Arr ℝ)) (lo hi : ℝ) (k : ℕ) : Except InitErr Spline :=
  Spline.init nDf (knots.map fun a => ⟨a.len, fun i => Real.log (a.get i)⟩)
    (interior.map fun a => ⟨a.len, fun i => Real.log (a.get i)⟩) (Real.log lo) (Real.log hi) k

/-- interpolation.py:346-357 `LogXBSpline.bases(xs)` = `super().bases(log(xs))` at one positive point. -/
def Spline.logXBases (s : Spline) (i : ℕ) (x : ℝ) : ℝ := s.bBases i (Real.log x)

/-- interpolation.py:343 the LogX normalisation grid `linspace(*exp(xrange), 1000)`. -/
def Spline.logXGrid (s : Spline) : Arr ℝ := linspace (Real.exp s.lo) (Real.exp s.hi) 1000

/-- `LogXBSpline.eval` (interpolation.py:209-220, 306-317, 340-344). -/
def Spline.logXEval (s : Spline) (normalize : Bool) (coefs : ℕ → ℝ) (x : ℝ) : ℝ :=
  bProject normalize s.N s.logXGrid.len (fun i j => s.logXBases i (s.logXGrid.get j)) s.logXGrid.get
    (fun i => s.logXBases i x) coefs

/-- `LogXBSpline.bases` at an arbitrary float, over `F` (used for non-positive `x`, where `log` is not finite):
`where(less(lx, lo) | greater(lx, hi), 0, design)`, `design` being the basis at a finite point,
and for `lx = ±inf`/`nan` the recursion evaluated on it.  For `lx = nan` every comparison in the innermost
`k = 1` branch is false, so the innermost values are 0, but each recursion step multiplies by `(x - t)` = nan:
the result is nan for `k ≥ 2` (unless the outermost gap is degenerate) and 0 for `k = 1`
(interpolation.py:141-149).  `lx = ±inf` never gets past the range test.  -/
def Spline.logXBasesF (s : Spline) (i : ℕ) (x : F) : F :=
  let lx := F.log x
  if F.lt lx (F.fin s.lo) ∨ F.gt lx (F.fin s.hi) then F.fin 0
  else match lx with
    | F.fin y => F.fin (s.bBase i y)
    | _ => if s.order ≤ 1 ∨ s.knots.get (i + s.order) - s.knots.get i < knotEps then F.fin 0 else F.nan

/-! ### LogYBSpline and LogXLogYBSpline (values over `F`, because -inf is used as a marker) -/

/-- interpolation.py:396-407 `LogYBSpline.bases`, component `i`: `-inf` out of range. -/
def Spline.logYBases (s : Spline) (i : ℕ) (x : ℝ) : F :=
  if s.outside x then F.ninf else F.fin (s.bBases i x)

/-- `jnp.einsum("i...,i->...", bases, coefs)` on model floats. -/
def einsumF (N : ℕ) (bases coefs : ℕ → F) : F := ∑ i ∈ range N, bases i * coefs i

/-- `jnp.nan_to_num(v, nan=-inf, posinf=-inf)` (interpolation.py:393): nan and +inf become -inf;
`neginf` is left at its default, which maps -inf to the most negative finite float. -/
def nanToNumLogY : F → F
  | F.fin x => F.fin x
  | F.pinf => F.ninf
  | F.ninf => F.fin (-F.BIG)
  | F.nan => F.ninf

/-- `jnp.exp` at the most negative finite float underflows to exactly 0 (`exp(-3.4e38) = 0`); this is the one
place where the code relies on underflow, so it is modelled here.  Elsewhere `exp` is exact. -/
def expUnderflow : F → F
  | F.fin x => if x ≤ -F.BIG then F.fin 0 else F.fin (Real.exp x)
  | v => F.exp v

/-- interpolation.py:381-394 `LogYBSpline._project`. -/
def logYProject (N : ℕ) (bases coefs : ℕ → F) : F := expUnderflow (nanToNumLogY (einsumF N bases coefs))

/-- interpolation.py:280-291 `norm` with LogY's `_project`. -/
def logYNorm (normalize : Bool) (N n : ℕ) (gb : ℕ → ℕ → F) (grid : ℕ → ℝ) (coefs : ℕ → F) : F :=
  if normalize then F.fin 1 / trapzF n (fun j => logYProject N (fun i => gb i j) coefs) (fun j => F.fin (grid j))
  else F.fin 1

/-- `LogYBSpline.eval(xs, coefs)` (interpolation.py:209-220, 306-317, 375-379). -/
def Spline.logYEval (s : Spline) (normalize : Bool) (coefs : ℕ → F) (x : ℝ) : F :=
  logYProject s.N (fun i => s.logYBases i x) coefs *
    logYNorm normalize s.N s.grid.len (fun i j => s.logYBases i (s.grid.get j)) s.grid.get coefs

/-- interpolation.py:436-449 `LogXLogYBSpline.bases` at a positive point. -/
def Spline.logXYBases (s : Spline) (i : ℕ) (x : ℝ) : F :=
  if s.outside (Real.log x) then F.ninf else s.logYBases i (Real.log x)

/-- interpolation.py:433 the LogXLogY normalisation grid `linspace(*exp(xrange), 1500)`. -/
def Spline.logXYGrid (s : Spline) : Arr ℝ := linspace (Real.exp s.lo) (Real.exp s.hi) 1500

/-- `LogXLogYBSpline.eval(xs, coefs)`. -/
def Spline.logXYEval (s : Spline) (normalize : Bool) (coefs : ℕ → F) (x : ℝ) : F :=
  logYProject s.N (fun i => s.logXYBases i x) coefs *
    logYNorm normalize s.N s.logXYGrid.len (fun i j => s.logXYBases i (s.logXYGrid.get j)) s.logXYGrid.get coefs

end GW
end
