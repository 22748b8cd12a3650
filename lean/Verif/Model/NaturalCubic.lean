import Verif.Arr
import Mathlib.LinearAlgebra.Matrix.NonsingularInverse

/-! # Model of `NaturalCubicUnivariateSpline` (gwinferno/interpolation.py:13-69) -/

open Matrix
noncomputable section
namespace GW

/-- interpolation.py:24 `h = jnp.diff(x)` (also line 25 `p = jnp.diff(y)`). -/
def diff (x : ℕ → ℝ) (i : ℕ) : ℝ := x (i + 1) - x i

/-- interpolation.py:30-31 main diagonal `concatenate((1, 2*(h[:-1]+h[1:]), 1))`, entry `i`. -/
def natDiag (n : ℕ) (x : ℕ → ℝ) (i : ℕ) : ℝ :=
  if i = 0 then 1 else if i < n - 1 then 2 * (diff x (i - 1) + diff x i) else 1

/-- interpolation.py:32 first upper diagonal `concatenate((0, h[1:]))`, entry `i`. -/
def natUpper (x : ℕ → ℝ) (i : ℕ) : ℝ := if i = 0 then 0 else diff x i

/-- interpolation.py:34 first lower diagonal `concatenate((h[:-1], -1))`, entry `j` (row `j+1`). -/
def natLower (n : ℕ) (x : ℕ → ℝ) (j : ℕ) : ℝ := if j < n - 2 then diff x j else -1

/-- interpolation.py:31-36 the matrix `A`: sum of the diagonal, the first upper and the first lower diagonal.  The second
upper and lower diagonals (lines 33, 35) consist of zeros only. -/
def natMatrix (n : ℕ) (x : ℕ → ℝ) : Matrix (Fin n) (Fin n) ℝ := fun i j =>
  (if i.1 = j.1 then natDiag n x i else 0) + (if j.1 = i.1 + 1 then natUpper x i else 0)
    + (if i.1 = j.1 + 1 then natLower n x j else 0)

/-- interpolation.py:37-38 the right-hand side `s = concatenate((0, 3*(p[1:]/h[1:] - p[:-1]/h[:-1]), 0))`. -/
def natRhs (n : ℕ) (x y : ℕ → ℝ) : Fin n → ℝ := fun i =>
  if i.1 = 0 then 0
  else if i.1 < n - 1 then 3 * (diff y i / diff x i - diff y (i - 1) / diff x (i - 1)) else 0

/-- What the object stores (interpolation.py:40-41). -/
structure NatSpline where
  /-- `len(self._x)` -/
  n : ℕ
  /-- `self._x` -/
  x : ℕ → ℝ
  /-- `self._y` -/
  y : ℕ → ℝ
  /-- `self._coefficients` -/
  c : ℕ → ℝ

/-- interpolation.py:20-41 `NaturalCubicUnivariateSpline.__init__(x, y)` without user coefficients.  Both assertions
are errors (`false` = lengths differ, `true` = not enough points).  `jnp.linalg.solve(A, s)` is `A⁻¹ s`; for a singular
matrix JAX returns non-finite numbers, C13 shows it is never singular for increasing `x`. -/
def NatSpline.init (x y : Arr ℝ) : Except Bool NatSpline :=
  if x.len ≠ y.len then .error false
  else if ¬ 3 < x.len then .error true
  else
    let c := (natMatrix x.len x.get)⁻¹ *ᵥ natRhs x.len x.get y.get
    .ok ⟨x.len, x.get, y.get, fun i => if h : i < x.len then c ⟨i, h⟩ else 0⟩

/-- interpolation.py:57-58 `ind = clip(digitize(xs, knots) - 1, 0, len(knots) - 2)`; `digitize` counts the knots `≤ x`
(truncated subtraction gives the lower clip). -/
def NatSpline.ind (s : NatSpline) (z : ℝ) : ℕ := min (countLE s.n s.x z - 1) (s.n - 2)

/-- interpolation.py:59-67 and 52-53: `a + b*t + c*t**2 + d*t**3` with the coefficients of cell `i`. -/
def NatSpline.piece (s : NatSpline) (i : ℕ) (z : ℝ) : ℝ :=
  let t := z - s.x i
  let h := diff s.x i
  let c := s.c i
  let c1 := s.c (i + 1)
  let a := s.y i
  let a1 := s.y (i + 1)
  let b := (a1 - a) / h - (2 * c + c1) * h / 3
  let d := (c1 - c) / (3 * h)
  a + b * t + c * t ^ 2 + d * t ^ 3

/-- interpolation.py:51-53 `__call__`. -/
def NatSpline.eval (s : NatSpline) (z : ℝ) : ℝ := s.piece (s.ind z) z

end GW
end
