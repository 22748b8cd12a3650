import Verif.Arr
import Mathlib.Analysis.SpecialFunctions.Trigonometric.Inverse
import Mathlib.Analysis.SpecialFunctions.Pow.Real

/-!
# Model of `gwinferno/numpyro_distributions.py`

Arguments that a caller supplies are real numbers (finite floats); results are model floats wherever a special value
can come out.  Batch shapes and the `numpyro.Distribution` base class (argument validation, PRNG keys) are not
modelled here; `sample` and `support` are in `NumpyroSampling.lean`.
-/

open Finset
noncomputable section
open Classical
namespace GW
open F

/-- `jnp.arccos`: NaN outside `[-1,1]`. -/
def arccosF : F → F
  | fin x => if -1 ≤ x ∧ x ≤ 1 then fin (Real.arccos x) else nan
  | _ => nan

/-- `jnp.arcsin`: NaN outside `[-1,1]`. -/
def arcsinF : F → F
  | fin x => if -1 ≤ x ∧ x ≤ 1 then fin (Real.arcsin x) else nan
  | _ => nan

/-- numpyro_distributions.py:20-24 `cumtrapz(y, x)` on `n` entries.  Entry `j` of `idxs` is `j+1`, so cell `j` uses
`y[j+1] + y[j+2]`; the out-of-range read of the last cell is clamped to `y[n-1]`, as `dynamic_slice` does. -/
def cumtrapz (n : ℕ) (y x : ℕ → ℝ) : ℕ → ℝ :=
  fun k => ∑ j ∈ range k, (x (j + 1) - x j) * (y (Nat.min (j + 1) (n - 1)) + y (Nat.min (j + 2) (n - 1))) / 2

/-! ### Sine, Cosine -/

/-- numpyro_distributions.py:48-51 `Sine.log_prob`. -/
def sine_log_prob (_minimum _maximum value : ℝ) : F :=
  let lp := log (fin (Real.sin value) / 2)
  if isnan lp then ninf else lp

/-- numpyro_distributions.py:53-57 `Sine.cdf` (`atleast_1d` only changes the shape). -/
def sine_cdf (minimum maximum value : ℝ) : F :=
  let cdf := (fin (Real.cos value) - fin (Real.cos minimum)) / (fin (Real.cos maximum) - fin (Real.cos minimum))
  let cdf := if lt (fin value) (fin minimum) then 0 else cdf
  if gt (fin value) (fin maximum) then 1 else cdf

/-- numpyro_distributions.py:59-61 `Sine.icdf`. -/
def sine_icdf (minimum maximum q : ℝ) : F :=
  let norm := fin (Real.cos minimum) - fin (Real.cos maximum)
  arccosF (fin (Real.cos minimum) - fin q * norm)

/-- numpyro_distributions.py:85-88 `Cosine.log_prob`. -/
def cosine_log_prob (_minimum _maximum value : ℝ) : F :=
  let lp := log (fin (Real.cos value) / 2)
  if isnan lp then ninf else lp

/-- numpyro_distributions.py:90-94 `Cosine.cdf`. -/
def cosine_cdf (minimum maximum value : ℝ) : F :=
  let cdf := (fin (Real.sin value) - fin (Real.sin minimum)) / (fin (Real.sin maximum) - fin (Real.sin minimum))
  let cdf := if lt (fin value) (fin minimum) then 0 else cdf
  if gt (fin value) (fin maximum) then 1 else cdf

/-- numpyro_distributions.py:96-98 `Cosine.icdf`. -/
def cosine_icdf (minimum maximum q : ℝ) : F :=
  let norm := fin (Real.sin minimum) - fin (Real.sin maximum)
  arcsinF (fin (Real.sin minimum) - fin q * norm)

/-! ### Powerlaw -/

/-- numpyro_distributions.py:127-136 `Powerlaw.log_prob`. -/
def pl_log_prob (alpha minimum maximum value : F) : F :=
  let logp := alpha * log value
  let logp := logp + log ((1 + alpha) / (pow maximum (1 + alpha) - pow minimum (1 + alpha)))
  let logp_neg1 := -log value - log (maximum / minimum)
  if lt value minimum ∨ gt value maximum then nanToNum ninf
  else if feq alpha (-1) then logp_neg1 else logp

/-- numpyro_distributions.py:138-146 `Powerlaw.cdf`. -/
def pl_cdf (alpha minimum maximum value : F) : F :=
  let cdf := (pow value (alpha + 1) - pow minimum (alpha + 1)) / (pow maximum (alpha + 1) - pow minimum (alpha + 1))
  let cdf_neg1 := log (value / minimum) / log (maximum / minimum)
  let cdf := if feq alpha (-1) then cdf_neg1 else cdf
  let cdf := F.min cdf 1
  F.max cdf 0

/-- numpyro_distributions.py:148-153 `Powerlaw.icdf`. -/
def pl_icdf (alpha minimum maximum q : F) : F :=
  let icdf := pow (pow minimum (1 + alpha) + q * (pow maximum (1 + alpha) - pow minimum (1 + alpha))) (1 / (1 + alpha))
  let icdf_neg1 := minimum * exp (q * log (maximum / minimum))
  if feq alpha (-1) then icdf_neg1 else icdf

/-! ### Gridded distributions -/

/-- numpyro_distributions.py:163-177 `PowerlawRedshift.__init__`: the stored tables.
`n` grid points; `zs` has `1+z > 0` so `(1+z)**(lamb-1)` is the real power. -/
structure PLRedshift where
  n : ℕ
  lamb : ℝ
  maximum : ℝ
  zs : ℕ → ℝ
  dVdc : ℕ → ℝ

namespace PLRedshift
variable (d : PLRedshift)

/-- numpyro_distributions.py:173 unnormalised `self.pdfs`. -/
def rawPdfs (i : ℕ) : ℝ := d.dVdc i * (1 + d.zs i) ^ (d.lamb - 1)
/-- numpyro_distributions.py:174 `self.norm`. -/
def norm : ℝ := trapz d.n d.rawPdfs d.zs
/-- numpyro_distributions.py:175 `self.pdfs /= self.norm`. -/
def pdfs (i : ℕ) : ℝ := d.rawPdfs i / d.norm
/-- numpyro_distributions.py:176-177 `self.cdfgrid`, last entry overwritten by 1. -/
def cdfgrid (i : ℕ) : ℝ := if i = d.n - 1 then 1 else cumtrapz d.n d.pdfs d.zs i
/-- numpyro_distributions.py:187-195 `log_prob(value, dVdc=None)`. -/
def log_prob (value : ℝ) (dVdc : Option ℝ := none) : F :=
  let dV := match dVdc with
    | none => interp d.n d.zs d.dVdc value
    | some v => v
  if le (fin value) (fin d.maximum) then
    log (fin dV) + (fin d.lamb - 1) * log (1 + fin value) - log (fin d.norm)
  else nanToNum ninf
/-- numpyro_distributions.py:197-198 `cdf`. -/
def cdf (value : ℝ) : ℝ := interp d.n d.zs d.cdfgrid value
/-- numpyro_distributions.py:200-201 `icdf`. -/
def icdf (q : ℝ) : ℝ := interp d.n d.cdfgrid d.zs q
end PLRedshift

/-- `jnp.interp` with a real query and real abscissae but model-float ordinates (see `interp`). -/
def interpF (n : ℕ) (xp : ℕ → ℝ) (fp : ℕ → F) (x : ℝ) : F :=
  let i := Nat.min (Nat.max (countLE n xp x) 1) (n - 1)
  let f := if xp i - xp (i - 1) = 0 then fp (i - 1)
    else fp (i - 1) + fin ((x - xp (i - 1)) / (xp i - xp (i - 1))) * (fp i - fp (i - 1))
  if x < xp 0 then fp 0 else if xp (n - 1) < x then fp (n - 1) else f

/-- numpyro_distributions.py:266-278 `BSplineDistribution.__init__`: `n` grid points, `m` coefficients;
`dmat j i` is basis function `j` at grid point `i` (NaN outside the spline's support, :272). -/
structure BSplineDist where
  n : ℕ
  m : ℕ
  cs : ℕ → ℝ
  grid : ℕ → ℝ
  dmat : ℕ → ℕ → F

namespace BSplineDist
variable (d : BSplineDist)

/-- numpyro_distributions.py:273 `nan_to_num(einsum(cs, grid_dmat), nan=-inf)`; `±inf` keep their default replacements. -/
def lpdfs (i : ℕ) : F :=
  let v := ∑ j ∈ range d.m, fin (d.cs j) * d.dmat j i
  if isnan v then ninf else nanToNum v
/-- numpyro_distributions.py:274 unnormalised `self.pdfs`. -/
def rawPdfs (i : ℕ) : F := exp (d.lpdfs i)
/-- numpyro_distributions.py:275 `self.norm`. -/
def norm : F := trapzF d.n d.rawPdfs (fun i => fin (d.grid i))
/-- numpyro_distributions.py:276 `self.pdfs`. -/
def pdfs (i : ℕ) : F := d.rawPdfs i / d.norm
/-- numpyro_distributions.py:277-278 `self.cdfgrid`; simplification: the (always finite once `norm ≠ 0`) densities are read as reals. -/
def cdfgrid (i : ℕ) : ℝ :=
  if i = d.n - 1 then 1 else cumtrapz d.n (fun i => (d.pdfs i).toReal) d.grid i
/-- numpyro_distributions.py:288-293 `_log_prob_nonorm` and `log_prob`. -/
def log_prob (value : ℝ) : F := interpF d.n d.grid d.lpdfs value - log d.norm
/-- numpyro_distributions.py:295-296 `cdf`. -/
def cdf (value : ℝ) : ℝ := interp d.n d.grid d.cdfgrid value
/-- numpyro_distributions.py:298-299 `icdf`. -/
def icdf (q : ℝ) : ℝ := interp d.n d.cdfgrid d.grid q
end BSplineDist

/-! ### PowerlawSmoothedPowerlaw -/

/-- numpyro_distributions.py:214-235 constructor arguments of `PowerlawSmoothedPowerlaw`
(`alpha_max` here is the argument; the constructor stores its negative, :216). -/
structure PSP where
  alpha : ℝ
  minimum : ℝ
  maximum : ℝ
  alpha_max_arg : ℝ
  alpha_min : ℝ
  low : ℝ
  high : ℝ

namespace PSP
variable (d : PSP)
/-- numpyro_distributions.py:216 `self.alpha_max = -self.alpha_max`. -/
def alpha_max : ℝ := -d.alpha_max_arg
/-- numpyro_distributions.py:221 `gamma`.  Powers of positive reals; this division is a real division, non-zero under the hypotheses of the
theorems. -/
def gamma : ℝ := (d.alpha_min + 1) / (d.minimum ^ (d.alpha_min + 1) - d.low ^ (d.alpha_min + 1))
/-- numpyro_distributions.py:222-233 `self.k1` (float division: the denominator can vanish). -/
def k1 : F := fin (-d.gamma) / fin (1
  + d.gamma / (d.alpha + 1) * d.minimum ^ (d.alpha_min - d.alpha) * (d.minimum ^ (d.alpha + 1) - d.maximum ^ (d.alpha + 1))
  + d.gamma / (d.alpha_max + 1) * d.minimum ^ (d.alpha_min - d.alpha) * d.maximum ^ (d.alpha - d.alpha_max)
    * (d.maximum ^ (d.alpha_max + 1) - d.high ^ (d.alpha_max + 1)))
/-- numpyro_distributions.py:234 `self.k2`. -/
def k2 : F := d.k1 * fin (d.minimum ^ (d.alpha_min - d.alpha))
/-- numpyro_distributions.py:235 `self.k3`. -/
def k3 : F := d.k2 * fin (d.maximum ^ (d.alpha - d.alpha_max))
/-- numpyro_distributions.py:247-255 `log_prob`. -/
def log_prob (value : ℝ) : F :=
  let low_pl := if lt (fin value) (fin d.minimum) then log d.k1 + log (fin value) * fin d.alpha_min else 0
  let high_pl := if gt (fin value) (fin d.maximum) then log d.k3 + log (fin value) * fin d.alpha_max else 0
  let mid_pl := if ge (fin value) (fin d.minimum) then
      (if le (fin value) (fin d.maximum) then log d.k2 + log (fin value) * fin d.alpha else 0) else 0
  low_pl + mid_pl + high_pl
end PSP

/-! ### P-spline penalty -/

/-- `jnp.diff(c)` iterated `n` times (`jnp.diff(coefs, n=degree)`). -/
def diffN : ℕ → (ℕ → ℝ) → (ℕ → ℝ)
  | 0, c => c
  | n + 1, c => diffN n (fun i => c (i + 1) - c i)

/-- models/bsplines/smoothing.py:8-28 `apply_difference_prior(coefs, inv_var, degree)` for `N` coefficients:
`-0.5 * inv_var * dot(delta_c, delta_c)`, `delta_c` having `N - degree` entries. -/
def apply_difference_prior (N : ℕ) (coefs : ℕ → ℝ) (inv_var : ℝ) (degree : ℕ := 1) : ℝ :=
  -0.5 * inv_var * ∑ i ∈ range (N - degree), diffN degree coefs i * diffN degree coefs i

/-- numpyro_distributions.py:323-325 `PSplineCoeficientPrior.log_prob`: asserts the length, then the penalty. -/
def pspline_log_prob (N : ℕ) (inv_var : ℝ) (diff_order : ℕ) (value : Arr ℝ) : Except String ℝ :=
  if value.len = N then .ok (apply_difference_prior N value.get inv_var diff_order)
  else .error "AssertionError"

end GW
end
