import Verif.Model.NumpyroDistributions
import Verif.Model.Analysis

/-!
# Model of `sample` and `support` of the distributions in `gwinferno/numpyro_distributions.py`

`random.uniform(key, shape)` is an array of numbers `u i` of `[0, 1)`, one per entry; what the key determines is only which numbers they are.
Parameters are scalars, except the coefficient vector of `BSplineDistribution`; arrays are given by their shape and their entries in row-major
order.
-/

noncomputable section
open Classical
namespace GW
open F

/-- an array returned by `sample` -/
structure Draws where
  shape : List ℕ
  get : ℕ → F

/-- `constraints.interval(low, high)`: the values accepted -/
def interval (low high : ℝ) : F → Prop
  | fin x => low ≤ x ∧ x ≤ high
  | _ => False

/-- numpyro_distributions.py:34-46 `Sine`: its support, and `sample(key, sample_shape)` (the batch shape of scalar parameters is `()`). -/
def sine_support (minimum maximum : ℝ) : F → Prop := interval minimum maximum
/-- numpyro_distributions.py:44-46 `Sine.sample` -/
def sine_sample (minimum maximum : ℝ) (u : ℕ → ℝ) (sample_shape : List ℕ) : Draws :=
  ⟨sample_shape ++ [], fun i => sine_icdf minimum maximum (u i)⟩

/-- numpyro_distributions.py:71-79 `Cosine`: its support -/
def cosine_support (minimum maximum : ℝ) : F → Prop := interval minimum maximum
/-- numpyro_distributions.py:81-83 `Cosine.sample` -/
def cosine_sample (minimum maximum : ℝ) (u : ℕ → ℝ) (sample_shape : List ℕ) : Draws :=
  ⟨sample_shape ++ [], fun i => cosine_icdf minimum maximum (u i)⟩

/-- numpyro_distributions.py:109-121 `Powerlaw`: its support is given by two further arguments, `0` and `1` by default -/
def pl_support (low : ℝ := 0) (high : ℝ := 1) (value : F) : Prop := interval low high value
/-- numpyro_distributions.py:123-125 `Powerlaw.sample` -/
def pl_sample (alpha minimum maximum : ℝ) (u : ℕ → ℝ) (sample_shape : List ℕ) : Draws :=
  ⟨sample_shape ++ [], fun i => pl_icdf (fin alpha) (fin minimum) (fin maximum) (fin (u i))⟩

/-- numpyro_distributions.py:163-181 `PowerlawRedshift`: its support, `0` to `1000` by default -/
def plz_support (low : ℝ := 0) (high : ℝ := 1000) (value : F) : Prop := interval low high value
/-- numpyro_distributions.py:183-185 `PowerlawRedshift.sample` -/
def plz_sample (d : PLRedshift) (u : ℕ → ℝ) (sample_shape : List ℕ) : Draws :=
  ⟨sample_shape ++ [], fun i => fin (d.icdf (u i))⟩

/-- numpyro_distributions.py:214-239 `PowerlawSmoothedPowerlaw`: its support -/
def psp_support (d : PSP) : F → Prop := interval d.low d.high
/-- numpyro_distributions.py:241-244 `PowerlawSmoothedPowerlaw.sample`: `jnp.ones(shape)` -/
def psp_sample (_d : PSP) (_u : ℕ → ℝ) (sample_shape : List ℕ) : Draws := ⟨sample_shape ++ [], fun _ => 1⟩

/-- numpyro_distributions.py:266-282 `BSplineDistribution`: its support -/
def bspline_support (minimum maximum : ℝ) : F → Prop := interval minimum maximum
/-- numpyro_distributions.py:269, 284-286 `BSplineDistribution.sample`: the batch shape is that of `minimum`, `maximum` and the coefficient
vector broadcast together, i.e. `(m,)` for `m` coefficients -/
def bspline_sample (d : BSplineDist) (u : ℕ → ℝ) (sample_shape : List ℕ) : Draws :=
  ⟨sample_shape ++ [d.m], fun i => fin (d.icdf (u i))⟩

/-- numpyro_distributions.py:306-320 `PSplineCoeficientPrior.sample`: ones of shape `sample_shape + batch_shape`, the event shape `(N,)` left out -/
def pspline_sample (_N : ℕ) (_inv_var : ℝ) (_u : ℕ → ℝ) (sample_shape : List ℕ) : Draws := ⟨sample_shape ++ [], fun _ => 1⟩

/-- numpyro_distributions.py:322-325 `PSplineCoeficientPrior.log_prob` on an array of any shape: `assert value.shape == (self.N,)` -/
def pspline_log_prob_draws (N : ℕ) (inv_var : ℝ) (diff_order : ℕ) (v : Draws) : Except PyErr F :=
  if v.shape = [N] then .ok (fin (apply_difference_prior N (fun i => (v.get i).toReal) inv_var diff_order)) else .error .assertionError

end GW
end
