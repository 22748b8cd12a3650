import Verif.Num
import Mathlib.MeasureTheory.Integral.IntervalIntegral.FundThmCalculus
import Mathlib.Analysis.SpecialFunctions.Gaussian.GaussianIntegral
import Mathlib.Analysis.SpecialFunctions.Integrals.Basic

/-! # Special functions called by the code: `erf`, `gammaln`/`betaln`, and their float versions. -/

open MeasureTheory Set
noncomputable section
namespace GW

/-- `jax.scipy.special.erf` on reals: `2/√π ∫₀ˣ exp(-t²) dt`. -/
def erf (x : ℝ) : ℝ := 2 / Real.sqrt Real.pi * ∫ t in (0:ℝ)..x, Real.exp (-t ^ 2)

/-- `erf` on model floats. -/
def erfF : F → F
  | F.fin x => F.fin (erf x)
  | F.pinf => F.fin 1
  | F.ninf => F.fin (-1)
  | F.nan => F.nan

@[simp] theorem erfF_fin (x : ℝ) : erfF (F.fin x) = F.fin (erf x) := rfl

theorem erf_hasDerivAt (x : ℝ) : HasDerivAt erf (2 / Real.sqrt Real.pi * Real.exp (-x ^ 2)) x := by
  have hc : Continuous fun t : ℝ => Real.exp (-t ^ 2) := by fun_prop
  exact (intervalIntegral.integral_hasDerivAt_right (hc.intervalIntegrable _ _)
    (hc.stronglyMeasurableAtFilter _ _) hc.continuousAt).const_mul _

theorem erf_strictMono : StrictMono erf := by
  refine strictMono_of_deriv_pos fun x => ?_
  rw [(erf_hasDerivAt x).deriv]
  have := Real.pi_pos
  positivity

theorem erf_continuous : Continuous erf :=
  continuous_iff_continuousAt.2 fun x => (erf_hasDerivAt x).continuousAt

@[simp] theorem erf_zero : erf 0 = 0 := by simp [erf]

theorem erf_neg (x : ℝ) : erf (-x) = -erf x := by
  unfold erf
  have h := intervalIntegral.integral_comp_neg (a := (0:ℝ)) (b := x) (fun t => Real.exp (-t ^ 2))
  simp only [neg_sq, neg_zero] at h
  rw [h, intervalIntegral.integral_symm, mul_neg]

/-- `gammaln` on a positive real. -/
def gammaln (x : ℝ) : ℝ := Real.log (Real.Gamma x)

/-- `jax.scipy.special.betaln(a, b) = gammaln a + gammaln b - gammaln (a+b)`, on positive finite arguments;
other arguments are not used by the modelled code and give nan here. -/
def betalnF : F → F → F
  | F.fin a, F.fin b => open Classical in
      if 0 < a ∧ 0 < b then F.fin (gammaln a + gammaln b - gammaln (a + b)) else F.nan
  | _, _ => F.nan

end GW
end
