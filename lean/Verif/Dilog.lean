import Mathlib.MeasureTheory.Integral.IntervalIntegral.FundThmCalculus
import Mathlib.MeasureTheory.Integral.IntervalIntegral.IntegrationByParts
import Mathlib.Analysis.SpecialFunctions.Integrals.Basic
import Mathlib.Analysis.Calculus.DSlope

/-! # The real dilogarithm

`scipy.special.spence(1 - z)` has real part `Re Li₂(z) = -∫₀ᶻ log|1 - t|/t dt` for every real `z`; it is the only special
function the isotropic-spin prior calls. -/

open MeasureTheory Set
noncomputable section
namespace GW

/-- priors.py:20-35 `Di`, i.e. `spence(1 - z + 0j)`, on reals: the real part of the dilogarithm.  `Real.log` is `log |·|`. -/
def dilog (x : ℝ) : ℝ := -∫ t in (0 : ℝ)..x, Real.log (1 - t) / t

theorem dilog_integrand_le {α β : ℝ} (hα : α < 1) (hβ : β < 1) :
    IntervalIntegrable (fun t : ℝ => Real.log (1 - t) / t) volume α β := by
  have hc : ContinuousOn (dslope (fun t : ℝ => Real.log (1 - t)) 0) (Iio 1) := by
    have h0 : Iio (1 : ℝ) ∈ nhds (0 : ℝ) := Iio_mem_nhds one_pos
    rw [continuousOn_dslope h0]
    refine ⟨?_, ?_⟩
    · refine ContinuousOn.log (by fun_prop) fun x hx => ?_
      have : x < 1 := hx
      linarith
    · refine DifferentiableAt.log (by fun_prop) (by norm_num)
  have hi : IntervalIntegrable (dslope (fun t : ℝ => Real.log (1 - t)) 0) volume α β := by
    refine (hc.mono ?_).intervalIntegrable
    intro x hx
    rcases le_total α β with h | h
    · rw [uIcc_of_le h] at hx; exact lt_of_le_of_lt hx.2 hβ
    · rw [uIcc_of_ge h] at hx; exact lt_of_le_of_lt hx.2 hα
  refine hi.congr_ae ?_
  refine ae_restrict_of_ae ?_
  filter_upwards [compl_mem_ae_iff.2 (measure_singleton (0 : ℝ))] with t ht
  have ht' : t ≠ 0 := ht
  rw [dslope_of_ne _ ht', slope_def_field]
  simp

theorem dilog_integrand_ge {β : ℝ} (hβ : 1 / 2 ≤ β) :
    IntervalIntegrable (fun t : ℝ => Real.log (1 - t) / t) volume (1 / 2) β := by
  have h1 : IntervalIntegrable (fun t : ℝ => Real.log (1 - t)) volume (1 / 2) β := by
    have := (intervalIntegral.intervalIntegrable_log' (a := 1 - 1 / 2) (b := 1 - β)).comp_sub_left 1
    simpa using this
  have e : (fun t : ℝ => Real.log (1 - t) / t) = fun t => Real.log (1 - t) * t⁻¹ := by funext t; rw [div_eq_mul_inv]
  rw [e]
  refine h1.mul_continuousOn ?_
  refine ContinuousOn.inv₀ continuousOn_id fun x hx => ?_
  rw [uIcc_of_le hβ] at hx
  have := hx.1
  intro h; simp only [h] at this; norm_num at this

theorem dilog_integrand (α β : ℝ) : IntervalIntegrable (fun t : ℝ => Real.log (1 - t) / t) volume α β := by
  have key : ∀ γ : ℝ, IntervalIntegrable (fun t : ℝ => Real.log (1 - t) / t) volume (1 / 2) γ := by
    intro γ
    rcases le_total (1 / 2) γ with h | h
    · exact dilog_integrand_ge h
    · exact dilog_integrand_le (by norm_num) (by linarith)
  exact (key α).symm.trans (key β)

theorem dilog_continuous : Continuous dilog :=
  (intervalIntegral.continuous_primitive dilog_integrand 0).neg

theorem dilog_zero : dilog 0 = 0 := by simp [dilog]

theorem dilog_hasDerivAt {x : ℝ} (h0 : x ≠ 0) (h1 : x ≠ 1) : HasDerivAt dilog (-(Real.log (1 - x) / x)) x := by
  have hc : ContinuousAt (fun t : ℝ => Real.log (1 - t) / t) x := by
    refine ContinuousAt.div (ContinuousAt.log (by fun_prop) (sub_ne_zero.2 (Ne.symm h1))) continuousAt_id h0
  have hm : Measurable fun t : ℝ => Real.log (1 - t) / t := by fun_prop
  exact (intervalIntegral.integral_hasDerivAt_right (dilog_integrand 0 x)
    hm.stronglyMeasurable.stronglyMeasurableAtFilter hc).neg

end GW
