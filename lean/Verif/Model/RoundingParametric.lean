import Verif.Model.RoundingPowerlaw
import Verif.Model.RoundingTruncnorm
import Verif.Model.RoundingSpline
import Verif.Model.RoundingPopulation
import Verif.Model.Parametric

/-!
# Model of the parametric densities in rounded arithmetic

The functions of `gwinferno/models/parametric/parametric.py` used by `examples/simple_powerlaw_peak_example.py`, as in `Verif.Model.Parametric` but with floating-point arrays:
the result of every operation is rounded (`Arith.r`, see `Verif.Model.Rounding`); `exp`, `log`, the power, `erf` and `betaln` are those of the library.
What is assumed about rounding and library is stated in the properties.  Not modelled: fused operations of the compiled code, arguments that are Python numbers, and the low-mass
smoothing (`delta`), which the example does not use.
-/

noncomputable section
open Classical
namespace GW
open F

/-- `(1 - lam) * a + lam * b` with rounded operations -/
def mixR (f : Arith) (lam a b : F) : F := f.r (f.r (f.r (1 - lam) * a) + f.r (lam * b))

/-- parametric.py:49-51 `plpeak_primary_pdf` with `delta=None`. -/
def plpeak_primary_pdfR (f : Arith) (pw : F → F → F) (erf : F → F) (m1 alpha mmin mmax mpp sigpp lam : F) : F :=
  mixR f lam (powerlaw_pdfR f pw m1 alpha mmin mmax) (truncnorm_pdfR f erf m1 mpp sigpp mmin mmax)

/-- parametric.py:39-44 `plpeak_primary_ratio_pdf` with `delta=None`. -/
def plpeak_primary_ratio_pdfR (f : Arith) (pw : F → F → F) (erf : F → F) (m1 q alpha beta mmin mmax mpp sigpp lam : F) : F :=
  f.r (powerlaw_pdfR f pw q beta (f.r (mmin / m1)) 1 * plpeak_primary_pdfR f pw erf m1 alpha mmin mmax mpp sigpp lam)

/-- parametric.py:84-86 `mixture_isoalign_spin_tilt`; `cut` is an integer array, its product with a float is that float or zero. -/
def mixture_isoalign_spin_tiltR (f : Arith) (erf : F → F) (ct xi sigma : F) : F :=
  let cut : F := if gt ct 1 ∨ lt ct (-1) then 0 else 1
  f.r (f.r (f.r (cut * f.r (1 - xi)) / 2) + f.r (xi * truncnorm_pdfR f erf ct 1 sigma (-1) 1))

/-- parametric.py:93-94 `independent_spin_tilt`. -/
def independent_spin_tiltR (f : Arith) (erf : F → F) (ct1 ct2 xi1 xi2 sigma1 sigma2 : F) : F :=
  f.r (mixture_isoalign_spin_tiltR f erf ct1 xi1 sigma1 * mixture_isoalign_spin_tiltR f erf ct2 xi2 sigma2)

/-- distributions.py:146-162 `betadist` with the default scale 1 and floor 0 (compare `betadist`): `scale` is the Python number 1.0, its logarithm the exact 0. -/
def betadistR (f : Arith) (betaln : F → F → F) (xx alpha beta : F) : F :=
  let ln_beta := f.r (f.r (f.r (f.r (alpha - 1) * f.log xx) + f.r (f.r (beta - 1) * f.log (f.r (1 - xx)))) - f.r (f.r (f.r (alpha + beta) - 1) * 0))
  let ln_beta := f.r (ln_beta - betaln alpha beta)
  if le xx 1 ∧ ge xx 0 then f.exp ln_beta else 0

/-- parametric.py:71-81 `independent_spin_magnitude_beta_dist` with the default maxima. -/
def independent_spin_magnitudeR (f : Arith) (betaln : F → F → F) (a1 a2 alpha1 beta1 alpha2 beta2 : F) : F :=
  f.r (betadistR f betaln a1 alpha1 beta1 * betadistR f betaln a2 alpha2 beta2)

/-- parametric.py:126-127 `PowerlawRedshiftModel.prob` at one redshift, given the comoving volume element there. -/
def redshiftProbR (f : Arith) (pw : F → F → F) (z dVdz lamb : F) : F := f.r (dVdz * pw (f.r (1 + z)) (f.r (lamb - 1)))

/-- parametric.py:123-124 `PowerlawRedshiftModel.normalization`: `zs` is the stored grid of `n + 1` redshifts, `dVdz_` the stored volume elements, `o` the order of the sum. -/
def redshiftNormR (f : Arith) (pw : F → F → F) {n : ℕ} (o : RTree n) (zs : ℕ → ℝ) (dVdz_ : ℕ → F) (lamb : F) : F :=
  trapzR f o (fun j => redshiftProbR f pw (fin (zs j)) (dVdz_ j) lamb) zs

/-- parametric.py:138-145 `PowerlawRedshiftModel.__call__` at one redshift. -/
def redshiftCallR (f : Arith) (pw : F → F → F) {n : ℕ} (o : RTree n) (zs : ℕ → ℝ) (dVdz_ : ℕ → F) (zmax : ℝ) (z dVdz lamb : F) : F :=
  if le z (fin zmax) then f.r (redshiftProbR f pw z dVdz lamb / redshiftNormR f pw o zs dVdz_ lamb) else 0

/-! ### the weights of examples/simple_powerlaw_peak_example.py -/

/-- the population parameters of `model` (simple_powerlaw_peak_example.py:40-78); the parameters of the two Beta densities are the deterministic sites of lines 64-67 -/
structure PeakPop where
  (alpha beta mmin mmax mu_peak sig_peak lambda_m : ℝ)
  (alpha_a1 beta_a1 alpha_a2 beta_a2 : ℝ)
  (lambda_ct1 lambda_ct2 sig_ct1 sig_ct2 lamb : ℝ)

/-- one entry of the arrays of `datadict`; `dVdz` is the volume element the redshift model stored for it -/
structure PeakSample where
  (mass_1 mass_ratio a_1 a_2 cos_tilt_1 cos_tilt_2 redshift dVdz prior : ℝ)

/-- simple_powerlaw_peak_example.py:82-91 `get_weights` at one entry. -/
def peakWeightR (f : Arith) (pw : F → F → F) (erf : F → F) (betaln : F → F → F) {n : ℕ} (o : RTree n) (zs : ℕ → ℝ) (dVdz_ : ℕ → F) (zmax : ℝ) (p : PeakPop) (d : PeakSample) : F :=
  weightR f
    (plpeak_primary_ratio_pdfR f pw erf (fin d.mass_1) (fin d.mass_ratio) (fin p.alpha) (fin p.beta) (fin p.mmin) (fin p.mmax) (fin p.mu_peak) (fin p.sig_peak) (fin p.lambda_m))
    [independent_spin_magnitudeR f betaln (fin d.a_1) (fin d.a_2) (fin p.alpha_a1) (fin p.beta_a1) (fin p.alpha_a2) (fin p.beta_a2),
      independent_spin_tiltR f erf (fin d.cos_tilt_1) (fin d.cos_tilt_2) (fin p.lambda_ct1) (fin p.lambda_ct2) (fin p.sig_ct1) (fin p.sig_ct2),
      redshiftCallR f pw o zs dVdz_ zmax (fin d.redshift) (fin d.dVdz) (fin p.lamb)]
    d.prior

end GW
end
