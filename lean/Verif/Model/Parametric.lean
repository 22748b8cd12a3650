import Verif.Model.Distributions
import Verif.Arr

/-! # Model of `gwinferno/models/parametric/parametric.py` -/

open Finset
noncomputable section
open Classical
namespace GW
open F

/-- parametric.py:27-30. -/
def powerlaw_primary_ratio_pdf (m1 q alpha beta mmin mmax : F) : F :=
  let p_q := powerlaw_pdf q beta (mmin / m1) 1
  let p_m1 := powerlaw_pdf m1 alpha mmin mmax
  p_q * p_m1

/-- parametric.py:33-36; `fall_off` is the fifth positional argument of `powerlaw_logit_pdf`, i.e. `low_fall_off`;
`high_fall_off` keeps its default 4.0. -/
def powerlaw_primary_ratio_falloff_pdf (m1 q alpha beta mmin mmax fall_off : F) : F :=
  let p_q := powerlaw_pdf q beta (mmin / m1) 1
  let p_m1 := powerlaw_logit_pdf m1 alpha (some mmin) (some mmax) fall_off 4
  p_q * p_m1

/-- parametric.py:49-53 (`delta = None` is `none`). -/
def plpeak_primary_pdf (m1 alpha mmin mmax mpp sigpp lam : F) (delta : Option F := none) : F :=
  match delta with
  | none => (1 - lam) * powerlaw_pdf m1 alpha mmin mmax + lam * truncnorm_pdf m1 mpp sigpp mmin mmax
  | some delta => (1 - lam) * powerlaw_pdf m1 alpha mmin mmax * smooth delta m1 mmin
      + lam * truncnorm_pdf m1 mpp sigpp mmin mmax

/-- parametric.py:39-47. -/
def plpeak_primary_ratio_pdf (m1 q alpha beta mmin mmax mpp sigpp lam : F) (delta : Option F := none) : F :=
  let p_q := powerlaw_pdf q beta (mmin / m1) 1
  let p_m1 := plpeak_primary_pdf m1 alpha mmin mmax mpp sigpp lam delta
  match delta with
  | none => p_q * p_m1
  | some delta => p_q * smooth delta (q * m1) mmin * p_m1

/-- parametric.py:63-64. -/
def beta_spin_magnitude (a alpha beta : F) (amax : F := 1) : F := betadist a alpha beta amax

/-- parametric.py:67-68. -/
def iid_spin_magnitude (a1 a2 alpha_mag beta_mag : F) (amax : F := 1) : F :=
  betadist a1 alpha_mag beta_mag amax * betadist a2 alpha_mag beta_mag amax

/-- parametric.py:71-81. -/
def independent_spin_magnitude_beta_dist (a1 a2 alpha_mag1 beta_mag1 alpha_mag2 beta_mag2 : F)
    (amax1 : F := 1) (amax2 : F := 1) : F :=
  betadist a1 alpha_mag1 beta_mag1 amax1 * betadist a2 alpha_mag2 beta_mag2 amax2

/-- parametric.py:84-86. -/
def mixture_isoalign_spin_tilt (ct xi_tilt sigma_tilt : F) : F :=
  let cut : F := if gt ct 1 ∨ lt ct (-1) then 0 else 1
  cut * (1 - xi_tilt) / 2 + xi_tilt * truncnorm_pdf ct 1 sigma_tilt (-1) 1

/-- parametric.py:89-90. -/
def iid_spin_tilt (ct1 ct2 xi_tilt sigma_tilt : F) : F :=
  mixture_isoalign_spin_tilt ct1 xi_tilt sigma_tilt * mixture_isoalign_spin_tilt ct2 xi_tilt sigma_tilt

/-- parametric.py:93-94. -/
def independent_spin_tilt (ct1 ct2 xi_tilt_1 xi_tilt_2 sigma_tilt1 sigma_tilt2 : F) : F :=
  mixture_isoalign_spin_tilt ct1 xi_tilt_1 sigma_tilt1 * mixture_isoalign_spin_tilt ct2 xi_tilt_2 sigma_tilt2

/-- parametric.py:97-102. -/
def default_spin_tilt (ct1 ct2 xi_tilt sigma_tilt : F) : F :=
  let iso1 : F := if gt ct1 1 ∨ lt ct1 (-1) then 0 else fin (1 / 2)
  let iso2 : F := if gt ct2 1 ∨ lt ct2 (-1) then 0 else fin (1 / 2)
  let ali1 := truncnorm_pdf ct1 1 sigma_tilt (-1) 1
  let ali2 := truncnorm_pdf ct2 1 sigma_tilt (-1) 1
  (1 - xi_tilt) * iso1 * iso2 + xi_tilt * ali1 * ali2

/-! ### PowerlawRedshiftModel (parametric.py:112-145) -/

/-- `jnp.min` / `jnp.max` of a non-empty array of numbers. -/
def arrMin (a : Arr ℝ) : ℝ := ((List.range a.len).map a.get).foldr min (a.get 0)
def arrMax (a : Arr ℝ) : ℝ := ((List.range a.len).map a.get).foldr max (a.get 0)

/-- What `__init__` receives (parametric.py:113-121): the PE redshifts (2-D, flattened here), the injection redshifts
(1-D) and `Planck15.dVcdz`, a function of redshift. -/
structure ZModel where
  dV : ℝ → ℝ
  zpe : Arr ℝ
  zinj : Arr ℝ

/-- parametric.py:114. -/
def ZModel.zmin (m : ZModel) : ℝ := max (arrMin m.zpe) (arrMin m.zinj)
/-- parametric.py:115. -/
def ZModel.zmax (m : ZModel) : ℝ := min (arrMax m.zpe) (arrMax m.zinj)
/-- parametric.py:116. -/
def ZModel.zs (m : ZModel) : Arr ℝ := linspace m.zmin m.zmax 1000

/-- parametric.py:126-127 `prob`, for redshifts above -1. -/
def ZModel.prob (z dV lamb : ℝ) : ℝ := dV * (1 + z) ^ (lamb - 1)

/-- parametric.py:123-124 `normalization`. -/
def ZModel.normalization (m : ZModel) (lamb : ℝ) : ℝ :=
  trapz m.zs.len (fun i => ZModel.prob (m.zs.get i) (m.dV (m.zs.get i)) lamb) m.zs.get

/-- parametric.py:118-121, 130-131, 139-140: the *stored* volume element picked by the number of dimensions
(1-D input → injections, 2-D → PE), entry `i`. -/
def ZModel.dVdz (m : ZModel) (twoD : Bool) (i : ℕ) : ℝ :=
  if twoD then m.dV (m.zpe.get i) else m.dV (m.zinj.get i)

/-- parametric.py:138-145 `__call__(z, lamb)`, entry `i` of the array `z`. -/
def ZModel.call (m : ZModel) (twoD : Bool) (z : Arr ℝ) (lamb : ℝ) (i : ℕ) : F :=
  if z.get i ≤ m.zmax then fin (ZModel.prob (z.get i) (m.dVdz twoD i) lamb) / fin (m.normalization lamb) else 0

/-- parametric.py:129-136 `log_prob(z, lamb)`, entry `i`. -/
def ZModel.logProb (m : ZModel) (twoD : Bool) (z : Arr ℝ) (lamb : ℝ) (i : ℕ) : F :=
  if z.get i ≤ m.zmax then
    log (fin (m.dVdz twoD i)) + fin (lamb - 1) * log (1 + fin (z.get i)) - log (fin (m.normalization lamb))
  else nanToNum ninf

end GW
end
