import Verif.Model.SplineModels

/-!
# Model of `gwinferno/postprocess/calculations.py`

Posterior draws are indexed by a natural number; arrays over draws (`m_cs`, `rate`, ...) are functions of that index.  The
progress bar and `jit` are not modelled, and the fill loop `pdfs[i] = calc_pdf(...)` is the function `draw ↦ row`.
-/

open Finset
noncomputable section
open Classical
namespace GW
open F

/-- number of grid points of every predictive curve (calculations.py:22-23, 65-66, 96-97, 135, 159, 183-184) -/
def ppdN : ℕ := 800

/-- calculations.py:26-29 (and the same lines in the other calculators): `rate`/`pop_frac` default to ones. -/
def orOnes (r : Option (ℕ → ℝ)) (d : ℕ) : F :=
  match r with
  | none => 1
  | some r => fin (r d)

/-- calculations.py:146, 170, 203-204, 230-233: `r * f * p / trapezoid(p, x)`. -/
def ppdRow (x : ℕ → ℝ) (p : ℕ → F) (r f : F) (i : ℕ) : F := r * f * p i / trapzF ppdN p (fun j => fin (x j))

/-- calculations.py:49-52, 80-83, 119-122: the two marginals of a grid of joint values `p i j`, with `i` the index of the mass
ratio (axis 0 of `meshgrid`) and `j` that of the primary mass. -/
def marginals (ms qs : ℕ → ℝ) (p : ℕ → ℕ → F) (r f : F) : (ℕ → F) × (ℕ → F) :=
  let p_m := fun j => trapzF ppdN (fun i => p i j) (fun i => fin (qs i))
  let p_q := fun i => trapzF ppdN (fun j => p i j) (fun j => fin (ms j))
  (fun j => r * p_m j * f / trapzF ppdN p_m (fun j => fin (ms j)),
   fun i => r * p_q i * f / trapzF ppdN p_q (fun i => fin (qs i)))

/-- calculations.py:22, 65, 96 -/
def massGrid (mmin mmax : ℝ) : ℕ → ℝ := (linspace mmin mmax ppdN).get
/-- calculations.py:23, 66, 97 -/
def ratioGrid (mmin mmax : ℝ) : ℕ → ℝ := (linspace (mmin / mmax) 1 ppdN).get

/-- row-major flattening of `meshgrid` values -/
def meshFlat (f : ℕ → ℕ → F) : List F := (List.range ppdN).flatMap fun i => (List.range ppdN).map fun j => f i j

/-- entry `(i, j)` of an array flattened in row-major order -/
def unflat (l : List F) (i j : ℕ) : F := l.getD (i * ppdN + j) 0

/-- calculations.py:48, 79 `jnp.where(jnp.greater(Q, mmin / M), p_MQ, 0.0)` -/
def keepAbove (mmin : ℝ) (ms qs : ℕ → ℝ) (p : ℕ → ℕ → F) (i j : ℕ) : F :=
  if gt (fin (qs i)) (fin mmin / fin (ms j)) then p i j else 0

/-- calculations.py:20-60 `calculate_bspline_mass_ppds`: rows over the mass grid and over the ratio grid. -/
def bsplineMassPPDs (nm nq : ℕ) (mmin mmax : ℝ) (mcs qcs : ℕ → ℕ → ℝ) (rate frac : Option (ℕ → ℝ)) :
    Except InitErr (ℕ → (ℕ → F) × (ℕ → F)) := do
  let ms := massGrid mmin mmax
  let qs := ratioGrid mmin mmax
  let model ← primaryRatio nm nq (meshFlat fun _ j => fin (ms j)) ((List.range ppdN).map fun j => fin (ms j))
    (meshFlat fun i _ => fin (qs i)) ((List.range ppdN).map fun i => fin (qs i)) mmax mmin mmin
  pure fun d => marginals ms qs (keepAbove mmin ms qs (unflat (model.primaryRatioCall (mcs d) (qcs d) true)))
    (orOnes rate d) (orOnes frac d)

/-- calculations.py:63-91 `calculate_powerlaw_peak_mass_ppds`. -/
def plpeakMassPPDs (alpha beta mu sig lamb : ℕ → ℝ) (mmin mmax : ℝ) (rate frac : Option (ℕ → ℝ)) (d : ℕ) : (ℕ → F) × (ℕ → F) :=
  let ms := massGrid mmin mmax
  let qs := ratioGrid mmin mmax
  marginals ms qs (keepAbove mmin ms qs fun i j => plpeak_primary_ratio_pdf (fin (ms j)) (fin (qs i)) (fin (alpha d)) (fin (beta d))
    (fin mmin) (fin mmax) (fin (mu d)) (fin (sig d)) (fin (lamb d))) (orOnes rate d) (orOnes frac d)

/-- calculations.py:94-130 `calculate_peak_logm1_bspline_q_ppds`. -/
def logPeakMassPPDs (nq : ℕ) (logmp logsigp : ℕ → ℝ) (qcs : ℕ → ℕ → ℝ) (mmin mmax : ℝ) (rate frac : Option (ℕ → ℝ)) :
    Except InitErr (ℕ → (ℕ → F) × (ℕ → F)) := do
  let ms := massGrid mmin mmax
  let qs := ratioGrid mmin mmax
  let model ← ratioModel nq (meshFlat fun i _ => fin (qs i)) ((List.range ppdN).map fun i => fin (qs i)) (mmin / mmax) .logY
  pure fun d =>
    let p := fun i j => unflat (model.call (qcs d) true) i j *
      truncnorm_pdf (fin (ms j)) (fin (logmp d)) (fin (logsigp d)) (fin mmin) (fin mmax) true
    marginals ms qs (fun i j => if lt (fin (ms j)) (fin mmin) ∨ lt (fin (ms j) * fin (qs i)) (fin mmin) then 0 else p i j)
      (orOnes rate d) (orOnes frac d)

/-- calculations.py:133-154 `calculate_beta_spin_mag`. -/
def betaSpinPPD (alpha beta : ℕ → ℝ) (amax : ℝ) (rate frac : Option (ℕ → ℝ)) (d : ℕ) : ℕ → F :=
  let aa := (linspace 0 amax ppdN).get
  ppdRow aa (fun i => betadist (fin (aa i)) (fin (alpha d)) (fin (beta d)) (fin amax)) (orOnes rate d) (orOnes frac d)

/-- calculations.py:157-178 `calculate_mixture_iso_aligned_spin_tilt`. -/
def mixtureTiltPPD (sig lam : ℕ → ℝ) (rate frac : Option (ℕ → ℝ)) (d : ℕ) : ℕ → F :=
  let ct := (linspace (-1) 1 ppdN).get
  ppdRow ct (fun i => mixture_isoalign_spin_tilt (fin (ct i)) (fin (lam d)) (fin (sig d))) (orOnes rate d) (orOnes frac d)

/-- grid of `n` points as a list of floats -/
def gridList (x : ℕ → ℝ) : List F := (List.range ppdN).map fun i => fin (x i)

/-- calculations.py:181-212 `calculate_bspline_spin_ppds` without second coefficients (`a2_cs=None`): magnitude and tilt rows. -/
def bsplineSpinPPDs (na nt : ℕ) (acs tcs : ℕ → ℕ → ℝ) (rate frac : Option (ℕ → ℝ)) :
    Except InitErr (ℕ → (ℕ → F) × (ℕ → F)) := do
  let aa := (linspace 0 1 ppdN).get
  let cc := (linspace (-1) 1 ppdN).get
  let mag ← iidSpinMagnitudes na (gridList aa) (gridList aa) (gridList aa) (gridList aa)
  let tilt ← iidSpinTilts nt (gridList cc) (gridList cc) (gridList cc) (gridList cc)
  pure fun d => (ppdRow aa (fun i => (mag.m1.call (acs d) true).getD i 0) (orOnes rate d) (orOnes frac d),
    ppdRow cc (fun i => (tilt.m1.call (tcs d) true).getD i 0) (orOnes rate d) (orOnes frac d))

/-- calculations.py:214-241, with second coefficients: rows for `a1`, `a2`, `ct1`, `ct2`. -/
def bsplineSpinPPDs2 (na1 na2 nt1 nt2 : ℕ) (acs1 tcs1 acs2 tcs2 : ℕ → ℕ → ℝ) (rate frac : Option (ℕ → ℝ)) :
    Except InitErr (ℕ → ((ℕ → F) × (ℕ → F)) × ((ℕ → F) × (ℕ → F))) := do
  let aa := (linspace 0 1 ppdN).get
  let cc := (linspace (-1) 1 ppdN).get
  let mag ← independentSpinMagnitudes na1 na2 (gridList aa) (gridList aa) (gridList aa) (gridList aa)
  let tilt ← independentSpinTilts nt1 nt2 (gridList cc) (gridList cc) (gridList cc) (gridList cc)
  pure fun d =>
    let row := fun x (m : Base1D) c => ppdRow x (fun i => (m.call c true).getD i 0) (orOnes rate d) (orOnes frac d)
    ((row aa mag.m1 (acs1 d), row aa mag.m2 (acs2 d)), (row cc tilt.m1 (tcs1 d), row cc tilt.m2 (tcs2 d)))

/-- calculations.py:244-258 `calculate_powerlaw_rate_of_z_ppds`, on the model's redshift grid. -/
def powerlawRate (m : ZModel) (lamb rate : ℕ → ℝ) (frac : Option (ℕ → ℝ)) (d j : ℕ) : F :=
  fin (rate d) * orOnes frac d * pow (1 + fin (m.zs.get j)) (fin (lamb d))

/-- `jnp.concatenate([jnp.array([0]), cs])` -/
def prependZero (cs : ℕ → ℝ) : ℕ → ℝ
  | 0 => 0
  | i + 1 => cs i

/-- calculations.py:261-276 `calculate_powerlaw_spline_rate_of_z_ppds`. -/
def powerlawSplineRate (m : PLSpline) (lamb : ℕ → ℝ) (zcs : ℕ → ℕ → ℝ) (rate : ℕ → ℝ) (frac : Option (ℕ → ℝ)) (d j : ℕ) : F :=
  fin (rate d) * orOnes frac d * pow (1 + fin (m.parent.zs.get j)) (fin (lamb d)) *
    exp (m.interp.project (fun i => m.interp.bases i (m.parent.zs.get j)) (prependZero (zcs d)))

end GW
end
