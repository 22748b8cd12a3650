import Verif.Props.RoundingParametricExact
import Verif.Props.RoundingPopulation

/-! # Property C148: the power-law-and-peak analysis in rounded arithmetic, from the samples to the log-likelihood -/

open Finset
noncomputable section
open Classical
namespace GW
open F

variable {f : Arith} {κ : ℝ}

/-! ### the exact weight -/

/-- logarithm of the Beta function -/
def lnBeta (a b : ℝ) : ℝ := gammaln a + gammaln b - gammaln (a + b)

/-- density of primary mass and mass ratio -/
def PeakPop.masses (p : PeakPop) (d : PeakSample) : ℝ :=
  plDensity d.mass_ratio p.beta (p.mmin / d.mass_1) 1 * peakDensity d.mass_1 p.alpha p.mmin p.mmax p.mu_peak p.sig_peak p.lambda_m
/-- density of the spin magnitudes -/
def PeakPop.magnitudes (p : PeakPop) (d : PeakSample) : ℝ :=
  Real.exp (betaExponent d.a_1 p.alpha_a1 p.beta_a1 (lnBeta p.alpha_a1 p.beta_a1)) * Real.exp (betaExponent d.a_2 p.alpha_a2 p.beta_a2 (lnBeta p.alpha_a2 p.beta_a2))
/-- density of the cosines of the tilts -/
def PeakPop.tilts (p : PeakPop) (d : PeakSample) : ℝ := tiltDensity d.cos_tilt_1 p.lambda_ct1 p.sig_ct1 * tiltDensity d.cos_tilt_2 p.lambda_ct2 p.sig_ct2
/-- density of the redshift, normalised with the trapezoid rule on `n + 1` points `zs` with volume elements `V_` -/
def PeakPop.redshift (p : PeakPop) (n : ℕ) (zs V_ : ℕ → ℝ) (d : PeakSample) : ℝ :=
  d.dVdz * (1 + d.redshift) ^ (p.lamb - 1) / trapz (n + 1) (fun j => V_ j * (1 + zs j) ^ (p.lamb - 1)) zs
/-- the weight of one sample -/
def PeakPop.weight (p : PeakPop) (n : ℕ) (zs V_ : ℕ → ℝ) (d : PeakSample) : ℝ :=
  p.masses d * p.magnitudes d * p.tilts d * p.redshift n zs V_ d / d.prior

/-! ### what is assumed -/

/-- the stored grid of the redshift model -/
structure GridOK (n D : ℕ) (o : RTree n) (zs V_ : ℕ → ℝ) (s : ℝ) : Prop where
  cover : o.Covers
  depth : o.depth ≤ D
  points : n ≤ 2 ^ 12
  inside : ∀ j ≤ n, RedshiftOK (zs j) (V_ j) s
  steps : ∀ j < n, (2⁻¹:ℝ) ^ 18 ≤ zs (j + 1) - zs j ∧ zs (j + 1) - zs j ≤ 2 ^ 18

/-- one sample: every density in the range of its theorem (C147) and the partial products in the range of single precision -/
structure SampleOK (κ δ η K : ℝ) (bl : F → F → F) (n : ℕ) (zs V_ : ℕ → ℝ) (zmax : ℝ) (p : PeakPop) (d : PeakSample) : Prop where
  mass : PeakOK κ K d.mass_1 p.alpha p.mmin p.mmax p.mu_peak p.sig_peak p.lambda_m
  ratio : RatioRange κ p.beta (p.mmin / d.mass_1) d.mass_ratio
  ratioErr : ratioErr (1 + p.beta) (Real.log (1 / (p.mmin / d.mass_1))) ≤ K
  mag1 : BetaOK κ δ η bl d.a_1 p.alpha_a1 p.beta_a1 (lnBeta p.alpha_a1 p.beta_a1)
  mag2 : BetaOK κ δ η bl d.a_2 p.alpha_a2 p.beta_a2 (lnBeta p.alpha_a2 p.beta_a2)
  mags : |betaExponent d.a_1 p.alpha_a1 p.beta_a1 (lnBeta p.alpha_a1 p.beta_a1) + betaExponent d.a_2 p.alpha_a2 p.beta_a2 (lnBeta p.alpha_a2 p.beta_a2)| ≤ 80
  tilt1 : TiltOK κ K d.cos_tilt_1 p.lambda_ct1 p.sig_ct1
  tilt2 : TiltOK κ K d.cos_tilt_2 p.lambda_ct2 p.sig_ct2
  red : RedshiftOK d.redshift d.dVdz (p.lamb - 1)
  zle : d.redshift ≤ zmax
  prefixes : PrefixOK (p.masses d) [p.magnitudes d, p.tilts d, p.redshift n zs V_ d]
  size : (2⁻¹:ℝ) ^ 122 ≤ p.weight n zs V_ d ∧ p.weight n zs V_ d ≤ 2 ^ 122

/-- `ε` bounds the four relative errors -/
structure ErrOK (κ η K ε s : ℝ) (D : ℕ) : Prop where
  masses : κ * (2 * K + 14) ≤ ε
  mags : 2 * η + 2 * κ ≤ ε
  red : κ * (10 * |s| + 16 + 2 * D) ≤ ε
  small : 4 * (ε + 2 * κ) ≤ 1 / 32

theorem trapz_grid_pos {n D : ℕ} {o : RTree n} {zs V_ : ℕ → ℝ} {s : ℝ} (g : GridOK n D o zs V_ s) : 0 < trapz (n + 1) (fun j => V_ j * (1 + zs j) ^ s) zs := by
  have hn : 0 < n := by
    clear g
    induction o with
    | leaf i => exact i.pos
    | node _ _ ih _ => exact ih
  unfold trapz
  rw [Nat.add_sub_cancel]
  refine mul_pos (by norm_num) (Finset.sum_pos (fun j hj => ?_) ⟨0, by simpa using hn⟩)
  have hj := Finset.mem_range.1 hj
  have a := (g.inside j hj.le).size.2.1
  have b := (g.inside (j + 1) hj).size.2.1
  have c := (g.steps j hj).1
  have h44 : (0:ℝ) < 2⁻¹ ^ 44 := by positivity
  have h18 : (0:ℝ) < 2⁻¹ ^ 18 := by positivity
  exact mul_pos (by linarith) (by linarith)

/-- **C148.** The weight of one sample in rounded arithmetic is the exact weight up to a factor whose logarithm is at most `4 (ε + 2 κ)`. -/
theorem C148_weight (C : f.Contract κ) {pw : F → F → F} (P : PowContract pw κ) {erf' : F → F} (E : ErfContract erf' κ) {bl : F → F → F} {δ η K ε zmax : ℝ} {n D : ℕ} {o : RTree n} {zs V_ : ℕ → ℝ}
    {p : PeakPop} {d : PeakSample} (g : GridOK n D o zs V_ (p.lamb - 1)) (h : SampleOK κ δ η K bl n zs V_ zmax p d) (he : ErrOK κ η K ε (p.lamb - 1) D) :
    ∃ w, peakWeightR f pw erf' bl o zs (fun j => fin (V_ j)) zmax p d = fin w ∧ Within (4 * (ε + 2 * κ)) (p.weight n zs V_ d) w := by
  have hκ := C.pos
  have hsm := he.small
  have h1 := he.masses
  have h2 := he.mags
  have h3 := he.red
  have hm0 : 0 < p.masses d := lt_of_lt_of_le (by positivity) h.prefixes.1
  have ht0 : 0 < p.tilts d := mul_pos (lt_of_lt_of_le (by positivity) h.tilt1.ge) (lt_of_lt_of_le (by positivity) h.tilt2.ge)
  have hT := trapz_grid_pos g
  have hz0 : 0 < p.redshift n zs V_ d := div_pos (lt_of_lt_of_le (by positivity) h.red.size.2.1) hT
  have ha0 : 0 < p.magnitudes d := mul_pos (Real.exp_pos _) (Real.exp_pos _)
  have hε0 : 0 ≤ ε := le_trans (by positivity) h3
  have hKK : κ * (2 * K + 8) ≤ ε := le_trans (mul_le_mul_of_nonneg_left (by linarith) hκ.le) h1
  obtain ⟨m, em, wm⟩ := C147_masses C P E h.mass h.ratio h.ratioErr (by linarith) ⟨h.prefixes.1, h.prefixes.2.1⟩
  obtain ⟨a, ea, wa⟩ := C147_magnitudes C h.mag1 h.mag2 h.mags (by linarith)
  obtain ⟨t, et, wt⟩ := C147_tilts C E h.tilt1 h.tilt2 (by linarith)
  obtain ⟨z, ez, wz⟩ := C147_redshift C P o g.cover g.depth g.points g.inside g.steps h.red h.zle (by linarith)
  obtain ⟨w, ew, ww⟩ := C145_weight C hε0 (x := p.masses d) (xs := [p.magnitudes d, p.tilts d, p.redshift n zs V_ d]) (ys := [a, t, z]) (prior := d.prior)
    (wm.mono hKK hm0.le) (.cons (wa.mono h2 ha0.le) (.cons (wt.mono h1 ht0.le) (.cons (wz.mono h3 hz0.le) .nil)))
    (by simp only [List.mem_cons, List.not_mem_nil, or_false]
        rintro x (rfl | rfl | rfl) <;> assumption) h.prefixes (by
      have e : p.masses d * [p.magnitudes d, p.tilts d, p.redshift n zs V_ d].prod / d.prior = p.weight n zs V_ d := by
        unfold PeakPop.weight; simp only [List.prod_cons, List.prod_nil]; ring
      rw [e]; exact h.size) (by simp only [List.length_cons, List.length_nil]; push_cast; linarith)
  refine ⟨w, ?_, ?_⟩
  · unfold peakWeightR
    rw [em, ea, et, ez]
    exact ew
  · have e : p.masses d * [p.magnitudes d, p.tilts d, p.redshift n zs V_ d].prod / d.prior = p.weight n zs V_ d := by
      unfold PeakPop.weight; simp only [List.prod_cons, List.prod_nil]; ring
    rw [e] at ww
    refine ww.mono (le_of_eq ?_) (le_trans (by positivity) h.size.1)
    simp only [List.length_cons, List.length_nil]; push_cast; ring

/-- **C148.** Without rounding and with exact library functions the weight is `PeakPop.weight`. -/
theorem C148_exact {δ η K zmax : ℝ} {bl : F → F → F} {n D : ℕ} {o : RTree n} {zs V_ : ℕ → ℝ} {p : PeakPop} {d : PeakSample} (g : GridOK n D o zs V_ (p.lamb - 1))
    (h : SampleOK κ δ η K bl n zs V_ zmax p d) (hκ : 0 < κ) (ha1 : 0 < p.alpha_a1) (hb1 : 0 < p.beta_a1) (ha2 : 0 < p.alpha_a2) (hb2 : 0 < p.beta_a2) (hpr : d.prior ≠ 0) :
    peakWeightR Arith.exact F.pow erfF betalnF o zs (fun j => fin (V_ j)) zmax p d = fin (p.weight n zs V_ d) := by
  have l0 : 0 < p.mmin := lt_of_lt_of_le (by positivity) h.mass.pl.low
  have hm : 0 < d.mass_1 := l0.trans_le h.mass.low
  have hlh := h.mass.pl.lt (hm.trans_le h.mass.high)
  have s0 : 0 < p.sig_peak := lt_of_lt_of_le (by positivity) h.mass.sig0
  have hα : p.alpha ≠ -1 := by
    intro e; have := h.mass.pl.slope0; rw [e] at this; norm_num at this
  have hβ : p.beta ≠ -1 := by
    intro e; have := h.ratio.slope0; rw [e] at this; norm_num at this
  have t1 : 0 < p.sig_ct1 := lt_of_lt_of_le (by positivity) h.tilt1.sig0
  have t2 : 0 < p.sig_ct2 := lt_of_lt_of_le (by positivity) h.tilt2.sig0
  have hlm : p.mmin < d.mass_1 := by
    by_contra hc
    have h1 : 1 ≤ p.mmin / d.mass_1 := by rw [le_div_iff₀ hm]; linarith
    have h2 : Real.log (1 / (p.mmin / d.mass_1)) ≤ 0 := by
      rw [one_div, Real.log_inv]; linarith [Real.log_nonneg h1]
    have h3 := h.ratio.gap
    have : (0:ℝ) < 2⁻¹ ^ 7 := by positivity
    linarith
  have hqlow : p.mmin / d.mass_1 ≤ d.mass_ratio := by
    have h1 := h.ratio.inside
    have h2 : 0 < p.mmin / d.mass_1 := div_pos l0 hm
    nlinarith
  have V1 := C147_value (x := d.mass_1) (α := p.alpha) (mu := p.mu_peak) (lam := p.lambda_m) (ct := d.cos_tilt_1) (xi := p.lambda_ct1) (a := p.alpha_a1) (b := p.beta_a1)
    l0 hlh h.mass.low h.mass.high s0 hα h.tilt1.low h.tilt1.high t1
  have V2 := C147_value (x := d.mass_1) (α := p.beta) (mu := p.mu_peak) (lam := p.lambda_m) (ct := d.cos_tilt_2) (xi := p.lambda_ct2) (a := p.alpha_a2) (b := p.beta_a2)
    l0 hlh h.mass.low h.mass.high s0 hβ h.tilt2.low h.tilt2.high t2
  have u : ∀ {x a b B : ℝ}, BetaOK κ δ η bl x a b B → 0 < x ∧ x < 1 := by
    intro x a b B r
    have h1 := r.x0
    have h2 := r.x1
    have : (0:ℝ) < 2⁻¹ ^ 100 := by positivity
    constructor <;> linarith
  have eb1 := V1.2.2.2 d.a_1 (u h.mag1).1 (u h.mag1).2 ha1 hb1
  have eb2 := V2.2.2.2 d.a_2 (u h.mag2).1 (u h.mag2).2 ha2 hb2
  have eq := V2.2.2.1 d.mass_1 d.mass_ratio hm hlm hqlow h.ratio.le_one
  have hp : ∀ z V : ℝ, 0 ≤ z → redshiftProbR Arith.exact F.pow (fin z) (fin V) (fin p.lamb) = fin (V * (1 + z) ^ (p.lamb - 1)) := by
    intro z V hz
    simp only [redshiftProbR, exact_r, one_def, add_fin, sub_fin]
    rw [F.pow_fin_pos (by linarith), mul_fin]
  have hT := trapz_grid_pos g
  have en : redshiftNormR Arith.exact F.pow o zs (fun j => fin (V_ j)) (fin p.lamb) = fin (trapz (n + 1) (fun j => V_ j * (1 + zs j) ^ (p.lamb - 1)) zs) :=
    trapzR_exact o g.cover _ _ _ fun j hj => hp _ _ (g.inside j hj).z0
  have ez : redshiftCallR Arith.exact F.pow o zs (fun j => fin (V_ j)) zmax (fin d.redshift) (fin d.dVdz) (fin p.lamb) = fin (p.redshift n zs V_ d) := by
    unfold redshiftCallR
    rw [if_pos (show le (fin d.redshift) (fin zmax) from h.zle), hp _ _ h.red.z0, en, div_fin hT.ne', exact_r]
    rfl
  have X := C147_exact (fin d.mass_1) (fin d.mass_ratio) (fin p.alpha) (fin p.beta) (fin p.mmin) (fin p.mmax) (fin p.mu_peak) (fin p.sig_peak) (fin p.lambda_m)
    (fin p.alpha_a1) (fin p.alpha_a2) (fin p.beta_a1) (fin p.beta_a2) (fin d.cos_tilt_1) (fin d.cos_tilt_2) (fin p.lambda_ct1) (fin p.lambda_ct2) (fin p.sig_ct1) (fin p.sig_ct2)
  have Xa := (C147_exact (fin d.a_1) (fin d.a_2) (fin p.alpha) (fin p.beta) (fin p.mmin) (fin p.mmax) (fin p.mu_peak) (fin p.sig_peak) (fin p.lambda_m)
    (fin p.alpha_a1) (fin p.alpha_a2) (fin p.beta_a1) (fin p.beta_a2) (fin d.cos_tilt_1) (fin d.cos_tilt_2) (fin p.lambda_ct1) (fin p.lambda_ct2) (fin p.sig_ct1) (fin p.sig_ct2)).2.2.2.2.2
  have em : plpeak_primary_ratio_pdf (fin d.mass_1) (fin d.mass_ratio) (fin p.alpha) (fin p.beta) (fin p.mmin) (fin p.mmax) (fin p.mu_peak) (fin p.sig_peak) (fin p.lambda_m) = fin (p.masses d) := by
    unfold plpeak_primary_ratio_pdf
    simp only
    rw [eq, V1.1, mul_fin]
    rfl
  have ea : independent_spin_magnitude_beta_dist (fin d.a_1) (fin d.a_2) (fin p.alpha_a1) (fin p.beta_a1) (fin p.alpha_a2) (fin p.beta_a2) = fin (p.magnitudes d) := by
    unfold independent_spin_magnitude_beta_dist
    rw [eb1, eb2, mul_fin]
    rfl
  have et : independent_spin_tilt (fin d.cos_tilt_1) (fin d.cos_tilt_2) (fin p.lambda_ct1) (fin p.lambda_ct2) (fin p.sig_ct1) (fin p.sig_ct2) = fin (p.tilts d) := by
    unfold independent_spin_tilt
    rw [V1.2.1, V2.2.1, mul_fin]
    rfl
  unfold peakWeightR weightR
  rw [X.2.1, Xa, X.2.2.2.1, em, ea, et, ez]
  simp only [List.foldl_cons, List.foldl_nil, mul_fin, exact_r, div_fin hpr]
  rfl

/-- **C148.** The log-likelihood of the power-law-and-peak analysis in rounded arithmetic: if every posterior sample and every found injection satisfies `SampleOK`, the number returned differs from the exact one,
the one computed from the exact weights, by at most the bound below (`ε₁ = 4 (ε + 2 κ)` the error of a weight). -/
theorem C148_likelihood {Ne N M : ℕ} (C : f.Contract κ) {pw : F → F → F} (P : PowContract pw κ) {erf' : F → F} (E : ErfContract erf' κ) {bl : F → F → F} {δ η K₁ ε zmax : ℝ} {n D : ℕ} {o : RTree n}
    {zs V_ : ℕ → ℝ} {p : PeakPop} (g : GridOK n D o zs V_ (p.lamb - 1)) (he : ErrOK κ η K₁ ε (p.lamb - 1) D)
    {Dl : ℕ} {T K : ℝ} (hT : Budget κ Dl T) (hKT : K * T ≤ 1 / 128) (ol : Orders Ne N M) (hol : ol.Covers) (holD : ol.DepthLe Dl) (fl : Flags) (hlog : fl.log = false)
    (pe : Fin Ne → Fin N → PeakSample) (inj : Fin M → PeakSample) (hpe : ∀ e i, SampleOK κ δ η K₁ bl n zs V_ zmax p (pe e i)) (hinj : ∀ i, SampleOK κ δ η K₁ bl n zs V_ zmax p (inj i))
    (total Nobs : ℕ) (hR : PopRange (4 * (ε + 2 * κ)) K T fl (fun e i => p.weight n zs V_ (pe e i)) (fun i => p.weight n zs V_ (inj i)) total Nobs)
    (Tobs : F) (hv : Option F) (unscaled : F) (hfl : fl.ok) (hhv : fl.reconstruct_rate = true → hv ≠ none) :
    ∃ L L' : ℝ, factors (hierarchical_likelihood fl (.single fun e i => fin (p.weight n zs V_ (pe e i))) (fun i => fin (p.weight n zs V_ (inj i))) total Nobs Tobs hv unscaled none).1 = [fin L] ∧
      logLikelihoodR f ol fl (fun e i => peakWeightR f pw erf' bl o zs (fun j => fin (V_ j)) zmax p (pe e i)) (fun i => peakWeightR f pw erf' bl o zs (fun j => fin (V_ j)) zmax p (inj i)) total Nobs = fin L' ∧
      |L' - L| ≤ ((400 + 5 * K) * T + 4 * (ε + 2 * κ)) * Ne + (400 * T + 4 * (ε + 2 * κ)) * Nobs + (12000 * T + 16 * (4 * (ε + 2 * κ))) * (if fl.marginalize_selection then
        Nobs * (3 + Nobs) / 2 * relVar (fun i => p.weight n zs V_ (inj i)) total else 0) := by
  have hκ := C.pos
  have hε0 : 0 ≤ ε := le_trans (by positivity) he.red
  choose w' ew' ww' using fun e i => C148_weight C P E g (hpe e i) he
  choose v' ev' wv' using fun i => C148_weight C P E g (hinj i) he
  obtain ⟨L, L', eL, eL', hL⟩ := C145_likelihood C hT hKT (ε := 4 * (ε + 2 * κ)) (by linarith) he.small ol hol holD fl _ w' _ v' total Nobs hR ww' wv' Tobs hv unscaled hfl hhv
  refine ⟨L, L', ?_, ?_, hL⟩
  · simpa only [hlog, encode, Bool.false_eq_true, if_false] using eL
  · simp only [hlog, encode, Bool.false_eq_true, if_false] at eL'
    simpa only [ew', ev'] using eL'

/-! ### single precision -/

/-- the parameters of the example: slope −3 between 5 and 100, an eighth in a peak at 35 of width 5, mass ratio of slope 1, Beta densities of parameters 2 and 2, tilts half isotropic, redshift exponent 2 -/
def popEg : PeakPop := ⟨-3, 1, 5, 100, 35, 5, 1 / 8, 2, 2, 2, 2, 1 / 2, 1 / 2, 1, 1, 2⟩

/-- masses 40 and 20, spins one half, aligned by 60 degrees, redshift 1; the prior is left open -/
def sampleEg (prior : ℝ) : PeakSample := ⟨40, 1 / 2, 1 / 2, 1 / 2, 1 / 2, 1 / 2, 1, 1, prior⟩

theorem lnBeta22 : lnBeta 2 2 = -Real.log 6 := beta22

theorem grid_eg : GridOK 2 1 (.node (.leaf 0) (.leaf 1)) (fun j => (j:ℝ)) (fun _ => 1) (popEg.lamb - 1) where
  cover := .refl _
  depth := by simp [RTree.depth]
  points := by norm_num
  inside j hj := ⟨by positivity, by have : (j:ℝ) ≤ 2 := by exact_mod_cast hj
                                    linarith, by norm_num, by norm_num, .inr (by norm_num [popEg]), by norm_num [popEg]⟩
  steps j _ := by push_cast; constructor <;> ring_nf <;> norm_num

theorem eg_bounds (pr : ℝ) : (1 / 40000 ≤ popEg.masses (sampleEg pr) ∧ popEg.masses (sampleEg pr) ≤ 2) ∧ popEg.magnitudes (sampleEg pr) = 9 / 4 ∧
    (1 / 16 ≤ popEg.tilts (sampleEg pr) ∧ popEg.tilts (sampleEg pr) ≤ 9) ∧ popEg.redshift 2 (fun j => (j:ℝ)) (fun _ => 1) (sampleEg pr) = 1 / 2 := by
  refine ⟨?_, ?_, ?_, ?_⟩
  · have hp := peak_eg (x := 40) (by norm_num) (by norm_num) (.inr (by norm_num))
    obtain ⟨d0, d1⟩ := plDensity_eg (x := 40) (by norm_num) (by norm_num)
    have hM := tnMass_ge' (mu := 35) (sig := 5) (low := 5) (high := 100) (by norm_num) (by norm_num) (by norm_num)
    have t0 : 0 ≤ tnDensity 40 35 5 5 100 := tnDensity_nonneg (by norm_num) (by norm_num)
    have t1 : tnDensity 40 35 5 5 100 ≤ 1 := by
      refine (tnDensity_le (by norm_num) (by norm_num)).trans ?_
      rw [div_le_iff₀ (by linarith)]; linarith
    have e : plDensity (1 / 2) 1 (5 / 40) 1 = 64 / 63 := by
      unfold plDensity
      rw [show (1 + 1 : ℝ) = ((2:ℕ):ℝ) by norm_num, Real.rpow_natCast, Real.rpow_natCast, Real.rpow_one]; norm_num
    have em : popEg.masses (sampleEg pr) = 64 / 63 * ((1 - 1 / 8) * plDensity 40 (-3) 5 100 + 1 / 8 * tnDensity 40 35 5 5 100) := by
      rw [← e]; rfl
    rw [em]
    constructor <;> linarith
  · have e : Real.exp (betaExponent (1 / 2) 2 2 (-Real.log 6)) = 3 / 2 := by
      have : betaExponent (1 / 2) 2 2 (-Real.log 6) = Real.log (3 / 2) := by
        unfold betaExponent
        rw [show (1:ℝ) - 1 / 2 = 1 / 2 by norm_num, show (3:ℝ) / 2 = (1 / 2) * (1 / 2) * 6 by norm_num, Real.log_mul (by norm_num) (by norm_num), Real.log_mul (by norm_num) (by norm_num)]
        ring
      rw [this, Real.exp_log (by norm_num)]
    have em : popEg.magnitudes (sampleEg pr) = Real.exp (betaExponent (1 / 2) 2 2 (lnBeta 2 2)) * Real.exp (betaExponent (1 / 2) 2 2 (lnBeta 2 2)) := rfl
    rw [em, lnBeta22, e]; norm_num
  · have hM := tnMass_ge (mu := 1) (sig := 1) (low := -1) (high := 1) (by norm_num) (by norm_num) (by norm_num)
    have t0 : 0 ≤ tnDensity (1 / 2) 1 1 (-1) 1 := tnDensity_nonneg (by norm_num) (by norm_num)
    have t1 : tnDensity (1 / 2) 1 1 (-1) 1 ≤ 4 := by
      refine (tnDensity_le (by norm_num) (by norm_num)).trans ?_
      rw [div_le_iff₀ (by linarith)]; linarith
    have em : popEg.tilts (sampleEg pr) = ((1 - 1 / 2) / 2 + 1 / 2 * tnDensity (1 / 2) 1 1 (-1) 1) * ((1 - 1 / 2) / 2 + 1 / 2 * tnDensity (1 / 2) 1 1 (-1) 1) := rfl
    rw [em]
    constructor <;> nlinarith
  · unfold PeakPop.redshift
    have e1 : (popEg.lamb - 1 : ℝ) = 1 := by norm_num [popEg]
    rw [e1]
    simp only [Real.rpow_one, one_mul]
    norm_num [trapz, Finset.sum_range_succ, sampleEg]

/-- the density of the example -/
def densityEg : ℝ := popEg.masses (sampleEg 1) * popEg.magnitudes (sampleEg 1) * popEg.tilts (sampleEg 1) * popEg.redshift 2 (fun j => (j:ℝ)) (fun _ => 1) (sampleEg 1)

theorem densityEg_pos : 0 < densityEg := by
  obtain ⟨a, b, c, d⟩ := eg_bounds 1
  unfold densityEg
  rw [b, d]
  have := a.1
  have := c.1
  have h1 : 0 < popEg.masses (sampleEg 1) := by linarith
  have h2 : 0 < popEg.tilts (sampleEg 1) := by linarith
  positivity

/-- with the density as prior the weight is one -/
theorem weightEg : popEg.weight 2 (fun j => (j:ℝ)) (fun _ => 1) (sampleEg densityEg) = 1 := div_self densityEg_pos.ne'

theorem sample_eg : SampleOK (2⁻¹ ^ 23) (3 * 2⁻¹ ^ 23) (2⁻¹ ^ 16) 1101 betaln32 2 (fun j => (j:ℝ)) (fun _ => 1) 2 popEg (sampleEg densityEg) := by
  have hp := peak_eg (x := 40) (by norm_num) (by norm_num) (.inr (by norm_num))
  have hb := beta_eg (x := 1 / 2) (by norm_num) (by norm_num)
  rw [← lnBeta22] at hb
  have ht := tilt_eg (ct := 1 / 2) (by norm_num) (by norm_num)
  have h8 : (2:ℝ) ≤ Real.log (1 / (5 / 40)) := by
    rw [Real.le_log_iff_exp_le (by norm_num), show (2:ℝ) = ((2:ℕ):ℝ) * 1 by norm_num, Real.exp_nat_mul]
    have := Real.exp_one_lt_d9
    have := Real.exp_pos 1
    nlinarith
  obtain ⟨a, b, c, d⟩ := eg_bounds densityEg
  have hmags : |betaExponent (1 / 2) 2 2 (lnBeta 2 2) + betaExponent (1 / 2) 2 2 (lnBeta 2 2)| ≤ 80 := by
    have h := abs_log_quarter (x := 1 / 2) (by norm_num) (by norm_num)
    obtain ⟨c1, c0⟩ := log_six
    rw [lnBeta22]
    unfold betaExponent
    rw [show (1:ℝ) - 1 / 2 = 1 / 2 by norm_num]
    rw [abs_le] at h ⊢
    constructor <;> linarith [h.1, h.2]
  refine ⟨⟨hp.pl, hp.low, hp.high, hp.sig0, hp.sig1, hp.mx, hp.ml, hp.mh, hp.lam0, hp.lam1, hp.size0, hp.size1, hp.tail, hp.errPl.trans (by norm_num), hp.errTn.trans (by norm_num)⟩,
    ⟨?_, ?_, ?_, ?_, ?_, ?_⟩, ?_, hb, hb, hmags, ht, ht, ⟨?_, ?_, ?_, ?_, .inr ?_, ?_⟩, ?_, ?_, ?_⟩
  · show (2⁻¹:ℝ) ^ 6 ≤ 5 / 40; norm_num
  · show (2⁻¹:ℝ) ^ 7 ≤ Real.log (1 / (5 / 40)); exact le_trans (by norm_num) h8
  · show |1 + (1:ℝ)| ≤ 6; norm_num
  · show (2⁻¹:ℝ) ^ 8 ≤ |1 + (1:ℝ)|; norm_num
  · show (5 / 40 : ℝ) * (1 + 4 * 2⁻¹ ^ 23) ≤ 1 / 2; norm_num
  · show (1 / 2 : ℝ) ≤ 1; norm_num
  · show ratioErr (1 + 1) (Real.log (1 / (5 / 40))) ≤ 1101
    unfold ratioErr plErr
    generalize Real.log (1 / (5 / 40)) = Λ at h8 ⊢
    have e : |(1:ℝ) + 1| = 2 := by norm_num
    rw [e]
    have h1 : 2 / (2 * (Λ / 2)) ≤ 1 := by rw [div_le_one (by linarith)]; linarith
    have h2 : 2 / Λ ≤ 1 := by rw [div_le_one (by linarith)]; linarith
    nlinarith
  · show (0:ℝ) ≤ 1; norm_num
  · show (1:ℝ) ≤ 15; norm_num
  · show (2⁻¹:ℝ) ^ 12 ≤ 1; norm_num
  · show (1:ℝ) ≤ 2 ^ 12; norm_num
  · show (2⁻¹:ℝ) ^ 20 ≤ |(2:ℝ) - 1|; norm_num
  · show |(2:ℝ) - 1| ≤ 8; norm_num
  · show (1:ℝ) ≤ 2; norm_num
  · have hlo : ∀ {y : ℝ}, 1 / 1000000 ≤ y → y ≤ 1000 → (2⁻¹:ℝ) ^ 122 ≤ y ∧ y ≤ 2 ^ 122 := fun h1 h2 => ⟨le_trans (by norm_num) h1, h2.trans (by norm_num)⟩
    rw [b, d]
    generalize popEg.masses (sampleEg densityEg) = A at a ⊢
    generalize popEg.tilts (sampleEg densityEg) = B at c ⊢
    have q1 : 1 / 40000 * (1 / 16) ≤ A * B := mul_le_mul a.1 c.1 (by norm_num) (by linarith)
    have q2 : A * B ≤ 2 * 9 := mul_le_mul a.2 c.2 (by linarith) (by norm_num)
    have k1 := hlo (y := A) (by linarith) (by linarith)
    have k2 := hlo (y := A * (9 / 4)) (by linarith) (by linarith)
    have k3 := hlo (y := A * (9 / 4) * B) (by linarith) (by linarith)
    have k4 := hlo (y := A * (9 / 4) * B * (1 / 2)) (by linarith) (by linarith)
    exact ⟨k1.1, k1.2, k2.1, k2.2, k3.1, k3.2, k4⟩
  · rw [weightEg]; norm_num

theorem err_eg : ErrOK (2⁻¹ ^ 23) (2⁻¹ ^ 16) 1101 (2⁻¹ ^ 11) (popEg.lamb - 1) 1 where
  masses := by norm_num
  mags := by norm_num
  red := by norm_num [popEg]
  small := by norm_num

/-- The weight of the example in single precision, the prior being the density: within `2⁻⁸` of one. -/
example : ∃ w, peakWeightR binary32 pow32 erf32 betaln32 (n := 2) (.node (.leaf 0) (.leaf 1)) (fun j => (j:ℝ)) (fun _ => fin 1) 2 popEg (sampleEg densityEg) = fin w ∧ Within (2⁻¹ ^ 8) 1 w := by
  obtain ⟨w, ew, ww⟩ := C148_weight binary32_contract pow32_contract erf32_contract grid_eg sample_eg err_eg
  rw [weightEg] at ww
  exact ⟨w, ew, ww.mono (by norm_num) zero_le_one⟩

/-- The whole computation in single precision: one event with two samples, four of eight injections found, the prior equal to the density, the cut on the effective numbers in force.
The log-likelihood comes out within a fiftieth of `log 2`. -/
example : ∃ L' : ℝ, logLikelihoodR binary32 ⟨fun _ => .node (.leaf 0) (.leaf 1), fun _ => .node (.leaf 0) (.leaf 1), .node (.node (.leaf 0) (.leaf 1)) (.node (.leaf 2) (.leaf 3)),
        .node (.node (.leaf 0) (.leaf 1)) (.node (.leaf 2) (.leaf 3)), .leaf 0, .leaf 0⟩ ({ marginalize_selection := false } : Flags)
        (fun (_ : Fin 1) (_ : Fin 2) => peakWeightR binary32 pow32 erf32 betaln32 (n := 2) (.node (.leaf 0) (.leaf 1)) (fun j => (j:ℝ)) (fun _ => fin 1) 2 popEg (sampleEg densityEg))
        (fun (_ : Fin 4) => peakWeightR binary32 pow32 erf32 betaln32 (n := 2) (.node (.leaf 0) (.leaf 1)) (fun j => (j:ℝ)) (fun _ => fin 1) 2 popEg (sampleEg densityEg)) 8 1 = fin L' ∧
      |L' - Real.log 2| ≤ 1 / 50 := by
  have he : ∀ x : ℝ, x ≤ 1 / 2 → Real.exp x < 2 := by
    intro x hx
    have h1 : Real.exp x ≤ Real.exp (1 / 2) := Real.exp_le_exp.2 hx
    have h2 : Real.exp (1 / 2) ^ 2 = Real.exp 1 := by rw [← Real.exp_nat_mul]; norm_num
    have h3 := Real.exp_one_lt_d9
    have h4 : Real.exp (1 / 2) < 2 := by
      by_contra h
      push Not at h
      have := pow_le_pow_left₀ (by norm_num) h 2
      rw [h2] at this; norm_num at this; linarith
    linarith
  have hk : kish (fun _ : Fin 2 => (1:ℝ)) = 2 := by norm_num [kish]
  have hr : relVar (fun _ : Fin 4 => (1:ℝ)) 8 = 1 / 8 := by norm_num [relVar]
  obtain ⟨L, L', eL, eL', hL⟩ := C148_likelihood (Ne := 1) (N := 2) (M := 4) (Dl := 2) (T := 2⁻¹ ^ 23 * 2 + 2⁻¹ ^ 23) (K := 1) binary32_contract pow32_contract erf32_contract grid_eg err_eg
    ⟨by norm_num, by norm_num⟩ (by norm_num)
    ⟨fun _ => .node (.leaf 0) (.leaf 1), fun _ => .node (.leaf 0) (.leaf 1), .node (.node (.leaf 0) (.leaf 1)) (.node (.leaf 2) (.leaf 3)),
        .node (.node (.leaf 0) (.leaf 1)) (.node (.leaf 2) (.leaf 3)), .leaf 0, .leaf 0⟩ ⟨fun _ => .refl _, fun _ => .refl _, .refl _, .refl _, .refl _, .refl _⟩
    ⟨fun _ => by simp [RTree.depth], fun _ => by simp [RTree.depth], by simp [RTree.depth], by simp [RTree.depth], by simp [RTree.depth], by simp [RTree.depth]⟩
    ({ marginalize_selection := false } : Flags) rfl (fun _ _ => sampleEg densityEg) (fun _ => sampleEg densityEg) (fun _ _ => sample_eg) (fun _ => sample_eg) 8 1
    (by
      simp only [weightEg]
      refine ⟨by norm_num, by norm_num, by norm_num, by norm_num, by norm_num, fun _ => ⟨fun _ => zero_le_one, 0, fun _ => le_rfl, one_pos, by norm_num⟩, fun _ => by norm_num,
        ⟨fun _ => zero_le_one, 0, fun _ => le_rfl, one_pos, by norm_num⟩, fun _ => ⟨fun _ => ?_, ?_⟩, fun h => by simp at h⟩
      · rw [hk]
        have := he ((800 + 8 * 1) * (2⁻¹ ^ 23 * 2 + 2⁻¹ ^ 23) + 4 * (4 * (2⁻¹ ^ 11 + 2 * 2⁻¹ ^ 23))) (by norm_num)
        push_cast; linarith
      · rw [hr]
        have := he (2900 * (2⁻¹ ^ 23 * 2 + 2⁻¹ ^ 23) + 16 * (4 * (2⁻¹ ^ 11 + 2 * 2⁻¹ ^ 23))) (by norm_num)
        push_cast; linarith)
    1 (some 1) 1 (by simp [Flags.ok]) (by simp)
  have eL0 := C47_value (E := 1) (N := 2) (M := 4) ({ marginalize_selection := false } : Flags) (fun _ _ => 1) (fun _ => 1) 8 1 1 (some 1) 1 none (by simp [Flags.ok]) (by simp) (by norm_num) le_rfl
    (fun _ _ => zero_le_one) (fun _ => ⟨0, one_pos⟩) (fun _ => zero_le_one) ⟨0, one_pos⟩ (by norm_num) (fun _ => ⟨fun _ => by rw [hk]; norm_num, by rw [hr]; norm_num⟩) (fun h => by simp at h)
  simp only [weightEg] at eL
  simp only [encode, Bool.false_eq_true, if_false] at eL0
  have : L = Real.log 2 := by
    rw [eL0] at eL
    simp [mean] at eL
    rw [← eL, show (4:ℝ) / 8 = 2⁻¹ by norm_num, Real.log_inv, neg_neg]
  refine ⟨L', eL', ?_⟩
  rw [← this]
  refine hL.trans ?_
  norm_num

end GW
end
