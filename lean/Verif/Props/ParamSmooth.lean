import Verif.Props.Parametric
import Verif.Props.NumpyroContinuous
import Verif.Props.RedshiftModel
import Mathlib.Analysis.Analytic.IsolatedZeros
import Mathlib.Analysis.Calculus.ContDiff.Deriv
import Mathlib.Analysis.Complex.RealDeriv
import Mathlib.Analysis.Complex.CauchyIntegral
import Mathlib.Analysis.SpecialFunctions.Complex.Analytic
import Mathlib.Analysis.SpecialFunctions.Gamma.Deriv
import Mathlib.Analysis.SpecialFunctions.Pow.Deriv

/-! # Property C115: the parametric densities are smooth in their hyper-parameters -/

open Filter Topology Set
open scoped ContDiff
noncomputable section
open Classical
namespace GW
open F

/-! ### the normalisation of the power law, across slope -1 -/

/-- `(exp u - 1) / u`, continued to `u = 0` -/
def expSlope : ℝ → ℝ := dslope Real.exp 0

theorem expSlope_zero : expSlope 0 = 1 := by simp [expSlope]

theorem expSlope_ne {u : ℝ} (h : u ≠ 0) : expSlope u = (Real.exp u - 1) / u := by
  simp [expSlope, dslope_of_ne _ h, slope_def_field]

theorem expSlope_pos (u : ℝ) : 0 < expSlope u := by
  rcases lt_trichotomy u 0 with h | h | h
  · rw [expSlope_ne h.ne]
    exact div_pos_of_neg_of_neg (by have := Real.exp_lt_one_iff.2 h; linarith) h
  · rw [h, expSlope_zero]; norm_num
  · rw [expSlope_ne h.ne']
    exact div_pos (by have := Real.add_one_lt_exp h.ne'; linarith) h

theorem expSlope_contDiff : ContDiff ℝ ∞ expSlope := by
  refine contDiff_iff_contDiffAt.2 fun u => ?_
  by_cases h : u = 0
  · subst h
    have ha : AnalyticAt ℝ Real.exp 0 := analyticAt_rexp
    obtain ⟨p, hp⟩ := ha
    have h2 : AnalyticAt ℝ (dslope Real.exp 0) 0 := ⟨_, hp.has_fpower_series_dslope_fslope⟩
    exact h2.contDiffAt
  · have : (fun v => (Real.exp v - 1) / v) =ᶠ[𝓝 u] expSlope := by
      filter_upwards [isOpen_ne.mem_nhds h] with v hv
      exact (expSlope_ne hv).symm
    refine ContDiffAt.congr_of_eventuallyEq ?_ this.symm
    exact (Real.contDiff_exp.contDiffAt.sub contDiffAt_const).div contDiffAt_id h

/-- the normalisation of the power law in one formula, slope -1 included -/
theorem plNorm_eq {α low high : ℝ} (h0 : 0 < low) (h : low < high) :
    plNorm α low high = (low ^ (1 + α) * Real.log (high / low) * expSlope ((1 + α) * Real.log (high / low)))⁻¹ := by
  have hh := h0.trans h
  have hL := log_div_pos h0 h
  unfold plNorm
  split_ifs with hα
  · subst hα
    norm_num [expSlope_zero]
  · have h1 : 1 + α ≠ 0 := fun hc => hα (by linarith)
    rw [expSlope_ne (mul_ne_zero h1 hL.ne'), mul_comm (1 + α) (Real.log _), ← Real.rpow_def_of_pos (div_pos hh h0),
      Real.div_rpow hh.le h0.le]
    have := (Real.rpow_pos_of_pos h0 (1 + α)).ne'
    rw [← one_div_div, one_div]
    congr 1
    field_simp

variable {E : Type*} [NormedAddCommGroup E] [NormedSpace ℝ E]

theorem plNorm_smooth {α lo hi : E → ℝ} {θ : E} (hα : ContDiffAt ℝ ∞ α θ) (hlo : ContDiffAt ℝ ∞ lo θ) (hhi : ContDiffAt ℝ ∞ hi θ)
    (h0 : 0 < lo θ) (h : lo θ < hi θ) : ContDiffAt ℝ ∞ (fun t => plNorm (α t) (lo t) (hi t)) θ := by
  have hh := h0.trans h
  have hL : ContDiffAt ℝ ∞ (fun t => Real.log (hi t / lo t)) θ := (hhi.div hlo h0.ne').log (div_pos hh h0).ne'
  have hs : ContDiffAt ℝ ∞ (fun t => 1 + α t) θ := contDiffAt_const.add hα
  have key : ContDiffAt ℝ ∞ (fun t => (lo t ^ (1 + α t) * Real.log (hi t / lo t) * expSlope ((1 + α t) * Real.log (hi t / lo t)))⁻¹) θ := by
    refine ContDiffAt.inv (((hlo.rpow hs h0.ne').mul hL).mul (expSlope_contDiff.contDiffAt.comp θ (hs.mul hL))) ?_
    exact (mul_pos (mul_pos (Real.rpow_pos_of_pos h0 _) (log_div_pos h0 h)) (expSlope_pos _)).ne'
  refine key.congr_of_eventuallyEq ?_
  filter_upwards [hlo.continuousAt.eventually (lt_mem_nhds h0), hlo.continuousAt.eventually_lt hhi.continuousAt h] with t h1 h2
  exact plNorm_eq h1 h2

theorem powerlaw_smooth {α lo hi : E → ℝ} {θ : E} (x : ℝ) (fl : F) (hα : ContDiffAt ℝ ∞ α θ) (hlo : ContDiffAt ℝ ∞ lo θ) (hhi : ContDiffAt ℝ ∞ hi θ)
    (h0 : 0 < lo θ) (h1 : lo θ < x) (h2 : x < hi θ) :
    ContDiffAt ℝ ∞ (fun t => (powerlaw_pdf (fin x) (fin (α t)) (fin (lo t)) (fin (hi t)) fl).toReal) θ := by
  have hx := h0.trans h1
  refine ((contDiffAt_const.rpow hα hx.ne').mul (plNorm_smooth hα hlo hhi h0 (h1.trans h2))).congr_of_eventuallyEq ?_
  filter_upwards [hlo.continuousAt.eventually (lt_mem_nhds h0), hlo.continuousAt.eventually (gt_mem_nhds h1),
    hhi.continuousAt.eventually (lt_mem_nhds h2)] with t g0 g1 g2
  rw [powerlaw_pdf_in g0 (g1.trans g2) g1.le g2.le, toReal_fin]

/-! ### the truncated Gaussian -/

theorem erf_contDiff : ContDiff ℝ ∞ erf := by
  rw [contDiff_infty_iff_deriv]
  refine ⟨fun x => (erf_hasDerivAt x).differentiableAt, ?_⟩
  rw [show deriv erf = fun x => 2 / Real.sqrt Real.pi * Real.exp (-x ^ 2) from funext fun x => (erf_hasDerivAt x).deriv]
  fun_prop

theorem gcdf_smooth {mu sig v : E → ℝ} {θ : E} (hm : ContDiffAt ℝ ∞ mu θ) (hs : ContDiffAt ℝ ∞ sig θ) (hv : ContDiffAt ℝ ∞ v θ) (h0 : 0 < sig θ) :
    ContDiffAt ℝ ∞ (fun t => gcdf (mu t) (sig t) (v t)) θ := by
  unfold gcdf
  exact contDiffAt_const.mul (contDiffAt_const.add (erf_contDiff.contDiffAt.comp θ
    ((hv.sub hm).div (hs.mul contDiffAt_const) (mul_pos h0 sqrt_two_pos).ne')))

theorem tnPdf_smooth {mu sig lo hi : E → ℝ} {θ : E} (x : ℝ) (hm : ContDiffAt ℝ ∞ mu θ) (hs : ContDiffAt ℝ ∞ sig θ) (hlo : ContDiffAt ℝ ∞ lo θ)
    (hhi : ContDiffAt ℝ ∞ hi θ) (h0 : 0 < sig θ) (h : lo θ < hi θ) : ContDiffAt ℝ ∞ (fun t => tnPdf (mu t) (sig t) (lo t) (hi t) x) θ := by
  unfold tnPdf
  have hd : gcdf (mu θ) (sig θ) (hi θ) - gcdf (mu θ) (sig θ) (lo θ) ≠ 0 := (sub_pos.2 (gcdf_strictMono h0 h)).ne'
  have h2 : (2 * (sig θ * sig θ)) ≠ 0 := by positivity
  refine ContDiffAt.mul (ContDiffAt.exp ?_) (ContDiffAt.div (ContDiffAt.div contDiffAt_const (hs.mul contDiffAt_const)
    (mul_pos h0 sqrt_two_pi_pos).ne') ((gcdf_smooth hm hs hhi h0).sub (gcdf_smooth hm hs hlo h0)) hd)
  have hxm : ContDiffAt ℝ ∞ (fun t => x - mu t) θ := contDiffAt_const.sub hm
  exact (hxm.mul hxm).neg.div (contDiffAt_const.mul (hs.mul hs)) h2

theorem truncnorm_smooth {mu sig lo hi : E → ℝ} {θ : E} (x : ℝ) (hm : ContDiffAt ℝ ∞ mu θ) (hs : ContDiffAt ℝ ∞ sig θ) (hlo : ContDiffAt ℝ ∞ lo θ)
    (hhi : ContDiffAt ℝ ∞ hi θ) (h0 : 0 < sig θ) (h1 : lo θ < x) (h2 : x < hi θ) :
    ContDiffAt ℝ ∞ (fun t => (truncnorm_pdf (fin x) (fin (mu t)) (fin (sig t)) (fin (lo t)) (fin (hi t)) false).toReal) θ := by
  refine (tnPdf_smooth x hm hs hlo hhi h0 (h1.trans h2)).congr_of_eventuallyEq ?_
  filter_upwards [hs.continuousAt.eventually (lt_mem_nhds h0), hlo.continuousAt.eventually (gt_mem_nhds h1),
    hhi.continuousAt.eventually (lt_mem_nhds h2)] with t g0 g1 g2
  rw [truncnorm_pdf_in g0 (g1.trans g2) g1.le g2.le, toReal_fin]

/-! ### the Beta density -/

theorem Gamma_contDiffAt {x : ℝ} (h : 0 < x) : ContDiffAt ℝ ∞ Real.Gamma x := by
  have ha : AnalyticAt ℂ Complex.Gamma (x : ℂ) := by
    refine DifferentiableOn.analyticAt (s := {z : ℂ | 0 < z.re}) (fun z hz => ?_) ?_
    · refine (Complex.differentiableAt_Gamma z fun m hm => ?_).differentiableWithinAt
      have hz' : (0:ℝ) < z.re := hz
      rw [hm] at hz'
      simp at hz'
      have : (0:ℝ) ≤ m := Nat.cast_nonneg m
      linarith
    · exact (isOpen_lt continuous_const Complex.continuous_re).mem_nhds (by simpa using h)
  exact (AnalyticAt.re_ofReal ha).contDiffAt

theorem beta_smooth {α β s : E → ℝ} {θ : E} (x : ℝ) (hα : ContDiffAt ℝ ∞ α θ) (hβ : ContDiffAt ℝ ∞ β θ) (hs : ContDiffAt ℝ ∞ s θ)
    (h1 : 0 < α θ) (h2 : 0 < β θ) (h3 : 0 < x) (h4 : x < s θ) (fl : F) :
    ContDiffAt ℝ ∞ (fun t => (betadist (fin x) (fin (α t)) (fin (β t)) (fin (s t)) fl).toReal) θ := by
  have hs0 := h3.trans h4
  have hB : ContDiffAt ℝ ∞ (fun t => ProbabilityTheory.beta (α t) (β t)) θ := by
    unfold ProbabilityTheory.beta
    have g1 : ContDiffAt ℝ ∞ (fun t => Real.Gamma (α t)) θ := (Gamma_contDiffAt h1).comp θ hα
    have g2 : ContDiffAt ℝ ∞ (fun t => Real.Gamma (β t)) θ := (Gamma_contDiffAt h2).comp θ hβ
    have g3 : ContDiffAt ℝ ∞ (fun t => Real.Gamma (α t + β t)) θ := ContDiffAt.comp (g := Real.Gamma) (f := fun t => α t + β t) θ (Gamma_contDiffAt (add_pos h1 h2)) (hα.add hβ)
    exact (g1.mul g2).div g3 (Real.Gamma_pos_of_pos (add_pos h1 h2)).ne'
  have hv : 0 < 1 - x / s θ := by rw [sub_pos, div_lt_one hs0]; exact h4
  have hxs : ContDiffAt ℝ ∞ (fun t => x / s t) θ := contDiffAt_const.div hs hs0.ne'
  have key : ContDiffAt ℝ ∞ (fun t => betaR (α t) (β t) (s t) x) θ := by
    unfold betaR
    refine ContDiffAt.div (((contDiffAt_const.div hB (ProbabilityTheory.beta_pos h1 h2).ne').mul
      (hxs.rpow (hα.sub contDiffAt_const) (div_pos h3 hs0).ne')).mul ((contDiffAt_const.sub hxs).rpow (hβ.sub contDiffAt_const) hv.ne')) hs hs0.ne'
  refine key.congr_of_eventuallyEq ?_
  filter_upwards [hα.continuousAt.eventually (lt_mem_nhds h1), hβ.continuousAt.eventually (lt_mem_nhds h2),
    hs.continuousAt.eventually (lt_mem_nhds h4)] with t g1 g2 g3
  rw [betadist_in g1 g2 h3 g3, toReal_fin]

/-! ### the property -/

/-- **C115** (`powerlaw_pdf`).  Strictly inside the range the density is infinitely often differentiable in slope, lower and upper bound
jointly, at every slope: -1, where the code switches formula, included. -/
theorem C115_powerlaw (x α low high : ℝ) (fl : F) (h0 : 0 < low) (h1 : low < x) (h2 : x < high) :
    ContDiffAt ℝ ∞ (fun θ : ℝ × ℝ × ℝ => (powerlaw_pdf (fin x) (fin θ.1) (fin θ.2.1) (fin θ.2.2) fl).toReal) (α, low, high) :=
  powerlaw_smooth x fl contDiffAt_fst (contDiffAt_snd.fst) (contDiffAt_snd.snd) h0 h1 h2

/-- **C115** (`truncnorm_pdf`), jointly in mean, width and bounds. -/
theorem C115_truncnorm (x mu sig low high : ℝ) (hs : 0 < sig) (h1 : low < x) (h2 : x < high) :
    ContDiffAt ℝ ∞ (fun θ : ℝ × ℝ × ℝ × ℝ => (truncnorm_pdf (fin x) (fin θ.1) (fin θ.2.1) (fin θ.2.2.1) (fin θ.2.2.2) false).toReal)
      (mu, sig, low, high) :=
  truncnorm_smooth x contDiffAt_fst contDiffAt_snd.fst contDiffAt_snd.snd.fst contDiffAt_snd.snd.snd hs h1 h2

/-- **C115** (`betadist`), jointly in both shapes and the scale. -/
theorem C115_betadist (x α β s : ℝ) (fl : F) (hα : 0 < α) (hβ : 0 < β) (h1 : 0 < x) (h2 : x < s) :
    ContDiffAt ℝ ∞ (fun θ : ℝ × ℝ × ℝ => (betadist (fin x) (fin θ.1) (fin θ.2.1) (fin θ.2.2) fl).toReal) (α, β, s) :=
  beta_smooth x contDiffAt_fst contDiffAt_snd.fst contDiffAt_snd.snd hα hβ h1 h2 fl

/-- **C115** (power law + peak, joint in primary mass and mass ratio): smooth in the seven mass hyper-parameters
`(alpha, beta, mmin, mmax, mpp, sigpp, lam)` jointly, wherever `mmin < q m1`, `q < 1` and `m1 < mmax`. -/
theorem C115_plpeak (m1 q α β mmin mmax mpp sig lam : ℝ) (h0 : 0 < mmin) (hm : m1 < mmax) (hq : mmin < q * m1) (hq1 : q < 1) (hm0 : 0 < m1)
    (hs : 0 < sig) :
    ContDiffAt ℝ ∞ (fun θ : Fin 7 → ℝ => (plpeak_primary_ratio_pdf (fin m1) (fin q) (fin (θ 0)) (fin (θ 1)) (fin (θ 2)) (fin (θ 3)) (fin (θ 4))
      (fin (θ 5)) (fin (θ 6))).toReal) ![α, β, mmin, mmax, mpp, sig, lam] := by
  have hp : ∀ i : Fin 7, ContDiffAt ℝ ∞ (fun θ : Fin 7 → ℝ => θ i) ![α, β, mmin, mmax, mpp, sig, lam] := fun i => contDiffAt_apply ..
  have hlt : mmin < m1 := by nlinarith
  have hlo : mmin / m1 < q := by rw [div_lt_iff₀ hm0]; exact hq
  have e1 := powerlaw_smooth (θ := ![α, β, mmin, mmax, mpp, sig, lam]) q 0 (hp 1) ((hp 2).div (contDiffAt_const (c := m1)) hm0.ne') (contDiffAt_const (c := (1:ℝ)))
    (div_pos h0 hm0) hlo hq1
  have e2 := powerlaw_smooth (θ := ![α, β, mmin, mmax, mpp, sig, lam]) m1 0 (hp 0) (hp 2) (hp 3) h0 hlt hm
  have e3 := truncnorm_smooth (θ := ![α, β, mmin, mmax, mpp, sig, lam]) m1 (hp 4) (hp 5) (hp 2) (hp 3) hs hlt hm
  refine (e1.mul (((contDiffAt_const (c := (1:ℝ)).sub (hp 6)).mul e2).add ((hp 6).mul e3))).congr_of_eventuallyEq ?_
  filter_upwards [(hp 2).continuousAt.eventually (lt_mem_nhds h0), (hp 2).continuousAt.eventually (gt_mem_nhds hq),
    (hp 3).continuousAt.eventually (lt_mem_nhds hm), (hp 5).continuousAt.eventually (lt_mem_nhds hs)] with t g1 g2 g3 g4
  have k1 : t 2 < m1 := by nlinarith
  have k2 : t 2 / m1 < q := by rw [div_lt_iff₀ hm0]; exact g2
  simp only [plpeak_primary_ratio_pdf, plpeak_primary_pdf]
  rw [div_fin hm0.ne', one_def, powerlaw_pdf_in (div_pos g1 hm0) (k2.trans hq1) k2.le hq1.le, powerlaw_pdf_in g1 (k1.trans g3) k1.le g3.le,
    truncnorm_pdf_in g4 (k1.trans g3) k1.le g3.le]
  simp only [sub_fin, mul_fin, add_fin, toReal_fin, Pi.mul_apply, Pi.add_apply, Pi.sub_apply, Pi.div_apply]
  rw [powerlaw_pdf_in (div_pos g1 hm0) (k2.trans hq1) k2.le hq1.le, toReal_fin]

/-- **C115** (isotropic + aligned tilts): smooth in the mixing fraction and the width jointly. -/
theorem C115_isoalign (ct xi sig : ℝ) (hs : 0 < sig) (h1 : -1 < ct) (h2 : ct < 1) :
    ContDiffAt ℝ ∞ (fun θ : ℝ × ℝ => (mixture_isoalign_spin_tilt (fin ct) (fin θ.1) (fin θ.2)).toReal) (xi, sig) := by
  have hx : ContDiffAt ℝ ∞ (fun θ : ℝ × ℝ => θ.1) (xi, sig) := contDiffAt_fst
  have hsig : ContDiffAt ℝ ∞ (fun θ : ℝ × ℝ => θ.2) (xi, sig) := contDiffAt_snd
  have e := tnPdf_smooth (θ := (xi, sig)) ct (contDiffAt_const (c := (1:ℝ))) hsig (contDiffAt_const (c := (-1:ℝ))) (contDiffAt_const (c := (1:ℝ))) hs (by norm_num)
  refine ((((contDiffAt_const (c := (1:ℝ))).sub hx).div_const 2).add (hx.mul e)).congr_of_eventuallyEq ?_
  filter_upwards [hsig.continuousAt.eventually (lt_mem_nhds hs)] with t g
  rw [isoalign_in g h1.le h2.le, toReal_fin]

/-- the parameters of a typical run: `m1 = 30`, `q = 0.8`, a peak at 35 -/
example : ContDiffAt ℝ ∞ (fun θ : Fin 7 → ℝ => (plpeak_primary_ratio_pdf (fin 30) (fin (4/5)) (fin (θ 0)) (fin (θ 1)) (fin (θ 2)) (fin (θ 3)) (fin (θ 4))
      (fin (θ 5)) (fin (θ 6))).toReal) ![-1, -1, 5, 100, 35, 4, 1/10] :=
  C115_plpeak 30 (4/5) (-1) (-1) 5 100 35 4 (1/10) (by norm_num) (by norm_num) (by norm_num) (by norm_num) (by norm_num) (by norm_num)

/-- the range from 2 to 100 at slope -1 -/
example : ContDiffAt ℝ ∞ (fun θ : ℝ × ℝ × ℝ => (powerlaw_pdf (fin 10) (fin θ.1) (fin θ.2.1) (fin θ.2.2) 0).toReal) (-1, 2, 100) :=
  C115_powerlaw 10 (-1) 2 100 0 (by norm_num) (by norm_num) (by norm_num)

/-- **C115** (power-law redshift model): the weight of every sample above redshift -1 is smooth in the slope. -/
theorem C115_redshift (m : ZModel) (h : m.OK) (twoD : Bool) (z : Arr ℝ) (i : ℕ) (lamb : ℝ) (hz : -1 < z.get i) :
    ContDiffAt ℝ ∞ (fun l => (m.call twoD z l i).toReal) lamb := by
  have hN := ZModel.norm_pos h lamb
  have hzm := h.above
  have hn : ContDiff ℝ ∞ (fun l => m.normalization l) := by
    unfold ZModel.normalization trapz ZModel.prob
    have hp : ∀ j, j < 1000 → ContDiff ℝ ∞ (fun l : ℝ => m.dV (m.zs.get j) * (1 + m.zs.get j) ^ (l - 1)) := by
      intro j hj
      have hz := (GW.linspace_mem h.overlap hj).1
      have hz1 : (0:ℝ) < 1 + m.zs.get j := by show 0 < 1 + (linspace m.zmin m.zmax 1000).get j; linarith
      exact contDiff_const.mul (contDiff_const.rpow (contDiff_id.sub contDiff_const) fun _ => hz1.ne')
    refine contDiff_const.mul (ContDiff.sum fun j hj => ?_)
    have hj' : j < 999 := Finset.mem_range.1 hj
    exact contDiff_const.mul ((hp (j + 1) (by omega)).add (hp j (by omega)))
  have hz1 : (0:ℝ) < 1 + z.get i := by linarith
  by_cases hle : z.get i ≤ m.zmax
  · have key : ContDiffAt ℝ ∞ (fun l : ℝ => m.dVdz twoD i * (1 + z.get i) ^ (l - 1) / m.normalization l) lamb :=
      (contDiffAt_const.mul (contDiffAt_const.rpow (contDiffAt_id.sub contDiffAt_const) hz1.ne')).div hn.contDiffAt hN.ne'
    refine key.congr_of_eventuallyEq ?_
    filter_upwards [hn.continuous.continuousAt.eventually (lt_mem_nhds hN)] with l hl
    rw [ZModel.call, if_pos hle, ZModel.prob, div_fin (ne_of_gt hl), toReal_fin]
  · simp only [ZModel.call, if_neg hle]
    exact contDiffAt_const

example (lamb : ℝ) : ContDiffAt ℝ ∞ (fun l => (exampleZ.call true exampleZ.zpe l 1).toReal) lamb :=
  C115_redshift exampleZ exampleZ_OK true _ 1 lamb (by norm_num [exampleZ])

/-- **C26 fails**, seen from neighbouring slopes: at every point of its range the density of the numpyro `Powerlaw` distribution jumps at
slope -1, from the value of the normalised power law to a smaller one. -/
theorem C26_slope_jump_fails (a b x : ℝ) (h0 : 0 < a) (h : a < b) (h1 : a ≤ x) (h2 : x ≤ b) :
    ∃ l : ℝ, Tendsto (fun α => (exp (pl_log_prob (fin α) (fin a) (fin b) (fin x))).toReal) (𝓝[≠] (-1)) (𝓝 l) ∧
      (exp (pl_log_prob (fin (-1)) (fin a) (fin b) (fin x))).toReal < l := by
  have hx := h0.trans_le h1
  have hb := h0.trans h
  have hr : 0 < b / a := div_pos hb h0
  refine ⟨x ^ (-1:ℝ) * plNorm (-1) a b, ?_, ?_⟩
  · have hc : ContinuousAt (fun α => x ^ α * plNorm α a b) (-1) :=
      (ContDiffAt.rpow (n := ∞) contDiffAt_const contDiffAt_id hx.ne').continuousAt.mul
        (plNorm_smooth (θ := (-1:ℝ)) contDiffAt_id (contDiffAt_const (c := a)) (contDiffAt_const (c := b)) h0 h).continuousAt
    refine (hc.tendsto.mono_left nhdsWithin_le_nhds).congr' ?_
    filter_upwards [self_mem_nhdsWithin] with α hα
    rw [pl_pdf_eq hα h0 h h1 h2, toReal_fin]
  · have e : exp (pl_log_prob (fin (-1)) (fin a) (fin b) (fin x)) = fin (x⁻¹ / (b / a)) := by
      simp only [pl_log_prob]
      rw [if_neg (by simp [not_lt.2 h1, not_lt.2 h2]), if_pos (by simp), div_fin h0.ne', log_fin hx, log_fin hr, neg_fin,
        sub_fin, exp_fin, Real.exp_sub, Real.exp_neg, Real.exp_log hx, Real.exp_log hr]
    have hl := log_div_pos h0 h
    rw [e, toReal_fin, plNorm, if_pos rfl, Real.rpow_neg_one, div_eq_mul_one_div x⁻¹]
    refine mul_lt_mul_of_pos_left (one_div_lt_one_div_of_lt hl ?_) (inv_pos.2 hx)
    have := Real.add_one_le_exp (Real.log (b / a))
    rw [Real.exp_log hr] at this
    linarith

end GW
end
