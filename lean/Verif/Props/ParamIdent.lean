import Verif.Props.Parametric
import Verif.Props.RedshiftModel
import Mathlib.Analysis.SpecialFunctions.Gaussian.PoissonSummation
import Mathlib.Analysis.SpecialFunctions.Complex.Analytic
import Mathlib.Analysis.Analytic.Uniqueness

/-! # Property C116: the parametric densities determine their hyper-parameters -/

open Filter Topology Set
noncomputable section
open Classical
namespace GW
open F

/-- two power laws of the same ratio at two points -/
theorem rpow_ident {r α α' : ℝ} (h0 : 0 < r) (h1 : r ≠ 1) (h : r ^ α = r ^ α') : α = α' := by
  have := congrArg Real.log h
  rw [Real.log_rpow h0, Real.log_rpow h0] at this
  exact mul_right_cancel₀ (Real.log_ne_zero_of_pos_of_ne_one h0 h1) this

/-- **C116** (`powerlaw_pdf`).  Two slopes giving the same density at two points of the range are the same slope. -/
theorem C116_powerlaw (α α' low high x y : ℝ) (fl : F) (h0 : 0 < low) (h : low < high) (hx : low ≤ x ∧ x ≤ high) (hy : low ≤ y ∧ y ≤ high)
    (hxy : x ≠ y) (ex : powerlaw_pdf (fin x) (fin α) (fin low) (fin high) fl = powerlaw_pdf (fin x) (fin α') (fin low) (fin high) fl)
    (ey : powerlaw_pdf (fin y) (fin α) (fin low) (fin high) fl = powerlaw_pdf (fin y) (fin α') (fin low) (fin high) fl) : α = α' := by
  have hx0 := h0.trans_le hx.1
  have hy0 := h0.trans_le hy.1
  rw [powerlaw_pdf_in h0 h hx.1 hx.2, powerlaw_pdf_in h0 h hx.1 hx.2, fin_inj] at ex
  rw [powerlaw_pdf_in h0 h hy.1 hy.2, powerlaw_pdf_in h0 h hy.1 hy.2, fin_inj] at ey
  refine rpow_ident (div_pos hx0 hy0) (fun hc => hxy ((div_eq_one_iff_eq hy0.ne').1 hc)) ?_
  rw [Real.div_rpow hx0.le hy0.le, Real.div_rpow hx0.le hy0.le]
  have n1 := (plNorm_pos (α := α) h0 h).ne'
  have n2 := (plNorm_pos (α := α') h0 h).ne'
  have p1 := (Real.rpow_pos_of_pos hy0 α).ne'
  have p2 := (Real.rpow_pos_of_pos hy0 α').ne'
  have e1 := congrArg₂ (· / ·) ex ey
  simp only [mul_div_mul_right _ _ n1, mul_div_mul_right _ _ n2] at e1
  exact e1

/-- a Gaussian bump on an interval determines its centre and width -/
theorem gauss_ident {mu mu' sig sig' c c' a b : ℝ} (hs : 0 < sig) (hs' : 0 < sig') (hc : 0 < c) (hc' : 0 < c') (hab : a < b)
    (h : ∀ x, a ≤ x → x ≤ b → Real.exp (-((x - mu) * (x - mu)) / (2 * (sig * sig))) * c = Real.exp (-((x - mu') * (x - mu')) / (2 * (sig' * sig'))) * c') :
    mu = mu' ∧ sig = sig' := by
  obtain ⟨u, hu⟩ : ∃ u, u = 1 / (2 * (sig * sig)) := ⟨_, rfl⟩
  obtain ⟨v, hv⟩ : ∃ v, v = 1 / (2 * (sig' * sig')) := ⟨_, rfl⟩
  have hu0 : 0 < u := by rw [hu]; positivity
  have hl : ∀ x, a ≤ x → x ≤ b → -((x - mu) * (x - mu)) * u + Real.log c = -((x - mu') * (x - mu')) * v + Real.log c' := by
    intro x h1 h2
    have e := congrArg Real.log (h x h1 h2)
    rw [Real.log_mul (Real.exp_pos _).ne' hc.ne', Real.log_mul (Real.exp_pos _).ne' hc'.ne', Real.log_exp, Real.log_exp] at e
    rw [hu, hv, mul_one_div, mul_one_div]; exact e
  have ea := hl a le_rfl hab.le
  have eb := hl b hab.le le_rfl
  have em := hl ((a + b) / 2) (by linarith) (by linarith)
  have hd : 0 < (b - a) ^ 2 := by have : 0 < b - a := by linarith
                                  positivity
  have huv : u = v := by
    have : (u - v) * (b - a) ^ 2 = 0 := by linear_combination (-2) * ea + (-2) * eb + 4 * em
    rcases mul_eq_zero.1 this with h1 | h1
    · linarith
    · exact absurd h1 hd.ne'
  subst huv
  constructor
  · have : (mu - mu') * (2 * u * (b - a)) = 0 := by linear_combination eb - ea
    rcases mul_eq_zero.1 this with h1 | h1
    · linarith
    · exact absurd h1 (mul_pos (mul_pos two_pos hu0) (by linarith)).ne'
  · have e1 : sig * sig = sig' * sig' := by
      have := hu.symm.trans hv
      rw [div_eq_div_iff (by positivity) (by positivity)] at this
      linarith
    nlinarith

theorem tn_const_pos {mu sig low high : ℝ} (hs : 0 < sig) (h : low < high) :
    0 < 1 / (sig * Real.sqrt (2 * Real.pi)) / (gcdf mu sig high - gcdf mu sig low) :=
  div_pos (one_div_pos.2 (mul_pos hs sqrt_two_pi_pos)) (sub_pos.2 (gcdf_strictMono hs h))

/-- **C116** (`truncnorm_pdf`): the density on its range determines mean and width. -/
theorem C116_truncnorm (mu mu' sig sig' low high : ℝ) (hs : 0 < sig) (hs' : 0 < sig') (h : low < high)
    (he : ∀ x, low ≤ x → x ≤ high → truncnorm_pdf (fin x) (fin mu) (fin sig) (fin low) (fin high) false
      = truncnorm_pdf (fin x) (fin mu') (fin sig') (fin low) (fin high) false) : mu = mu' ∧ sig = sig' := by
  refine gauss_ident hs hs' (tn_const_pos (mu := mu) hs h) (tn_const_pos (mu := mu') hs' h) h fun x h1 h2 => ?_
  have := he x h1 h2
  rw [truncnorm_pdf_in hs h h1 h2, truncnorm_pdf_in hs' h h1 h2, fin_inj] at this
  exact this

/-- **C116** (`betadist`): the density on the open range determines both shapes. -/
theorem C116_betadist (α β α' β' s : ℝ) (fl : F) (hα : 0 < α) (hβ : 0 < β) (hα' : 0 < α') (hβ' : 0 < β') (hs : 0 < s)
    (he : ∀ x, 0 < x → x < s → betadist (fin x) (fin α) (fin β) (fin s) fl = betadist (fin x) (fin α') (fin β') (fin s) fl) :
    α = α' ∧ β = β' := by
  have hB := ProbabilityTheory.beta_pos hα hβ
  have hB' := ProbabilityTheory.beta_pos hα' hβ'
  have hl : ∀ u, 0 < u → u < 1 → (α - α') * Real.log u + (β - β') * Real.log (1 - u)
      = Real.log (ProbabilityTheory.beta α β) - Real.log (ProbabilityTheory.beta α' β') := by
    intro u h0 h1
    have e := he (u * s) (by positivity) (by nlinarith)
    rw [betadist_in hα hβ (by positivity) (by nlinarith), betadist_in hα' hβ' (by positivity) (by nlinarith), fin_inj, betaR, betaR,
      mul_div_cancel_right₀ _ hs.ne'] at e
    have hv : 0 < 1 - u := by linarith
    have p1 := Real.rpow_pos_of_pos h0
    have p2 := Real.rpow_pos_of_pos hv
    have e2 := congrArg Real.log ((div_left_inj' hs.ne').1 e)
    rw [Real.log_mul (mul_pos (one_div_pos.2 hB) (p1 _)).ne' (p2 _).ne', Real.log_mul (one_div_pos.2 hB).ne' (p1 _).ne',
      Real.log_mul (mul_pos (one_div_pos.2 hB') (p1 _)).ne' (p2 _).ne', Real.log_mul (one_div_pos.2 hB').ne' (p1 _).ne',
      Real.log_rpow h0, Real.log_rpow h0, Real.log_rpow hv, Real.log_rpow hv, one_div, one_div, Real.log_inv, Real.log_inv] at e2
    linarith
  have e1 := hl (1/4) (by norm_num) (by norm_num)
  have e2 := hl (3/4) (by norm_num) (by norm_num)
  have e3 := hl (1/2) (by norm_num) (by norm_num)
  rw [show (1:ℝ) - 1/4 = 3/4 by norm_num] at e1
  rw [show (1:ℝ) - 3/4 = 1/4 by norm_num] at e2
  rw [show (1:ℝ) - 1/2 = 1/2 by norm_num] at e3
  have l4 : Real.log (1/4) = 2 * Real.log (1/2) := by
    rw [show (1/4:ℝ) = (1/2) ^ 2 by norm_num, Real.log_pow]; norm_num
  have l34 : Real.log (3/4) < 0 := Real.log_neg (by norm_num) (by norm_num)
  have hlt : Real.log (1/4) < Real.log (3/4) := Real.log_lt_log (by norm_num) (by norm_num)
  have hab : (α - α') - (β - β') = 0 := by
    have : ((α - α') - (β - β')) * (Real.log (1/4) - Real.log (3/4)) = 0 := by linear_combination e1 - e2
    rcases mul_eq_zero.1 this with h1 | h1
    · exact h1
    · linarith
  have ha : (α - α') = 0 := by
    have hb : β - β' = α - α' := by linarith
    rw [hb] at e1 e3
    have : (α - α') * Real.log (3/4) = 0 := by rw [l4] at e1; linear_combination e1 - e3
    rcases mul_eq_zero.1 this with h1 | h1
    · exact h1
    · linarith
  exact ⟨by linarith, by linarith⟩

/-! ### mixtures -/

/-- `A x^α + B` times a Gaussian bump -/
def tailMix (A α B mu sig x : ℝ) : ℝ := A * x ^ α + B * Real.exp (-((x - mu) * (x - mu)) / (2 * (sig * sig)))

theorem tailMix_analytic (A α B mu sig : ℝ) : AnalyticOnNhd ℝ (tailMix A α B mu sig) (Ioi 0) := by
  intro x hx
  have hx0 : (0:ℝ) < x := hx
  have hid : AnalyticAt ℝ (fun y : ℝ => y) x := analyticAt_id
  have h1 : AnalyticAt ℝ (fun y : ℝ => A * Real.exp (Real.log y * α)) x :=
    analyticAt_const.mul ((hid.log hx0).mul analyticAt_const).rexp
  have h2 : AnalyticAt ℝ (fun y : ℝ => B * Real.exp (-((y - mu) * (y - mu)) / (2 * (sig * sig)))) x := by
    have hq : AnalyticAt ℝ (fun y : ℝ => -((y - mu) * (y - mu)) * (2 * (sig * sig))⁻¹) x :=
      (((hid.sub analyticAt_const).mul (hid.sub analyticAt_const)).neg).mul analyticAt_const
    simp only [div_eq_mul_inv]
    exact analyticAt_const.mul hq.rexp
  refine (h1.add h2).congr ?_
  filter_upwards [lt_mem_nhds hx0] with y hy
  simp only [Pi.add_apply, tailMix, Real.rpow_def_of_pos hy]

theorem gauss_tail (mu sig s : ℝ) (hs : 0 < sig) :
    Tendsto (fun x : ℝ => Real.exp (-((x - mu) * (x - mu)) / (2 * (sig * sig))) / x ^ s) atTop (𝓝 0) := by
  have hp : 0 < 1 / (2 * (sig * sig)) := by positivity
  have h := rexp_neg_quadratic_isLittleO_rpow_atTop (a := -(1 / (2 * (sig * sig)))) (by linarith) (mu / (sig * sig)) s
  have h2 := h.tendsto_div_nhds_zero.const_mul (Real.exp (-(mu * mu) / (2 * (sig * sig))))
  rw [mul_zero] at h2
  refine h2.congr fun x => ?_
  rw [← mul_div_assoc, ← Real.exp_add]
  congr 2
  field_simp
  ring

/-- mixtures of a power law and a Gaussian that agree on an interval have the same power-law part -/
theorem tailMix_ident {A α B mu sig A' α' B' mu' sig' a b : ℝ} (hA : 0 < A) (hA' : 0 < A') (hs : 0 < sig) (hs' : 0 < sig') (h0 : 0 < a) (hab : a < b)
    (h : ∀ x, a ≤ x → x ≤ b → tailMix A α B mu sig x = tailMix A' α' B' mu' sig' x) : α = α' ∧ A = A' := by
  have hmid : a < (a + b) / 2 ∧ (a + b) / 2 < b := ⟨by linarith, by linarith⟩
  have hall := (tailMix_analytic A α B mu sig).eqOn_of_preconnected_of_eventuallyEq (tailMix_analytic A' α' B' mu' sig') isPreconnected_Ioi
    (z₀ := (a + b) / 2) (show (0:ℝ) < (a + b) / 2 by linarith) (by
      filter_upwards [Ioo_mem_nhds hmid.1 hmid.2] with x hx
      exact h x hx.1.le hx.2.le)
  have lim : ∀ (A α B mu sig r : ℝ), 0 < sig → Tendsto (fun x : ℝ => x ^ (α - r)) atTop (𝓝 0) →
      Tendsto (fun x => tailMix A α B mu sig x / x ^ r) atTop (𝓝 0) := by
    intro A α B mu sig r hs ht
    have := (ht.const_mul A).add ((gauss_tail mu sig r hs).const_mul B)
    rw [mul_zero, mul_zero, add_zero] at this
    refine this.congr' ?_
    filter_upwards [eventually_gt_atTop 0] with x hx
    rw [Real.rpow_sub hx, tailMix]; ring
  have lim2 : ∀ (A α B mu sig : ℝ), 0 < sig → Tendsto (fun x => tailMix A α B mu sig x / x ^ α) atTop (𝓝 A) := by
    intro A α B mu sig hs
    have := (tendsto_const_nhds (x := A)).add ((gauss_tail mu sig α hs).const_mul B)
    rw [mul_zero, add_zero] at this
    refine this.congr' ?_
    filter_upwards [eventually_gt_atTop 0] with x hx
    have := (Real.rpow_pos_of_pos hx α).ne'
    rw [tailMix]; field_simp
  have neg : ∀ r : ℝ, r < 0 → Tendsto (fun x : ℝ => x ^ r) atTop (𝓝 0) := by
    intro r hr
    simpa using tendsto_rpow_neg_atTop (y := -r) (by linarith)
  have ev : ∀ r : ℝ, (fun x => tailMix A α B mu sig x / x ^ r) =ᶠ[atTop] fun x => tailMix A' α' B' mu' sig' x / x ^ r := by
    intro r
    filter_upwards [eventually_gt_atTop 0] with x hx
    rw [hall hx]
  have hα : α = α' := by
    rcases lt_trichotomy α α' with hlt | heq | hgt
    · have e1 := (lim A α B mu sig α' hs (neg _ (by linarith))).congr' (ev α')
      exact absurd (tendsto_nhds_unique e1 (lim2 A' α' B' mu' sig' hs')) hA'.ne
    · exact heq
    · have e1 := (lim A' α' B' mu' sig' α hs' (neg _ (by linarith))).congr' (ev α).symm
      exact absurd (tendsto_nhds_unique e1 (lim2 A α B mu sig hs)) hA.ne
  subst hα
  exact ⟨rfl, tendsto_nhds_unique (lim2 A α B mu sig hs) ((lim2 A' α B' mu' sig' hs').congr' (ev α).symm)⟩

theorem plpeak_pos {m1 α mmin mmax mpp sig lam : ℝ} (h0 : 0 < mmin) (h : mmin < mmax) (hs : 0 < sig) (hl0 : 0 ≤ lam) (hl1 : lam < 1)
    (h1 : mmin ≤ m1) (h2 : m1 ≤ mmax) : ∃ v, 0 < v ∧ plpeak_primary_pdf (fin m1) (fin α) (fin mmin) (fin mmax) (fin mpp) (fin sig) (fin lam) = fin v := by
  refine ⟨_, ?_, plpeak_in h0 h hs h1 h2⟩
  exact add_pos_of_pos_of_nonneg (mul_pos (by linarith) (mul_pos (Real.rpow_pos_of_pos (h0.trans_le h1) _) (plNorm_pos h0 h)))
    (mul_nonneg hl0 (tnPdf_pos hs h _).le)

/-- **C116** (power law + peak).  Two sets of hyper-parameters with a fraction below 1 in the peak that give the same primary-mass density have the
same mass bounds, the same slope and the same fraction, and, unless the peak is empty, the same peak position and width. -/
theorem C116_plpeak (α mmin mmax mpp sig lam α' mmin' mmax' mpp' sig' lam' : ℝ) (h0 : 0 < mmin) (h : mmin < mmax) (h0' : 0 < mmin') (h' : mmin' < mmax')
    (hs : 0 < sig) (hs' : 0 < sig') (hl0 : 0 ≤ lam) (hl1 : lam < 1) (hl0' : 0 ≤ lam') (hl1' : lam' < 1)
    (he : ∀ m : ℝ, plpeak_primary_pdf (fin m) (fin α) (fin mmin) (fin mmax) (fin mpp) (fin sig) (fin lam)
      = plpeak_primary_pdf (fin m) (fin α') (fin mmin') (fin mmax') (fin mpp') (fin sig') (fin lam')) :
    mmin = mmin' ∧ mmax = mmax' ∧ α = α' ∧ lam = lam' ∧ (lam ≠ 0 → mpp = mpp' ∧ sig = sig') := by
  have supp : ∀ m, (mmin ≤ m ∧ m ≤ mmax) ↔ (mmin' ≤ m ∧ m ≤ mmax') := by
    intro m
    constructor
    · rintro ⟨a1, a2⟩
      by_contra hc
      obtain ⟨v, hv, e⟩ := plpeak_pos (α := α) (mpp := mpp) h0 h hs hl0 hl1 a1 a2
      rw [he, plpeak_out hs' h' (by by_contra hcc; push Not at hcc; exact hc hcc), fin_inj] at e
      exact hv.ne e
    · rintro ⟨a1, a2⟩
      by_contra hc
      obtain ⟨v, hv, e⟩ := plpeak_pos (α := α') (mpp := mpp') h0' h' hs' hl0' hl1' a1 a2
      rw [← he, plpeak_out hs h (by by_contra hcc; push Not at hcc; exact hc hcc), fin_inj] at e
      exact hv.ne e
  have e1 := (supp mmin).1 ⟨le_rfl, h.le⟩
  have e2 := (supp mmax).1 ⟨h.le, le_rfl⟩
  have e3 := (supp mmin').2 ⟨le_rfl, h'.le⟩
  have e4 := (supp mmax').2 ⟨h'.le, le_rfl⟩
  obtain rfl : mmin = mmin' := le_antisymm e3.1 e1.1
  obtain rfl : mmax = mmax' := le_antisymm e2.2 e4.2
  have hr : ∀ x, mmin ≤ x → x ≤ mmax → (1 - lam) * (x ^ α * plNorm α mmin mmax) + lam * tnPdf mpp sig mmin mmax x
      = (1 - lam') * (x ^ α' * plNorm α' mmin mmax) + lam' * tnPdf mpp' sig' mmin mmax x := by
    intro x a1 a2
    have e := he x
    rwa [plpeak_in h0 h hs a1 a2, plpeak_in h0 h hs' a1 a2, fin_inj] at e
  obtain ⟨hα, hA⟩ := tailMix_ident (A := (1 - lam) * plNorm α mmin mmax) (A' := (1 - lam') * plNorm α' mmin mmax)
    (B := lam * (1 / (sig * Real.sqrt (2 * Real.pi)) / (gcdf mpp sig mmax - gcdf mpp sig mmin)))
    (B' := lam' * (1 / (sig' * Real.sqrt (2 * Real.pi)) / (gcdf mpp' sig' mmax - gcdf mpp' sig' mmin)))
    (mu := mpp) (mu' := mpp') (α := α) (α' := α') (mul_pos (by linarith) (plNorm_pos h0 h)) (mul_pos (by linarith) (plNorm_pos h0 h)) hs hs' h0 h (by
      intro x a1 a2
      have := hr x a1 a2
      unfold tnPdf at this
      unfold tailMix
      linear_combination this)
  subst hα
  have hlam : lam = lam' := by
    have := mul_right_cancel₀ (plNorm_pos (α := α) h0 h).ne' hA
    linarith
  subst hlam
  refine ⟨rfl, rfl, rfl, rfl, fun hne => C116_truncnorm mpp mpp' sig sig' mmin mmax hs hs' h fun x a1 a2 => ?_⟩
  rw [truncnorm_pdf_in hs h a1 a2, truncnorm_pdf_in hs' h a1 a2, fin_inj]
  exact mul_left_cancel₀ hne (by linarith [hr x a1 a2])

/-- **C116** (power law + peak, joint model): at any primary mass inside the range, two mass ratios determine the mass-ratio slope. -/
theorem C116_plpeak_ratio (m1 q q' α β β' mmin mmax mpp sig lam : ℝ) (h0 : 0 < mmin) (hm : mmin < m1) (hm2 : m1 ≤ mmax) (hs : 0 < sig)
    (hl0 : 0 ≤ lam) (hl1 : lam < 1) (hq : mmin ≤ q * m1) (hq1 : q ≤ 1) (hq' : mmin ≤ q' * m1) (hq1' : q' ≤ 1) (hne : q ≠ q')
    (he : plpeak_primary_ratio_pdf (fin m1) (fin q) (fin α) (fin β) (fin mmin) (fin mmax) (fin mpp) (fin sig) (fin lam)
      = plpeak_primary_ratio_pdf (fin m1) (fin q) (fin α) (fin β') (fin mmin) (fin mmax) (fin mpp) (fin sig) (fin lam))
    (he' : plpeak_primary_ratio_pdf (fin m1) (fin q') (fin α) (fin β) (fin mmin) (fin mmax) (fin mpp) (fin sig) (fin lam)
      = plpeak_primary_ratio_pdf (fin m1) (fin q') (fin α) (fin β') (fin mmin) (fin mmax) (fin mpp) (fin sig) (fin lam)) : β = β' := by
  have hm0 := h0.trans hm
  have hlo : 0 < mmin / m1 := div_pos h0 hm0
  have hlt : mmin / m1 < 1 := (div_lt_one hm0).2 hm
  obtain ⟨v, hv, e⟩ := plpeak_pos (α := α) (mpp := mpp) h0 (hm.trans_le hm2) hs hl0 hl1 hm.le hm2
  have a1 : mmin / m1 ≤ q := by rw [div_le_iff₀ hm0]; exact hq
  have a2 : mmin / m1 ≤ q' := by rw [div_le_iff₀ hm0]; exact hq'
  refine C116_powerlaw β β' (mmin / m1) 1 q q' 0 hlo hlt ⟨a1, hq1⟩ ⟨a2, hq1'⟩ hne ?_ ?_
  · simp only [plpeak_primary_ratio_pdf] at he
    rw [e, div_fin hm0.ne', one_def, powerlaw_pdf_in hlo hlt a1 hq1, powerlaw_pdf_in hlo hlt a1 hq1, mul_fin, mul_fin, fin_inj] at he
    rw [powerlaw_pdf_in hlo hlt a1 hq1, powerlaw_pdf_in hlo hlt a1 hq1, fin_inj]
    exact mul_right_cancel₀ hv.ne' he
  · simp only [plpeak_primary_ratio_pdf] at he'
    rw [e, div_fin hm0.ne', one_def, powerlaw_pdf_in hlo hlt a2 hq1', powerlaw_pdf_in hlo hlt a2 hq1', mul_fin, mul_fin, fin_inj] at he'
    rw [powerlaw_pdf_in hlo hlt a2 hq1', powerlaw_pdf_in hlo hlt a2 hq1', fin_inj]
    exact mul_right_cancel₀ hv.ne' he'

/-- **C116** (isotropic + aligned tilts): the density on `[-1,1]` determines the aligned fraction (below 1) and, unless it is 0, the width. -/
theorem C116_isoalign (xi xi' sig sig' : ℝ) (hs : 0 < sig) (hs' : 0 < sig') (hx : xi < 1) (hx' : xi' < 1)
    (he : ∀ ct : ℝ, -1 ≤ ct → ct ≤ 1 → mixture_isoalign_spin_tilt (fin ct) (fin xi) (fin sig) = mixture_isoalign_spin_tilt (fin ct) (fin xi') (fin sig')) :
    xi = xi' ∧ (xi ≠ 0 → sig = sig') := by
  have hr : ∀ x : ℝ, -1 ≤ x → x ≤ 1 → (1 - xi) / 2 + xi * tnPdf 1 sig (-1) 1 x = (1 - xi') / 2 + xi' * tnPdf 1 sig' (-1) 1 x := by
    intro x a1 a2
    have e := he x a1 a2
    rwa [isoalign_in hs a1 a2, isoalign_in hs' a1 a2, fin_inj] at e
  obtain ⟨-, hA⟩ := tailMix_ident (a := 1/2) (b := 1) (A := (1 - xi) / 2) (A' := (1 - xi') / 2) (α := 0) (α' := 0) (mu := 1) (mu' := 1)
    (B := xi * (1 / (sig * Real.sqrt (2 * Real.pi)) / (gcdf 1 sig 1 - gcdf 1 sig (-1))))
    (B' := xi' * (1 / (sig' * Real.sqrt (2 * Real.pi)) / (gcdf 1 sig' 1 - gcdf 1 sig' (-1))))
    (by linarith) (by linarith) hs hs' (by norm_num) (by norm_num) (by
      intro x a1 a2
      have := hr x (by linarith) a2
      unfold tnPdf at this
      simp only [tailMix, Real.rpow_zero]
      linear_combination this)
  have hxi : xi = xi' := by linarith
  subst hxi
  refine ⟨rfl, fun hne => (C116_truncnorm 1 1 sig sig' (-1) 1 hs hs' (by norm_num) fun x a1 a2 => ?_).2⟩
  rw [truncnorm_pdf_in hs (by norm_num) a1 a2, truncnorm_pdf_in hs' (by norm_num) a1 a2, fin_inj]
  exact mul_left_cancel₀ hne (by linarith [hr x a1 a2])

/-- **C116** (power-law redshift model): the weights of two samples of one data set at different redshifts determine the slope. -/
theorem C116_redshift (m : ZModel) (h : m.OK) (twoD : Bool) (lamb lamb' : ℝ) (i j : ℕ) (z : Arr ℝ) (hz : z = if twoD then m.zpe else m.zinj)
    (hi : -1 < z.get i ∧ z.get i ≤ m.zmax ∧ 0 < m.dV (z.get i)) (hj : -1 < z.get j ∧ z.get j ≤ m.zmax ∧ 0 < m.dV (z.get j)) (hij : z.get i ≠ z.get j)
    (ei : m.call twoD z lamb i = m.call twoD z lamb' i) (ej : m.call twoD z lamb j = m.call twoD z lamb' j) : lamb = lamb' := by
  have hN := ZModel.norm_pos h lamb
  have hN' := ZModel.norm_pos h lamb'
  have hd : ∀ k, m.dVdz twoD k = m.dV (z.get k) := by
    intro k; subst hz; cases twoD <;> rfl
  rw [ZModel.call, ZModel.call, if_pos hi.2.1, if_pos hi.2.1, div_fin hN.ne', div_fin hN'.ne', fin_inj, ZModel.prob, ZModel.prob, hd] at ei
  rw [ZModel.call, ZModel.call, if_pos hj.2.1, if_pos hj.2.1, div_fin hN.ne', div_fin hN'.ne', fin_inj, ZModel.prob, ZModel.prob, hd] at ej
  have p1 : 0 < 1 + z.get i := by linarith [hi.1]
  have p2 : 0 < 1 + z.get j := by linarith [hj.1]
  have ei' : (1 + z.get i) ^ (lamb - 1) / m.normalization lamb = (1 + z.get i) ^ (lamb' - 1) / m.normalization lamb' := by
    refine mul_left_cancel₀ hi.2.2.ne' ?_
    rw [← mul_div_assoc, ← mul_div_assoc]; exact ei
  have ej' : (1 + z.get j) ^ (lamb - 1) / m.normalization lamb = (1 + z.get j) ^ (lamb' - 1) / m.normalization lamb' := by
    refine mul_left_cancel₀ hj.2.2.ne' ?_
    rw [← mul_div_assoc, ← mul_div_assoc]; exact ej
  have e := congrArg₂ (· / ·) ei' ej'
  simp only [div_div_div_cancel_right₀ hN.ne', div_div_div_cancel_right₀ hN'.ne', ← Real.div_rpow p1.le p2.le] at e
  have := rpow_ident (div_pos p1 p2) (fun hc => hij (by have := (div_eq_one_iff_eq p2.ne').1 hc; linarith)) e
  linarith

/-- moving a 10 % peak from 35 to 36 changes the density somewhere -/
example : ∃ m : ℝ, plpeak_primary_pdf (fin m) (fin (-2)) (fin 5) (fin 100) (fin 35) (fin 4) (fin (1/10))
    ≠ plpeak_primary_pdf (fin m) (fin (-2)) (fin 5) (fin 100) (fin 36) (fin 4) (fin (1/10)) := by
  by_contra hc
  push Not at hc
  have := (C116_plpeak (-2) 5 100 35 4 (1/10) (-2) 5 100 36 4 (1/10) (by norm_num) (by norm_num) (by norm_num) (by norm_num) (by norm_num) (by norm_num)
    (by norm_num) (by norm_num) (by norm_num) (by norm_num) hc).2.2.2.2 (by norm_num)
  norm_num at this

/-- the two redshifts of the example model: different slopes give different weights to one of them -/
example : exampleZ.call true exampleZ.zpe 2 0 ≠ exampleZ.call true exampleZ.zpe 3 0 ∨ exampleZ.call true exampleZ.zpe 2 1 ≠ exampleZ.call true exampleZ.zpe 3 1 := by
  by_contra hc
  push Not at hc
  have e2 : exampleZ.zmax = 1/2 := by
    simp [exampleZ, ZModel.zmax, arrMax, List.range_succ]; norm_num
  have := C116_redshift exampleZ exampleZ_OK true 2 3 0 1 exampleZ.zpe rfl (by rw [e2]; norm_num [exampleZ]) (by rw [e2]; norm_num [exampleZ])
    (by norm_num [exampleZ]) hc.1 hc.2
  norm_num at this

end GW
end
