import Verif.Props.RoundingSpins
import Verif.Props.Distributions

/-! # Property C147, continued: the exact densities the errors are measured against, and examples in single precision -/

open Finset
noncomputable section
open Classical
namespace GW
open F

variable {f : Arith} {κ : ℝ}

/-! ### without rounding the functions are those of `Verif.Model.Parametric` -/

/-- **C147.** Without rounding the modelled functions are the ones of the exact model. -/
theorem C147_exact (m1 q alpha beta mmin mmax mpp sigpp lam a1 a2 b1 b2 ct1 ct2 xi1 xi2 s1 s2 : F) :
    plpeak_primary_pdfR Arith.exact F.pow erfF m1 alpha mmin mmax mpp sigpp lam = plpeak_primary_pdf m1 alpha mmin mmax mpp sigpp lam ∧
    plpeak_primary_ratio_pdfR Arith.exact F.pow erfF m1 q alpha beta mmin mmax mpp sigpp lam = plpeak_primary_ratio_pdf m1 q alpha beta mmin mmax mpp sigpp lam ∧
    mixture_isoalign_spin_tiltR Arith.exact erfF ct1 xi1 s1 = mixture_isoalign_spin_tilt ct1 xi1 s1 ∧
    independent_spin_tiltR Arith.exact erfF ct1 ct2 xi1 xi2 s1 s2 = independent_spin_tilt ct1 ct2 xi1 xi2 s1 s2 ∧
    betadistR Arith.exact betalnF m1 a1 b1 = betadist m1 a1 b1 ∧
    independent_spin_magnitudeR Arith.exact betalnF m1 q a1 b1 a2 b2 = independent_spin_magnitude_beta_dist m1 q a1 b1 a2 b2 := by
  have hl : Arith.exact.log = F.log := rfl
  have he : Arith.exact.exp = F.exp := rfl
  have l1 : F.log 1 = 0 := by rw [one_def, log_fin one_pos, Real.log_one]; rfl
  have hb : ∀ x a b : F, betadistR Arith.exact betalnF x a b = betadist x a b := by
    intro x a b
    simp only [betadistR, betadist, exact_r, hl, he, l1]
  refine ⟨?_, ?_, ?_, ?_, hb _ _ _, ?_⟩
  · simp only [plpeak_primary_pdfR, mixR, plpeak_primary_pdf, exact_r, C140_exact, C142_exact]
  · simp only [plpeak_primary_ratio_pdfR, plpeak_primary_ratio_pdf, plpeak_primary_pdfR, mixR, plpeak_primary_pdf, exact_r, C140_exact, C142_exact]
  · simp only [mixture_isoalign_spin_tiltR, mixture_isoalign_spin_tilt, exact_r, C142_exact]
  · simp only [independent_spin_tiltR, independent_spin_tilt, mixture_isoalign_spin_tiltR, mixture_isoalign_spin_tilt, exact_r, C142_exact]
  · simp only [independent_spin_magnitudeR, independent_spin_magnitude_beta_dist, exact_r, hb]

theorem trapzR_exact {n : ℕ} (o : RTree n) (ho : o.Covers) (y : ℕ → F) (Y : ℕ → ℝ) (x : ℕ → ℝ) (h : ∀ j ≤ n, y j = fin (Y j)) : trapzR Arith.exact o y x = fin (trapz (n + 1) Y x) := by
  have : ∀ i : Fin n, Arith.exact.r (Arith.exact.r (fin (x (i + 1)) - fin (x i)) * Arith.exact.r (y (i + 1) + y i)) = fin ((x (i + 1) - x i) * (Y (i + 1) + Y i)) := by
    intro i
    rw [exact_r, exact_r, exact_r, h _ i.2, h _ i.2.le, sub_fin, add_fin, mul_fin]
  unfold trapzR
  simp only [this]
  rw [exact_sum _ _ ho, sum_fin, mul_fin, exact_r]
  unfold trapz
  rw [Nat.add_sub_cancel, Finset.sum_range]

/-- **C147.** The same for the redshift model, on its own grid of 1000 points and for redshifts above −1. -/
theorem C147_redshift_exact (m : ZModel) (o : RTree 999) (ho : o.Covers) (twoD : Bool) (z : Arr ℝ) (lamb : ℝ) (i : ℕ) (hz : -1 < z.get i) (hzs : ∀ j ≤ 999, -1 < m.zs.get j) :
    redshiftCallR Arith.exact F.pow o m.zs.get (fun j => fin (m.dV (m.zs.get j))) m.zmax (fin (z.get i)) (fin (m.dVdz twoD i)) (fin lamb) = m.call twoD z lamb i := by
  have hp : ∀ z V : ℝ, -1 < z → redshiftProbR Arith.exact F.pow (fin z) (fin V) (fin lamb) = fin (ZModel.prob z V lamb) := by
    intro z V hz
    simp only [redshiftProbR, exact_r, one_def, add_fin, sub_fin]
    rw [F.pow_fin_pos (by linarith), mul_fin]
    rfl
  have hn : redshiftNormR Arith.exact F.pow o m.zs.get (fun j => fin (m.dV (m.zs.get j))) (fin lamb) = fin (m.normalization lamb) :=
    trapzR_exact o ho _ _ _ fun j hj => hp _ _ (hzs j hj)
  unfold redshiftCallR ZModel.call
  rw [hn, hp _ _ hz, exact_r]
  rfl

/-- **C147.** The real numbers the errors refer to are the values of the exact model. -/
theorem C147_value {x α l h mu sig lam ct xi s a b : ℝ} (l0 : 0 < l) (hlh : l < h) (hlx : l ≤ x) (hxh : x ≤ h) (s0 : 0 < sig) (hα : α ≠ -1) (c0 : -1 ≤ ct) (c1 : ct ≤ 1) (hs : 0 < s) :
    plpeak_primary_pdf (fin x) (fin α) (fin l) (fin h) (fin mu) (fin sig) (fin lam) = fin (peakDensity x α l h mu sig lam) ∧
    mixture_isoalign_spin_tilt (fin ct) (fin xi) (fin s) = fin (tiltDensity ct xi s) ∧
    (∀ m q : ℝ, 0 < m → l < m → l / m ≤ q → q ≤ 1 → powerlaw_pdf (fin q) (fin α) (fin l / fin m) 1 = fin (plDensity q α (l / m) 1)) ∧
    (∀ u : ℝ, 0 < u → u < 1 → 0 < a → 0 < b → betadist (fin u) (fin a) (fin b) = fin (Real.exp (betaExponent u a b (gammaln a + gammaln b - gammaln (a + b))))) := by
  have hpl : ∀ {x l h : ℝ}, 0 < l → l < h → l ≤ x → x ≤ h → powerlaw_pdf (fin x) (fin α) (fin l) (fin h) = fin (plDensity x α l h) := by
    intro x l h l0 hlh hlx hxh
    rw [powerlaw_pdf_in l0 hlh hlx hxh, plNorm, if_neg hα]
    rfl
  refine ⟨?_, ?_, ?_, ?_⟩
  · unfold plpeak_primary_pdf
    simp only
    rw [hpl l0 hlh hlx hxh, truncnorm_pdf_in s0 hlh hlx hxh, one_def, sub_fin, mul_fin, mul_fin, add_fin]
    rfl
  · unfold mixture_isoalign_spin_tilt
    have n1 : (-1 : F) = fin (-1) := neg_fin 1
    have hcut : ¬ (gt (fin ct) 1 ∨ lt (fin ct) (-1)) := by
      rw [n1]
      rintro (h | h)
      · have : 1 < ct := h
        linarith
      · have : ct < -1 := h
        linarith
    simp only [if_neg hcut]
    rw [n1]
    have e := truncnorm_pdf_in (mu := 1) (low := -1) (high := 1) hs (by norm_num) c0 c1
    have e11 : (1:F) * (1 - fin xi) = fin (1 - xi) := by rw [one_def, sub_fin, mul_fin, one_mul]
    have e12 : fin (1 - xi) / (2:F) = fin ((1 - xi) / 2) := div_fin (show (2:ℝ) ≠ 0 by norm_num)
    rw [e11, e12]
    have e' : truncnorm_pdf (fin ct) 1 (fin s) (fin (-1)) 1 = fin (tnPdf 1 s (-1) 1 ct) := e
    rw [e', mul_fin, add_fin]
    rfl
  · intro m q m0 hm hq hq1
    have e := hpl (x := q) (l := l / m) (h := 1) (div_pos l0 m0) ((div_lt_one m0).2 hm) hq hq1
    rw [div_fin m0.ne']
    exact e
  · intro u u0 u1 a0 b0
    unfold betadist betaExponent
    simp only [one_def, zero_def]
    rw [if_pos (by simp [u0.le, u1.le]), sub_fin 1 u, log_fin u0, log_fin (by linarith), log_fin one_pos, Real.log_one, betalnF, if_pos ⟨a0, b0⟩]
    simp only [sub_fin, mul_fin, add_fin, exp_fin]
    congr 2
    ring

/-! ### single precision -/

theorem std_mass : 1 / 8 ≤ gcdf 0 1 1 - gcdf 0 1 0 ∧ 1 / 8 ≤ gcdf 0 1 0 - gcdf 0 1 (-1) := by
  have key : ∀ a b : ℝ, -1 ≤ a → b ≤ 1 → a ≤ b → 1 / 8 * (b - a) ≤ gcdf 0 1 b - gcdf 0 1 a := by
    intro a b ha hb hab
    refine Convex.mul_sub_le_image_sub_of_le_deriv (f := gcdf 0 1) (D := Set.Icc a b) (C := 1 / 8) (convex_Icc _ _)
      (fun y _ => (gcdf_hasDerivAt one_pos y).continuousAt.continuousWithinAt) (fun y _ => (gcdf_hasDerivAt one_pos y).differentiableAt.differentiableWithinAt)
      (fun y hy => ?_) a ⟨le_rfl, hab⟩ b ⟨hab, le_rfl⟩ hab
    rw [interior_Icc] at hy
    rw [(gcdf_hasDerivAt one_pos y).deriv]
    have h1 : 1 / 2 ≤ Real.exp (-((y - 0) * (y - 0)) / (2 * (1 * 1))) := by
      have := Real.add_one_le_exp (-((y - 0) * (y - 0)) / (2 * (1 * 1)))
      have hyy : y * y ≤ 1 := by nlinarith [hy.1, hy.2]
      have e : -((y - 0) * (y - 0)) / (2 * (1 * 1)) = -(y * y / 2) := by ring
      rw [e] at this ⊢; linarith
    have h2 : 1 / 3 ≤ 1 / (1 * Real.sqrt (2 * Real.pi)) := by
      rw [one_mul]; exact one_div_le_one_div_of_le (by linarith [sqrt_two_pi_bounds.1]) sqrt_two_pi_bounds.2
    exact le_trans (by norm_num) (mul_le_mul h1 h2 (by norm_num) (Real.exp_pos _).le)
  have h1 := key 0 1 (by norm_num) le_rfl (by norm_num)
  have h2 := key (-1) 0 le_rfl (by norm_num) (by norm_num)
  constructor <;> linarith

theorem gcdf_scale {mu sig : ℝ} (s0 : 0 < sig) (t : ℝ) : gcdf mu sig (mu + sig * t) = gcdf 0 1 t := by
  unfold gcdf
  have : (mu + sig * t - mu) / (sig * Real.sqrt 2) = (t - 0) / (1 * Real.sqrt 2) := by
    rw [add_sub_cancel_left, sub_zero, one_mul, mul_div_mul_left _ _ s0.ne']
  rw [this]

/-- an interval containing the peak and one standard deviation to the left has at least an eighth of the probability -/
theorem tnMass_ge {mu sig low high : ℝ} (s0 : 0 < sig) (h1 : low ≤ mu - sig) (h2 : mu ≤ high) : 1 / 8 ≤ tnMass mu sig low high := by
  unfold tnMass
  have m := (gcdf_strictMono (mu := mu) s0).monotone
  have a := m h1
  have b := m h2
  have c := gcdf_scale (mu := mu) s0 0
  have d := gcdf_scale (mu := mu) s0 (-1)
  rw [show mu + sig * 0 = mu by ring] at c
  rw [show mu + sig * -1 = mu - sig by ring] at d
  linarith [std_mass.2]

/-- two standard deviations around the peak -/
theorem tnMass_ge' {mu sig low high : ℝ} (s0 : 0 < sig) (h1 : low ≤ mu - sig) (h2 : mu + sig ≤ high) : 1 / 4 ≤ tnMass mu sig low high := by
  unfold tnMass
  have m := (gcdf_strictMono (mu := mu) s0).monotone
  have a := m h1
  have b := m h2
  have c := gcdf_scale (mu := mu) s0 1
  have d := gcdf_scale (mu := mu) s0 (-1)
  rw [show mu + sig * 1 = mu + sig by ring] at c
  rw [show mu + sig * -1 = mu - sig by ring] at d
  linarith [std_mass.1, std_mass.2]

theorem tnDensity_le {x mu sig low high : ℝ} (s0 : 0 < sig) (hlh : low < high) : tnDensity x mu sig low high ≤ 1 / (2 * sig * tnMass mu sig low high) := by
  have hP : 0 < tnMass mu sig low high := sub_pos.2 (gcdf_strictMono s0 hlh)
  have e1 : Real.exp (-((x - mu) * (x - mu)) / (2 * (sig * sig))) ≤ 1 :=
    Real.exp_le_one_iff.2 (div_nonpos_of_nonpos_of_nonneg (neg_nonpos.2 (mul_self_nonneg _)) (by positivity))
  have h2 : 1 / (sig * Real.sqrt (2 * Real.pi)) ≤ 1 / (2 * sig) := one_div_le_one_div_of_le (by positivity) (by nlinarith [sqrt_two_pi_bounds.1])
  have h3 : 0 ≤ 1 / (sig * Real.sqrt (2 * Real.pi)) / tnMass mu sig low high := by positivity
  calc tnDensity x mu sig low high ≤ 1 * (1 / (sig * Real.sqrt (2 * Real.pi)) / tnMass mu sig low high) := mul_le_mul_of_nonneg_right e1 h3
    _ ≤ 1 / (2 * sig) / tnMass mu sig low high := by rw [one_mul]; exact div_le_div_of_nonneg_right h2 hP.le
    _ = _ := by rw [div_div]

/-- slope −3 on [5, 100] -/
theorem plDensity_eg {x : ℝ} (h5 : 5 ≤ x) (h100 : x ≤ 100) : 1 / 20000 ≤ plDensity x (-3) 5 100 ∧ plDensity x (-3) 5 100 ≤ 1 := by
  have x0 : 0 < x := by linarith
  have e : plDensity x (-3) 5 100 = (x ^ 3)⁻¹ * (20000 / 399) := by
    unfold plDensity
    have e1 : ∀ y : ℝ, 0 < y → y ^ (1 + -3 : ℝ) = (y ^ 2)⁻¹ := fun y hy => by
      rw [show (1 + -3 : ℝ) = -((2:ℕ):ℝ) by norm_num, Real.rpow_neg hy.le, Real.rpow_natCast]
    rw [e1 5 (by norm_num), e1 100 (by norm_num), show (-3:ℝ) = -((3:ℕ):ℝ) by norm_num, Real.rpow_neg x0.le, Real.rpow_natCast]
    norm_num
  have a : (125:ℝ) ≤ x ^ 3 := by have := pow_le_pow_left₀ (by norm_num) h5 3; norm_num at this; linarith
  have b : x ^ 3 ≤ 1000000 := by have := pow_le_pow_left₀ x0.le h100 3; norm_num at this; linarith
  have x3 : 0 < x ^ 3 := by positivity
  rw [e]
  constructor
  · have : (1000000:ℝ)⁻¹ ≤ (x ^ 3)⁻¹ := inv_anti₀ x3 b
    linarith
  · have : (x ^ 3)⁻¹ ≤ (125:ℝ)⁻¹ := inv_anti₀ (by norm_num) a
    linarith

theorem log20 : 2 ≤ Real.log (100 / 5) := by
  rw [Real.le_log_iff_exp_le (by norm_num), show (2:ℝ) = ((2:ℕ):ℝ) * 1 by norm_num, Real.exp_nat_mul]
  have := Real.exp_one_lt_d9
  have := Real.exp_pos 1
  nlinarith

theorem peak_eg {x : ℝ} (h5 : 5 ≤ x) (h100 : x ≤ 100) (hm : Moderate (x - 35)) : PeakOK (2⁻¹ ^ 23) 941 x (-3) 5 100 35 5 (1 / 8) := by
  have hM := tnMass_ge' (mu := 35) (sig := 5) (low := 5) (high := 100) (by norm_num) (by norm_num) (by norm_num)
  obtain ⟨d0, d1⟩ := plDensity_eg h5 h100
  have t0 : 0 ≤ tnDensity x 35 5 5 100 := tnDensity_nonneg (by norm_num) (by norm_num)
  have t1 : tnDensity x 35 5 5 100 ≤ 1 := by
    refine (tnDensity_le (by norm_num) (by norm_num)).trans ?_
    rw [div_le_iff₀ (by linarith)]; linarith
  have T0 : 1 / 40000 ≤ peakDensity x (-3) 5 100 35 5 (1 / 8) := by unfold peakDensity; linarith
  have T1 : peakDensity x (-3) 5 100 35 5 (1 / 8) ≤ 1 := by unfold peakDensity; linarith
  have hL := log20
  refine ⟨⟨by norm_num, by norm_num, le_trans (by norm_num) hL, by norm_num, by norm_num⟩, h5, h100, by norm_num, by norm_num, hm, .inr (by norm_num), .inr (by norm_num), by norm_num, by norm_num,
    le_trans (by norm_num) T0, T1.trans (by norm_num), ?_, ?_, ?_⟩
  · have : (2⁻¹:ℝ) ^ 44 / (5 * tnMass 35 5 5 100) ≤ 2⁻¹ ^ 44 := by
      rw [div_le_iff₀ (by linarith)]
      exact le_mul_of_one_le_right (by positivity) (by linarith)
    calc (12:ℝ) * (2⁻¹ ^ 44 / (5 * tnMass 35 5 5 100)) ≤ 12 * 2⁻¹ ^ 44 := mul_le_mul_of_nonneg_left this (by norm_num)
      _ ≤ 2⁻¹ ^ 23 * (1 / 40000) := by norm_num
      _ ≤ _ := mul_le_mul_of_nonneg_left T0 (by positivity)
  · unfold plErr
    have e : |1 + (-3:ℝ)| = 2 := by norm_num
    rw [e]
    have : 2 / (2 * Real.log (100 / 5)) ≤ 1 := by rw [div_le_one (by linarith)]; linarith
    nlinarith
  · have : 40 / tnMass 35 5 5 100 ≤ 160 := by rw [div_le_iff₀ (by linarith)]; linarith
    linarith

/-- single precision: power law of slope −3 between 5 and 100 solar masses with an eighth in a peak at 35 of width 5; relative error at most `2⁻¹³` at every mass between the bounds that is not closer than `2⁻²⁵` to the peak -/
example {x : ℝ} (h5 : 5 ≤ x) (h100 : x ≤ 100) (hm : Moderate (x - 35)) :
    ∃ p, plpeak_primary_pdfR binary32 pow32 erf32 (fin x) (fin (-3)) (fin 5) (fin 100) (fin 35) (fin 5) (fin (1 / 8)) = fin p ∧ Within (2⁻¹ ^ 13) (peakDensity x (-3) 5 100 35 5 (1 / 8)) p := by
  obtain ⟨p, ep, wp⟩ := C147_primary binary32_contract pow32_contract erf32_contract (peak_eg h5 h100 hm) (by norm_num)
  exact ⟨p, ep, wp.mono (by norm_num) (le_trans (by positivity) (peak_eg h5 h100 hm).size0)⟩

theorem tilt_eg {ct : ℝ} (h0 : -1 ≤ ct) (h1 : ct ≤ 1 / 2) : TiltOK (2⁻¹ ^ 23) 1101 ct (1 / 2) 1 := by
  have hM := tnMass_ge (mu := 1) (sig := 1) (low := -1) (high := 1) (by norm_num) (by norm_num) (by norm_num)
  have t0 : 0 ≤ tnDensity ct 1 1 (-1) 1 := tnDensity_nonneg (by norm_num) (by norm_num)
  have t1 : tnDensity ct 1 1 (-1) 1 ≤ 4 := by
    refine (tnDensity_le (by norm_num) (by norm_num)).trans ?_
    rw [div_le_iff₀ (by linarith)]; linarith
  have T0 : 1 / 4 ≤ tiltDensity ct (1 / 2) 1 := by unfold tiltDensity; linarith
  refine ⟨h0, by linarith, .inr ?_, by norm_num, by norm_num, by norm_num, by norm_num, ?_, ?_, ?_⟩
  · rw [abs_of_neg (by linarith)]
    constructor
    · exact le_trans (by norm_num) (show (1:ℝ) / 2 ≤ -(ct - 1) by linarith)
    · exact le_trans (show -(ct - 1) ≤ 2 by linarith) (by norm_num)
  · exact le_trans (show _ ≤ (3:ℝ) by unfold tiltDensity; linarith) (by norm_num)
  · have : (2⁻¹:ℝ) ^ 44 / (1 * tnMass 1 1 (-1) 1) ≤ 8 * 2⁻¹ ^ 44 := by
      rw [div_le_iff₀ (by linarith)]
      nlinarith [show (0:ℝ) < 2⁻¹ ^ 44 by positivity]
    calc (12:ℝ) * (2⁻¹ ^ 44 / (1 * tnMass 1 1 (-1) 1)) ≤ 12 * (8 * 2⁻¹ ^ 44) := mul_le_mul_of_nonneg_left this (by norm_num)
      _ ≤ 2⁻¹ ^ 23 * (1 / 4) := by norm_num
      _ ≤ _ := mul_le_mul_of_nonneg_left T0 (by positivity)
  · have : 40 / tnMass 1 1 (-1) 1 ≤ 320 := by rw [div_le_iff₀ (by linarith)]; linarith
    linarith

/-- single precision: both tilts, half isotropic and half aligned with width 1; relative error at most `2⁻¹¹` -/
example {ct1 ct2 : ℝ} (h0 : -1 ≤ ct1) (h1 : ct1 ≤ 1 / 2) (h2 : -1 ≤ ct2) (h3 : ct2 ≤ 1 / 2) :
    ∃ p, independent_spin_tiltR binary32 erf32 (fin ct1) (fin ct2) (fin (1 / 2)) (fin (1 / 2)) (fin 1) (fin 1) = fin p ∧ Within (2⁻¹ ^ 11) (tiltDensity ct1 (1 / 2) 1 * tiltDensity ct2 (1 / 2) 1) p := by
  obtain ⟨p, ep, wp⟩ := C147_tilts binary32_contract erf32_contract (tilt_eg h0 h1) (tilt_eg h2 h3) (by norm_num)
  exact ⟨p, ep, wp.mono (by norm_num) (mul_nonneg (le_trans (by positivity) (tilt_eg h0 h1).ge) (le_trans (by positivity) (tilt_eg h2 h3).ge))⟩

/-- the correctly rounded logarithm of the Beta function in single precision -/
def betaln32 (a b : F) : F := match betalnF a b with | fin x => rd32 x | v => v

theorem log_four_le : Real.log 4 ≤ 1.4 := by
  rw [show (4:ℝ) = 2 ^ 2 by norm_num, Real.log_pow]; push_cast; linarith [Real.log_two_lt_d9]

theorem abs_log_quarter {x : ℝ} (h0 : 1 / 4 ≤ x) (h1 : x ≤ 3 / 4) : |Real.log x| ≤ 1.4 := by
  have x0 : 0 < x := by linarith
  rw [abs_of_nonpos (Real.log_nonpos x0.le (by linarith))]
  have := Real.log_le_log (by norm_num) h0
  rw [one_div, Real.log_inv] at this
  linarith [log_four_le]

theorem log_six : Real.log 6 ≤ 1.9 ∧ 0 ≤ Real.log 6 := by
  constructor
  · have h : Real.log 6 ≤ Real.log (Real.exp 1 ^ 2 * 1) := Real.log_le_log (by norm_num) (by nlinarith [Real.exp_one_gt_d9])
    have h3 : Real.log 6 = Real.log 2 + Real.log 3 := by rw [← Real.log_mul (by norm_num) (by norm_num)]; norm_num
    have h4 : Real.log 3 ≤ 1.2 := by
      have h5 : Real.log 3 * 2 ≤ Real.log 2 * 3 + 0.2 := by
        have e1 : Real.log 3 * 2 = Real.log 9 := by rw [show (9:ℝ) = 3 ^ 2 by norm_num, Real.log_pow]; push_cast; ring
        have e2 : Real.log 2 * 3 = Real.log 8 := by rw [show (8:ℝ) = 2 ^ 3 by norm_num, Real.log_pow]; push_cast; ring
        have e3 : Real.log 9 - Real.log 8 = Real.log (9 / 8) := (Real.log_div (by norm_num) (by norm_num)).symm
        have e4 := Real.log_le_sub_one_of_pos (show (0:ℝ) < 9 / 8 by norm_num)
        rw [e1, e2]; linarith
      linarith [Real.log_two_lt_d9]
    linarith [Real.log_two_lt_d9]
  · exact Real.log_nonneg (by norm_num)

theorem beta22 : gammaln 2 + gammaln 2 - gammaln (2 + 2) = -Real.log 6 := by
  unfold gammaln
  have h4 : Real.Gamma (2 + 2) = 6 := by
    rw [show (2 + 2 : ℝ) = ((3:ℕ):ℝ) + 1 by norm_num, Real.Gamma_nat_eq_factorial]; norm_num [Nat.factorial]
  rw [h4, Real.Gamma_two, Real.log_one]; ring

theorem beta_eg {x : ℝ} (h0 : 1 / 4 ≤ x) (h1 : x ≤ 3 / 4) : BetaOK (2⁻¹ ^ 23) (3 * 2⁻¹ ^ 23) (2⁻¹ ^ 16) betaln32 x 2 2 (-Real.log 6) := by
  have a := abs_log_quarter h0 h1
  have b := abs_log_quarter (x := 1 - x) (by linarith) (by linarith)
  obtain ⟨c1, c0⟩ := log_six
  have hc : |-Real.log 6| ≤ 1.9 := by rw [abs_neg, abs_of_nonneg c0]; exact c1
  have k : (2⁻¹:ℝ) ^ 100 ≤ 1 / 4 := by norm_num
  refine ⟨by linarith, by linarith, by norm_num, by norm_num, ?_, ?_, ?_, by norm_num⟩
  · obtain ⟨y, ey, hy⟩ := binary32_contract.rd_abs (x := -Real.log 6) (hc.trans (by unfold flHi; norm_num))
    refine ⟨y, ?_, hy.trans (by rw [mul_comm (3:ℝ)]; exact mul_le_mul_of_nonneg_left (by linarith) (by positivity))⟩
    have : betalnF (fin 2) (fin 2) = fin (-Real.log 6) := by rw [betalnF, if_pos ⟨by norm_num, by norm_num⟩, beta22]
    unfold betaln32
    rw [this]
    exact ey
  · unfold betaExponent
    rw [abs_le] at a b hc ⊢
    constructor <;> norm_num <;> linarith [a.1, a.2, b.1, b.2, hc.1, hc.2]
  · unfold betaTerm
    have e : |(2:ℝ) - 1| = 1 := by norm_num
    rw [e]
    calc (2⁻¹:ℝ) ^ 23 * (10 * ((1 + 1) * (1 + |Real.log x|)) + 13 * ((1 + 1) * (1 + |Real.log (1 - x)|)) + |-Real.log 6| + 1) + 3 * 2⁻¹ ^ 23
        ≤ 2⁻¹ ^ 23 * (10 * ((1 + 1) * (1 + 1.4)) + 13 * ((1 + 1) * (1 + 1.4)) + 1.9 + 1) + 3 * 2⁻¹ ^ 23 := by
          gcongr
      _ ≤ 2⁻¹ ^ 16 := by norm_num

/-- single precision: both spin magnitudes with the Beta density of parameters 2 and 2; relative error at most `2⁻¹⁴` -/
example {x1 x2 : ℝ} (h0 : 1 / 4 ≤ x1) (h1 : x1 ≤ 3 / 4) (h2 : 1 / 4 ≤ x2) (h3 : x2 ≤ 3 / 4) :
    ∃ p, independent_spin_magnitudeR binary32 betaln32 (fin x1) (fin x2) (fin 2) (fin 2) (fin 2) (fin 2) = fin p ∧
      Within (2⁻¹ ^ 14) (Real.exp (betaExponent x1 2 2 (-Real.log 6)) * Real.exp (betaExponent x2 2 2 (-Real.log 6))) p := by
  obtain ⟨p, ep, wp⟩ := C147_magnitudes binary32_contract (beta_eg h0 h1) (beta_eg h2 h3) (by
    have a := abs_log_quarter h0 h1
    have b := abs_log_quarter (x := 1 - x1) (by linarith) (by linarith)
    have a' := abs_log_quarter h2 h3
    have b' := abs_log_quarter (x := 1 - x2) (by linarith) (by linarith)
    obtain ⟨c1, c0⟩ := log_six
    unfold betaExponent
    rw [abs_le] at a b a' b' ⊢
    constructor <;> norm_num <;> linarith [a.1, a.2, b.1, b.2, a'.1, a'.2, b'.1, b'.2]) (by norm_num)
  exact ⟨p, ep, wp.mono (by norm_num) (mul_pos (Real.exp_pos _) (Real.exp_pos _)).le⟩

/-- single precision: the redshift density with exponent `lamb = 2` on the grid 0, 1, 2 and constant volume element -/
example {z : ℝ} (h0 : 0 ≤ z) (h2 : z ≤ 2) :
    ∃ p, redshiftCallR binary32 pow32 (n := 2) (.node (.leaf 0) (.leaf 1)) (fun j => j) (fun _ => fin 1) 2 (fin z) (fin 1) (fin 2) = fin p ∧ Within (2⁻¹ ^ 18) ((1 + z) / 4) p := by
  obtain ⟨p, ep, wp⟩ := C147_redshift (D := 1) (n := 2) (V_ := fun _ => 1) (zs := fun j => (j:ℝ)) (zmax := 2) (z := z) (V := 1) (lamb := 2) binary32_contract pow32_contract (.node (.leaf 0) (.leaf 1)) (.refl _)
    (by simp [RTree.depth]) (by norm_num)
    (fun j hj => ⟨by positivity, by have : (j:ℝ) ≤ 2 := by exact_mod_cast hj
                                    linarith, by norm_num, by norm_num, .inr (by norm_num), by norm_num⟩)
    (fun j _ => by push_cast; constructor <;> ring_nf <;> norm_num) ⟨h0, by linarith, by norm_num, by norm_num, .inr (by norm_num), by norm_num⟩ h2 (by norm_num)
  refine ⟨p, ep, ?_⟩
  have e : (1:ℝ) * (1 + z) ^ (2 - 1 : ℝ) / trapz (2 + 1) (fun j => 1 * (1 + (j:ℝ)) ^ (2 - 1 : ℝ)) (fun j => (j:ℝ)) = (1 + z) / 4 := by
    rw [show (2 - 1 : ℝ) = 1 by norm_num]
    simp only [Real.rpow_one, one_mul]
    norm_num [trapz, Finset.sum_range_succ]
  rw [e] at wp
  exact wp.mono (by norm_num) (by linarith)

end GW
end
