import Verif.Model.Parametric
import Verif.Props.Distributions

/-! # Properties C36, C37, C38: parametric mass and spin models -/

open MeasureTheory Set
noncomputable section
open Classical
namespace F

theorem mul_assoc' (a b c : F) : a * b * c = a * (b * c) := by
  have key : ∀ x y : ℝ, fin x * infOfSign y = infOfSign (x * y) := by
    intro x y
    rcases lt_trichotomy y 0 with h | h | h
    · rw [infOfSign_neg h, fin_mul_ninf]
      rcases lt_trichotomy x 0 with g | g | g
      · rw [infOfSign_pos (by linarith), infOfSign_pos (mul_pos_of_neg_of_neg g h)]
      · subst g; simp
      · rw [infOfSign_neg (by linarith), infOfSign_neg (mul_neg_of_pos_of_neg g h)]
    · subst h; simp
    · rw [infOfSign_pos h, fin_mul_pinf]
      rcases lt_trichotomy x 0 with g | g | g
      · rw [infOfSign_neg g, infOfSign_neg (mul_neg_of_neg_of_pos g h)]
      · subst g; simp
      · rw [infOfSign_pos g, infOfSign_pos (mul_pos g h)]
  have kp : ∀ y : ℝ, pinf * infOfSign y = infOfSign y := by
    intro y
    rcases lt_trichotomy y 0 with h | h | h
    · rw [infOfSign_neg h]; rfl
    · subst h; simp
    · rw [infOfSign_pos h]; rfl
  have kn : ∀ y : ℝ, ninf * infOfSign y = infOfSign (-y) := by
    intro y
    rcases lt_trichotomy y 0 with h | h | h
    · rw [infOfSign_neg h, infOfSign_pos (by linarith)]; rfl
    · subst h; simp
    · rw [infOfSign_pos h, infOfSign_neg (by linarith)]; rfl
  cases a <;> cases b <;> cases c <;>
    simp [fin_mul_pinf, fin_mul_ninf, pinf_mul_fin, ninf_mul_fin, key, kp, kn, F.mul_comm' (infOfSign _) _, mul_assoc]
  all_goals (try (congr 1; ring))

theorem mul_right_comm' (a b c : F) : a * b * c = a * c * b := by
  rw [mul_assoc', mul_comm' b c, ← mul_assoc']

end F

namespace GW
open F

/-! ## C36 -/

theorem ratio_in {m1 q α β mmin mmax : ℝ} (h0 : 0 < mmin) (h : mmin < mmax) (h1 : mmin < m1) (h2 : m1 ≤ mmax)
    (hq : mmin / m1 ≤ q) (hq1 : q ≤ 1) :
    powerlaw_primary_ratio_pdf (fin m1) (fin q) (fin α) (fin β) (fin mmin) (fin mmax)
      = fin ((q ^ β * plNorm β (mmin / m1) 1) * (m1 ^ α * plNorm α mmin mmax)) := by
  have hm : 0 < m1 := h0.trans h1
  simp only [powerlaw_primary_ratio_pdf]
  rw [div_fin hm.ne', one_def, powerlaw_pdf_in (div_pos h0 hm) ((div_lt_one hm).2 h1) hq hq1,
    powerlaw_pdf_in h0 h h1.le h2, mul_fin]

/-- for a positive primary mass the mass-ratio factor is a finite number except at `m1 = mmin`, `q = 1` -/
theorem ratio_q_zero {m1 q β mmin : ℝ} (hm : 0 < m1) (hc : q * m1 < mmin ∨ 1 < q) :
    powerlaw_pdf (fin q) (fin β) (fin mmin / fin m1) 1 = fin 0 := by
  rw [div_fin hm.ne', one_def, powerlaw_pdf_out]; rfl
  simp only [lt_fin, gt_fin]
  rcases hc with hc | hc
  · left; rwa [lt_div_iff₀ hm]
  · exact Or.inr hc

/-- **C36.** For every `alpha`, `beta` and `0 < mmin < mmax`: the joint density is a finite positive number on the
allowed region; integrating it over the mass ratio gives the primary-mass density; the double integral is 1; and it is
exactly 0 as soon as the secondary is lighter than `mmin`, `q > 1`, or the primary is out of range. -/
theorem C36_joint_density (α β mmin mmax : ℝ) (h0 : 0 < mmin) (h : mmin < mmax) :
    (∀ m1 q : ℝ, mmin < m1 → m1 ≤ mmax → mmin ≤ q * m1 → q ≤ 1 → ∃ v : ℝ, 0 < v ∧
      powerlaw_primary_ratio_pdf (fin m1) (fin q) (fin α) (fin β) (fin mmin) (fin mmax) = fin v) ∧
    (∀ m1 : ℝ, mmin < m1 → m1 ≤ mmax →
      IntervalIntegrable (fun q => (powerlaw_primary_ratio_pdf (fin m1) (fin q) (fin α) (fin β) (fin mmin) (fin mmax)).toReal)
        volume (mmin / m1) 1 ∧
      ∫ q in (mmin / m1)..1,
        (powerlaw_primary_ratio_pdf (fin m1) (fin q) (fin α) (fin β) (fin mmin) (fin mmax)).toReal
        = (powerlaw_pdf (fin m1) (fin α) (fin mmin) (fin mmax)).toReal) ∧
    (∫ m1 in mmin..mmax, ∫ q in (mmin / m1)..1,
      (powerlaw_primary_ratio_pdf (fin m1) (fin q) (fin α) (fin β) (fin mmin) (fin mmax)).toReal = 1) ∧
    (∀ m1 q : ℝ, 0 < m1 → (q * m1 < mmin ∨ 1 < q ∨ m1 < mmin ∨ mmax < m1) →
      powerlaw_primary_ratio_pdf (fin m1) (fin q) (fin α) (fin β) (fin mmin) (fin mmax) = fin 0) := by
  have inner : ∀ m1 : ℝ, mmin < m1 → m1 ≤ mmax →
      IntervalIntegrable (fun q => (powerlaw_primary_ratio_pdf (fin m1) (fin q) (fin α) (fin β) (fin mmin) (fin mmax)).toReal)
        volume (mmin / m1) 1 ∧
      ∫ q in (mmin / m1)..1,
        (powerlaw_primary_ratio_pdf (fin m1) (fin q) (fin α) (fin β) (fin mmin) (fin mmax)).toReal
        = m1 ^ α * plNorm α mmin mmax := by
    intro m1 h1 h2
    have hm : 0 < m1 := h0.trans h1
    have hlt : mmin / m1 < 1 := (div_lt_one hm).2 h1
    have hpos := div_pos h0 hm
    have e : ∀ q, mmin / m1 ≤ q → q ≤ 1 →
        powerlaw_primary_ratio_pdf (fin m1) (fin q) (fin α) (fin β) (fin mmin) (fin mmax)
          = fin ((q ^ β * plNorm β (mmin / m1) 1) * (m1 ^ α * plNorm α mmin mmax)) :=
      fun q hq hq1 => ratio_in h0 h h1 h2 hq hq1
    constructor
    · have hc : ContinuousOn (fun q : ℝ => (q ^ β * plNorm β (mmin / m1) 1) * (m1 ^ α * plNorm α mmin mmax))
          (uIcc (mmin / m1) 1) := by
        rw [uIcc_of_le hlt.le]
        exact (continuousOn_powerlaw hpos).mul continuousOn_const
      refine (hc.intervalIntegrable).congr ?_
      intro q hq
      rw [uIoc_of_le hlt.le] at hq
      simp only [e q hq.1.le hq.2, toReal_fin]
    · rw [toReal_congr_integral hlt.le e, intervalIntegral.integral_mul_const, integral_powerlaw hpos hlt, one_mul]
  refine ⟨?_, ?_, ?_, ?_⟩
  · intro m1 q h1 h2 hq hq1
    have hm : 0 < m1 := h0.trans h1
    have hq' : mmin / m1 ≤ q := (div_le_iff₀ hm).2 hq
    refine ⟨_, ?_, ratio_in h0 h h1 h2 hq' hq1⟩
    have := plNorm_pos (α := β) (div_pos h0 hm) ((div_lt_one hm).2 h1)
    have := plNorm_pos (α := α) h0 h
    have := Real.rpow_pos_of_pos ((div_pos h0 hm).trans_le hq') β
    have := Real.rpow_pos_of_pos hm α
    positivity
  · intro m1 h1 h2
    refine ⟨(inner m1 h1 h2).1, ?_⟩
    rw [(inner m1 h1 h2).2, powerlaw_pdf_in h0 h h1.le h2, toReal_fin]
  · refine Eq.trans ?_ (integral_powerlaw (α := α) h0 h)
    rw [intervalIntegral.integral_of_le h.le, intervalIntegral.integral_of_le h.le]
    refine setIntegral_congr_fun measurableSet_Ioc fun m1 hm1 => ?_
    exact (inner m1 hm1.1 hm1.2).2
  · intro m1 q hm hc
    have fin_m1 : ∃ v : ℝ, powerlaw_pdf (fin m1) (fin α) (fin mmin) (fin mmax) = fin v :=
      C18_powerlaw_total α mmin mmax 0 h0 h m1
    by_cases hq : q * m1 < mmin ∨ 1 < q
    · obtain ⟨v, hv⟩ := fin_m1
      simp only [powerlaw_primary_ratio_pdf]
      rw [ratio_q_zero hm hq, hv, mul_fin, zero_mul]
    · push Not at hq
      have hm1 : m1 < mmin ∨ mmax < m1 := by
        rcases hc with hc | hc | hc
        · exact absurd hc (not_lt.2 hq.1)
        · exact absurd hc (not_lt.2 hq.2)
        · exact hc
      have hge : mmin ≤ m1 := by nlinarith [hq.1, hq.2]
      have hgt : mmax < m1 := by
        rcases hm1 with hm1 | hm1
        · exact absurd hge (not_le.2 hm1)
        · exact hm1
      have hlt : mmin / m1 < 1 := (div_lt_one hm).2 (h.trans hgt)
      simp only [powerlaw_primary_ratio_pdf]
      rw [div_fin hm.ne', one_def, powerlaw_pdf_in (div_pos h0 hm) hlt ((div_le_iff₀ hm).2 hq.1) hq.2,
        powerlaw_pdf_out (x := fin m1) (Or.inr (by simpa using hgt)), zero_def, mul_fin, mul_zero]

example : ∃ v : ℝ, 0 < v ∧
    powerlaw_primary_ratio_pdf (fin 30) (fin (1/2)) (fin (-2.5)) (fin 1) (fin 5) (fin 80) = fin v :=
  (C36_joint_density (-2.5) 1 5 80 (by norm_num) (by norm_num)).1 30 (1/2) (by norm_num) (by norm_num) (by norm_num) (by norm_num)

/-- **C36 fails** at the single corner `m1 = mmin`, `q = 1` of the allowed region: the value there is `+inf` for
`beta ≥ -1` and `-inf` for `beta < -1`, for every choice of the other parameters. -/
theorem C36_corner_fails (α β mmin mmax : ℝ) (h0 : 0 < mmin) (h : mmin < mmax) :
    powerlaw_primary_ratio_pdf (fin mmin) (fin 1) (fin α) (fin β) (fin mmin) (fin mmax)
      = if β < -1 then ninf else pinf := by
  have hv : 0 < mmin ^ α * plNorm α mmin mmax := mul_pos (Real.rpow_pos_of_pos h0 _) (plNorm_pos h0 h)
  have hq : powerlaw_pdf (fin 1) (fin β) (fin 1) (fin 1) 0 = if β < -1 then ninf else pinf := by
    simp only [powerlaw_pdf]
    rw [if_neg (by simp), pow_fin_pos one_pos, Real.one_rpow, one_def, neg_fin, div_fin one_ne_zero, div_one,
      log_fin one_pos, Real.log_one, add_fin, pow_fin_pos one_pos, Real.one_rpow, sub_fin, sub_self, div_fin_zero,
      div_fin_zero, infOfSign_pos one_pos]
    by_cases hb : β = -1
    · subst hb; simp [fin_mul_pinf, infOfSign]
    · rw [if_neg (by simpa using hb)]
      rcases lt_or_gt_of_ne hb with hb' | hb'
      · rw [infOfSign_neg (by linarith), if_pos hb', fin_mul_ninf, infOfSign_neg (by norm_num)]
      · rw [infOfSign_pos (by linarith), if_neg (by linarith), fin_mul_pinf, infOfSign_pos (by norm_num)]
  simp only [powerlaw_primary_ratio_pdf]
  rw [div_fin h0.ne', div_self h0.ne', one_def, hq, powerlaw_pdf_in h0 h (le_refl _) h.le]
  split_ifs
  · rw [ninf_mul_fin, infOfSign_neg (by linarith)]
  · rw [pinf_mul_fin, infOfSign_pos hv]

/-! ## C37 -/

theorem plpeak_in {m1 α mmin mmax mpp sig lam : ℝ} (h0 : 0 < mmin) (h : mmin < mmax) (hs : 0 < sig)
    (h1 : mmin ≤ m1) (h2 : m1 ≤ mmax) :
    plpeak_primary_pdf (fin m1) (fin α) (fin mmin) (fin mmax) (fin mpp) (fin sig) (fin lam)
      = fin ((1 - lam) * (m1 ^ α * plNorm α mmin mmax) + lam * tnPdf mpp sig mmin mmax m1) := by
  simp only [plpeak_primary_pdf]
  rw [powerlaw_pdf_in h0 h h1 h2, truncnorm_pdf_in hs h h1 h2, one_def, sub_fin, mul_fin, mul_fin, add_fin]

theorem plpeak_out {m1 α mmin mmax mpp sig lam : ℝ} (hs : 0 < sig) (h : mmin < mmax) (hx : m1 < mmin ∨ mmax < m1) :
    plpeak_primary_pdf (fin m1) (fin α) (fin mmin) (fin mmax) (fin mpp) (fin sig) (fin lam) = fin 0 := by
  simp only [plpeak_primary_pdf]
  rw [powerlaw_pdf_out (x := fin m1) (by simpa using hx), (C22_truncnorm_normalised mpp sig mmin mmax hs h).2.2 m1 hx,
    one_def, sub_fin, zero_def, mul_fin, mul_fin, add_fin]
  simp

theorem tnPdf_pos {mu sig low high : ℝ} (hs : 0 < sig) (h : low < high) (x : ℝ) : 0 < tnPdf mu sig low high x :=
  mul_pos (Real.exp_pos _) (div_pos (one_div_pos.2 (mul_pos hs sqrt_two_pi_pos)) (sub_pos.2 (gcdf_strictMono hs h)))

theorem continuous_tnPdf (mu sig low high : ℝ) : Continuous (tnPdf mu sig low high) := by unfold tnPdf; fun_prop

/-- **C37.** Without tapering and for a mixing fraction in `[0,1]`: a probability density on `[mmin, mmax]`, exactly 0
outside, always between the power law and the Gaussian, and equal to the pure component at fraction 0 and 1. -/
theorem C37_mixture (α mmin mmax mpp sig lam : ℝ) (h0 : 0 < mmin) (h : mmin < mmax) (hs : 0 < sig)
    (hl0 : 0 ≤ lam) (hl1 : lam ≤ 1) :
    IsPdfOn (fun m => plpeak_primary_pdf (fin m) (fin α) (fin mmin) (fin mmax) (fin mpp) (fin sig) (fin lam)) mmin mmax ∧
    (∀ m : ℝ, m < mmin ∨ mmax < m →
      plpeak_primary_pdf (fin m) (fin α) (fin mmin) (fin mmax) (fin mpp) (fin sig) (fin lam) = fin 0) ∧
    (∀ m : ℝ, ∃ p g v : ℝ, powerlaw_pdf (fin m) (fin α) (fin mmin) (fin mmax) = fin p ∧
      truncnorm_pdf (fin m) (fin mpp) (fin sig) (fin mmin) (fin mmax) = fin g ∧
      plpeak_primary_pdf (fin m) (fin α) (fin mmin) (fin mmax) (fin mpp) (fin sig) (fin lam) = fin v ∧
      v = (1 - lam) * p + lam * g ∧ min p g ≤ v ∧ v ≤ max p g) ∧
    (∀ m : ℝ, plpeak_primary_pdf (fin m) (fin α) (fin mmin) (fin mmax) (fin mpp) (fin sig) (fin 0)
        = powerlaw_pdf (fin m) (fin α) (fin mmin) (fin mmax)) ∧
    (∀ m : ℝ, plpeak_primary_pdf (fin m) (fin α) (fin mmin) (fin mmax) (fin mpp) (fin sig) (fin 1)
        = truncnorm_pdf (fin m) (fin mpp) (fin sig) (fin mmin) (fin mmax)) := by
  have tot : ∀ m : ℝ, ∃ p g : ℝ, powerlaw_pdf (fin m) (fin α) (fin mmin) (fin mmax) = fin p ∧
      truncnorm_pdf (fin m) (fin mpp) (fin sig) (fin mmin) (fin mmax) = fin g := by
    intro m
    obtain ⟨p, hp⟩ := C18_powerlaw_total α mmin mmax 0 h0 h m
    by_cases hm : mmin ≤ m ∧ m ≤ mmax
    · exact ⟨p, _, hp, truncnorm_pdf_in hs h hm.1 hm.2⟩
    · refine ⟨p, 0, hp, (C22_truncnorm_normalised mpp sig mmin mmax hs h).2.2 m ?_⟩
      by_contra hc; push Not at hc; exact hm hc
  refine ⟨?_, fun m hm => plpeak_out hs h hm, ?_, ?_, ?_⟩
  · refine isPdfOn_of h.le (fun m h1 h2 => plpeak_in h0 h hs h1 h2) ?_ ?_ ?_
    · have hc := continuous_tnPdf mpp sig mmin mmax
      exact (continuousOn_const.mul (continuousOn_powerlaw h0)).add
        (by fun_prop : Continuous fun m => lam * tnPdf mpp sig mmin mmax m).continuousOn
    · intro m h1 h2
      have := tnPdf_pos (mu := mpp) hs h m
      have := plNorm_pos (α := α) h0 h
      have := Real.rpow_pos_of_pos (h0.trans_le h1) α
      have : 0 ≤ 1 - lam := by linarith
      positivity
    · have i1 : IntervalIntegrable (fun x : ℝ => x ^ α * plNorm α mmin mmax) volume mmin mmax := by
        apply ContinuousOn.intervalIntegrable; rw [uIcc_of_le h.le]; exact continuousOn_powerlaw h0
      have i2 : IntervalIntegrable (tnPdf mpp sig mmin mmax) volume mmin mmax :=
        (continuous_tnPdf _ _ _ _).intervalIntegrable _ _
      rw [intervalIntegral.integral_add (i1.const_mul _) (i2.const_mul _), intervalIntegral.integral_const_mul,
        intervalIntegral.integral_const_mul, integral_powerlaw h0 h, integral_tnPdf hs h]
      ring
  · intro m
    obtain ⟨p, g, hp, hg⟩ := tot m
    refine ⟨p, g, (1 - lam) * p + lam * g, hp, hg, ?_, rfl, ?_, ?_⟩
    · simp only [plpeak_primary_pdf]
      rw [hp, hg, one_def, sub_fin, mul_fin, mul_fin, add_fin]
    · have a := min_le_left p g
      have b := min_le_right p g
      nlinarith
    · have a := le_max_left p g
      have b := le_max_right p g
      nlinarith
  · intro m
    obtain ⟨p, g, hp, hg⟩ := tot m
    simp only [plpeak_primary_pdf]
    rw [hp, hg, one_def, sub_fin, mul_fin, mul_fin, add_fin]; simp
  · intro m
    obtain ⟨p, g, hp, hg⟩ := tot m
    simp only [plpeak_primary_pdf]
    rw [hp, hg, one_def, sub_fin, mul_fin, mul_fin, add_fin]; simp

/-- **C37** (joint model). Without tapering, integrating `plpeak_primary_ratio_pdf` over the mass ratio gives
`plpeak_primary_pdf`, and the double integral is 1. -/
theorem C37_joint (α β mmin mmax mpp sig lam : ℝ) (h0 : 0 < mmin) (h : mmin < mmax) (hs : 0 < sig)
    (hl0 : 0 ≤ lam) (hl1 : lam ≤ 1) :
    (∀ m1 : ℝ, mmin < m1 → m1 ≤ mmax → ∫ q in (mmin / m1)..1,
      (plpeak_primary_ratio_pdf (fin m1) (fin q) (fin α) (fin β) (fin mmin) (fin mmax) (fin mpp) (fin sig) (fin lam)).toReal
      = (plpeak_primary_pdf (fin m1) (fin α) (fin mmin) (fin mmax) (fin mpp) (fin sig) (fin lam)).toReal) ∧
    ∫ m1 in mmin..mmax, ∫ q in (mmin / m1)..1,
      (plpeak_primary_ratio_pdf (fin m1) (fin q) (fin α) (fin β) (fin mmin) (fin mmax) (fin mpp) (fin sig) (fin lam)).toReal
      = 1 := by
  have inner : ∀ m1 : ℝ, mmin < m1 → m1 ≤ mmax → ∫ q in (mmin / m1)..1,
      (plpeak_primary_ratio_pdf (fin m1) (fin q) (fin α) (fin β) (fin mmin) (fin mmax) (fin mpp) (fin sig) (fin lam)).toReal
      = (plpeak_primary_pdf (fin m1) (fin α) (fin mmin) (fin mmax) (fin mpp) (fin sig) (fin lam)).toReal := by
    intro m1 h1 h2
    have hm : 0 < m1 := h0.trans h1
    have hlt : mmin / m1 < 1 := (div_lt_one hm).2 h1
    have hpos := div_pos h0 hm
    have hin := plpeak_in (α := α) (mpp := mpp) (lam := lam) h0 h hs h1.le h2
    rw [toReal_congr_integral (g := fun q => (q ^ β * plNorm β (mmin / m1) 1)
      * ((1 - lam) * (m1 ^ α * plNorm α mmin mmax) + lam * tnPdf mpp sig mmin mmax m1)) hlt.le,
      intervalIntegral.integral_mul_const, integral_powerlaw hpos hlt, one_mul, hin, toReal_fin]
    intro q hq hq1
    simp only [plpeak_primary_ratio_pdf]
    rw [hin, div_fin hm.ne', one_def, powerlaw_pdf_in hpos hlt hq hq1, mul_fin]
  refine ⟨inner, ?_⟩
  refine Eq.trans ?_ (C37_mixture α mmin mmax mpp sig lam h0 h hs hl0 hl1).1.integral
  rw [intervalIntegral.integral_of_le h.le, intervalIntegral.integral_of_le h.le]
  exact setIntegral_congr_fun measurableSet_Ioc fun m1 hm1 => inner m1 hm1.1 hm1.2

/-- **C37 fails with tapering**: for every `delta > 0` the "taper" more than halves the power law at every mass above
the taper window (`mmin + delta`), where it should leave it unchanged. -/
theorem C37_tapered_fails (α mmin mmax mpp sig delta m : ℝ) (h0 : 0 < mmin) (hd : 0 < delta) (hs : 0 < sig)
    (hm : mmin + delta < m) (hm2 : m ≤ mmax) :
    ∃ p v : ℝ, 0 < p ∧ powerlaw_pdf (fin m) (fin α) (fin mmin) (fin mmax) = fin p ∧
      plpeak_primary_pdf (fin m) (fin α) (fin mmin) (fin mmax) (fin mpp) (fin sig) (fin 0) (some (fin delta)) = fin v ∧
      v < p / 2 := by
  have h : mmin < mmax := by linarith
  obtain ⟨s, hs1, hs2⟩ := C19_above_window_fails delta mmin m hd hm
  have hp : 0 < m ^ α * plNorm α mmin mmax :=
    mul_pos (Real.rpow_pos_of_pos (by linarith) _) (plNorm_pos h0 h)
  refine ⟨_, (1 - 0) * (m ^ α * plNorm α mmin mmax) * s + 0 * tnPdf mpp sig mmin mmax m, hp,
    powerlaw_pdf_in h0 h (by linarith) hm2, ?_, by nlinarith⟩
  simp only [plpeak_primary_pdf]
  rw [powerlaw_pdf_in h0 h (by linarith) hm2, truncnorm_pdf_in hs h (by linarith) hm2, hs2, one_def, sub_fin, mul_fin,
    mul_fin, mul_fin, add_fin]

example : IsPdfOn (fun m => plpeak_primary_pdf (fin m) (fin (-3)) (fin 5) (fin 80) (fin 35) (fin 4) (fin (1/10))) 5 80 :=
  (C37_mixture (-3) 5 80 35 4 (1/10) (by norm_num) (by norm_num) (by norm_num) (by norm_num) (by norm_num)).1

/-! ## C38 -/

theorem cut_in {x : ℝ} (c d : F) (h1 : -1 ≤ x) (h2 : x ≤ 1) : (if gt (fin x) 1 ∨ lt (fin x) (-1) then c else d) = d := by
  rw [if_neg]
  show ¬ (gt (fin x) (fin 1) ∨ lt (fin x) (fin (-1)))
  simp [not_lt.2 h1, not_lt.2 h2]

theorem cut_out {x : ℝ} (c d : F) (hx : x < -1 ∨ 1 < x) : (if gt (fin x) 1 ∨ lt (fin x) (-1) then c else d) = c := by
  rw [if_pos]
  show gt (fin x) (fin 1) ∨ lt (fin x) (fin (-1))
  simpa using hx.symm

theorem isoalign_in {x xi sig : ℝ} (hs : 0 < sig) (h1 : -1 ≤ x) (h2 : x ≤ 1) :
    mixture_isoalign_spin_tilt (fin x) (fin xi) (fin sig) = fin ((1 - xi) / 2 + xi * tnPdf 1 sig (-1) 1 x) := by
  simp only [mixture_isoalign_spin_tilt]
  rw [cut_in _ _ h1 h2, ofNat_def, one_def, neg_fin, truncnorm_pdf_in hs (by norm_num) h1 h2, sub_fin, mul_fin,
    div_fin (by norm_num), mul_fin, add_fin]
  simp

theorem isoalign_out {x xi sig : ℝ} (hs : 0 < sig) (hx : x < -1 ∨ 1 < x) :
    mixture_isoalign_spin_tilt (fin x) (fin xi) (fin sig) = fin 0 := by
  simp only [mixture_isoalign_spin_tilt]
  rw [cut_out _ _ hx, ofNat_def, one_def, neg_fin, (C22_truncnorm_normalised 1 sig (-1) 1 hs (by norm_num)).2.2 x hx, zero_def, sub_fin,
    mul_fin, div_fin (by norm_num), mul_fin, add_fin]
  simp

/-- **C38.** For a mixing fraction in `[0,1]` and positive width, the isotropic+aligned tilt model is a probability
density on `[-1,1]` and exactly 0 outside. -/
theorem C38_isoalign_normalised (xi sig : ℝ) (hs : 0 < sig) (h0 : 0 ≤ xi) (h1 : xi ≤ 1) :
    IsPdfOn (fun x => mixture_isoalign_spin_tilt (fin x) (fin xi) (fin sig)) (-1) 1 ∧
    ∀ x : ℝ, x < -1 ∨ 1 < x → mixture_isoalign_spin_tilt (fin x) (fin xi) (fin sig) = fin 0 := by
  have hc := continuous_tnPdf 1 sig (-1) 1
  refine ⟨isPdfOn_of (by norm_num) (fun x ha hb => isoalign_in hs ha hb) ?_ ?_ ?_, fun x hx => isoalign_out hs hx⟩
  · exact (by fun_prop : Continuous fun x => (1 - xi) / 2 + xi * tnPdf 1 sig (-1) 1 x).continuousOn
  · intro x _ _
    have := tnPdf_pos (mu := 1) hs (show (-1:ℝ) < 1 by norm_num) x
    have : 0 ≤ 1 - xi := by linarith
    positivity
  · have i2 : IntervalIntegrable (tnPdf 1 sig (-1) 1) volume (-1) 1 := hc.intervalIntegrable _ _
    rw [intervalIntegral.integral_add (by simp) (i2.const_mul _), intervalIntegral.integral_const_mul,
      integral_tnPdf hs (by norm_num), intervalIntegral.integral_const]
    simp; ring

/-- **C38.** The joint IID tilt model integrates to 1 over the square and vanishes when either component is outside. -/
theorem C38_iid_tilt_normalised (xi sig : ℝ) (hs : 0 < sig) (h0 : 0 ≤ xi) (h1 : xi ≤ 1) :
    (∫ a in (-1:ℝ)..1, ∫ b in (-1:ℝ)..1, (iid_spin_tilt (fin a) (fin b) (fin xi) (fin sig)).toReal = 1) ∧
    ∀ a b : ℝ, (a < -1 ∨ 1 < a ∨ b < -1 ∨ 1 < b) → iid_spin_tilt (fin a) (fin b) (fin xi) (fin sig) = fin 0 := by
  have key : ∀ x : ℝ, ∃ v : ℝ, mixture_isoalign_spin_tilt (fin x) (fin xi) (fin sig) = fin v := by
    intro x
    by_cases hx : -1 ≤ x ∧ x ≤ 1
    · exact ⟨_, isoalign_in hs hx.1 hx.2⟩
    · exact ⟨0, isoalign_out hs (by by_contra hc; push Not at hc; exact hx hc)⟩
  choose v hv using key
  have hI : ∫ x in (-1:ℝ)..1, v x = 1 := by
    have := (C38_isoalign_normalised xi sig hs h0 h1).1.integral
    simpa [hv] using this
  constructor
  · simp only [iid_spin_tilt, hv, mul_fin, toReal_fin]
    simp [hI]
  · intro a b h
    have : v a = 0 ∨ v b = 0 := by
      rcases h with h | h | h | h
      · left; have := (hv a).symm.trans (isoalign_out hs (Or.inl h)); simpa using this
      · left; have := (hv a).symm.trans (isoalign_out hs (Or.inr h)); simpa using this
      · right; have := (hv b).symm.trans (isoalign_out hs (Or.inl h)); simpa using this
      · right; have := (hv b).symm.trans (isoalign_out hs (Or.inr h)); simpa using this
    simp only [iid_spin_tilt, hv, mul_fin]
    rcases this with h | h <;> simp [h]

/-- **C38.** The "default" joint tilt model integrates to 1 over the square and vanishes outside it. -/
theorem C38_default_tilt_normalised (xi sig : ℝ) (hs : 0 < sig) :
    (∫ a in (-1:ℝ)..1, ∫ b in (-1:ℝ)..1, (default_spin_tilt (fin a) (fin b) (fin xi) (fin sig)).toReal = 1) ∧
    ∀ a b : ℝ, (a < -1 ∨ 1 < a ∨ b < -1 ∨ 1 < b) → default_spin_tilt (fin a) (fin b) (fin xi) (fin sig) = fin 0 := by
  have hn : (-1:ℝ) < 1 := by norm_num
  have key : ∀ x : ℝ, ∃ u g : ℝ, (if gt (fin x) 1 ∨ lt (fin x) (-1) then (0 : F) else fin (1/2)) = fin u ∧
      truncnorm_pdf (fin x) 1 (fin sig) (-1) 1 = fin g ∧
      (-1 ≤ x → x ≤ 1 → u = 1 / 2 ∧ g = tnPdf 1 sig (-1) 1 x) ∧ ((x < -1 ∨ 1 < x) → u = 0 ∧ g = 0) := by
    intro x
    by_cases hx : -1 ≤ x ∧ x ≤ 1
    · refine ⟨1/2, _, cut_in _ _ hx.1 hx.2, truncnorm_pdf_in hs hn hx.1 hx.2,
        fun _ _ => ⟨rfl, rfl⟩, fun h => ?_⟩
      rcases h with h | h <;> linarith [hx.1, hx.2]
    · have ho : x < -1 ∨ 1 < x := by by_contra hc; push Not at hc; exact hx hc
      refine ⟨0, 0, cut_out _ _ ho, (C22_truncnorm_normalised 1 sig (-1) 1 hs hn).2.2 x ho,
        fun a b => absurd ⟨a, b⟩ hx, fun _ => ⟨rfl, rfl⟩⟩
  choose u g hu hg hin hout using key
  have form : ∀ a b, default_spin_tilt (fin a) (fin b) (fin xi) (fin sig)
      = fin ((1 - xi) * u a * u b + xi * g a * g b) := by
    intro a b
    simp only [default_spin_tilt]
    rw [hu, hu, hg, hg, one_def, sub_fin, mul_fin, mul_fin, mul_fin, mul_fin, add_fin]
  have Iu : ∫ x in (-1:ℝ)..1, u x = 1 := by
    have : ∫ x in (-1:ℝ)..1, u x = ∫ x in (-1:ℝ)..1, (1/2 : ℝ) := by
      refine intervalIntegral.integral_congr fun x hx => ?_
      rw [uIcc_of_le hn.le] at hx; exact (hin x hx.1 hx.2).1
    rw [this]; simp; norm_num
  have Ig : ∫ x in (-1:ℝ)..1, g x = 1 := by
    refine Eq.trans ?_ (integral_tnPdf (mu := 1) hs hn)
    refine intervalIntegral.integral_congr fun x hx => ?_
    rw [uIcc_of_le hn.le] at hx; exact (hin x hx.1 hx.2).2
  have iu : IntervalIntegrable u volume (-1) 1 := by
    have : IntervalIntegrable (fun _ : ℝ => (1/2:ℝ)) volume (-1) 1 := by simp
    refine this.congr fun x hx => ?_
    rw [uIoc_of_le hn.le] at hx; exact ((hin x hx.1.le hx.2).1).symm
  have ig : IntervalIntegrable g volume (-1) 1 := by
    refine ((continuous_tnPdf 1 sig (-1) 1).intervalIntegrable (-1) 1).congr fun x hx => ?_
    rw [uIoc_of_le hn.le] at hx; exact ((hin x hx.1.le hx.2).2).symm
  constructor
  · simp only [form, toReal_fin]
    have inner : ∀ a, ∫ b in (-1:ℝ)..1, ((1 - xi) * u a * u b + xi * g a * g b) = (1 - xi) * u a + xi * g a := by
      intro a
      rw [intervalIntegral.integral_add (iu.const_mul _) (ig.const_mul _), intervalIntegral.integral_const_mul,
        intervalIntegral.integral_const_mul, Iu, Ig]; ring
    simp only [inner]
    rw [intervalIntegral.integral_add (iu.const_mul _) (ig.const_mul _), intervalIntegral.integral_const_mul,
      intervalIntegral.integral_const_mul, Iu, Ig]; ring
  · intro a b h
    rw [form]
    rcases h with h | h | h | h
    · simp [(hout a (Or.inl h)).1, (hout a (Or.inl h)).2]
    · simp [(hout a (Or.inr h)).1, (hout a (Or.inr h)).2]
    · simp [(hout b (Or.inl h)).1, (hout b (Or.inl h)).2]
    · simp [(hout b (Or.inr h)).1, (hout b (Or.inr h)).2]

/-- **C38.** The IID and default models are symmetric under exchanging the two black holes — for all inputs,
including special values. -/
theorem C38_exchange_symmetric (a b p q r : F) :
    iid_spin_tilt a b p q = iid_spin_tilt b a p q ∧ default_spin_tilt a b p q = default_spin_tilt b a p q ∧
    iid_spin_magnitude a b p q r = iid_spin_magnitude b a p q r := by
  refine ⟨mul_comm' _ _, ?_, mul_comm' _ _⟩
  simp only [default_spin_tilt]
  rw [mul_right_comm' (1 - p), mul_right_comm' p]

/-- **C38.** The IID models are the independent models with equal hyper-parameters, and the independent models are
covariant: exchanging the black holes together with their hyper-parameters changes nothing. -/
theorem C38_iid_is_independent (a b p q r p' q' r' : F) :
    iid_spin_tilt a b p q = independent_spin_tilt a b p p q q ∧
    iid_spin_magnitude a b p q r = independent_spin_magnitude_beta_dist a b p q p q r r ∧
    independent_spin_tilt a b p p' q q' = independent_spin_tilt b a p' p q' q ∧
    independent_spin_magnitude_beta_dist a b p q p' q' r r' = independent_spin_magnitude_beta_dist b a p' q' p q r' r :=
  ⟨rfl, rfl, mul_comm' _ _, mul_comm' _ _⟩

example : IsPdfOn (fun x => mixture_isoalign_spin_tilt (fin x) (fin (1/2)) (fin 2)) (-1) 1 :=
  (C38_isoalign_normalised (1/2) 2 (by norm_num) (by norm_num) (by norm_num)).1

end GW
end
