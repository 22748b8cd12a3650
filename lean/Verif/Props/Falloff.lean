import Verif.Props.Parametric

/-! # C37 (tapered joint model) and C77 (soft truncation of the two-parameter mass model) -/

noncomputable section
open Classical
namespace GW
open F

/-- **C37** (joint model with tapering, inside the taper window of the secondary). The joint density is the mass-ratio
power law, times the taper evaluated at the *secondary mass* `q * m1`, times the tapered primary density. -/
theorem C37_tapered_joint (α β mmin mmax mpp sig lam delta m1 q : ℝ) (h0 : 0 < mmin) (hd : 0 < delta)
    (hm : mmin < m1) (hq1 : q ≤ 1) (hlo : mmin < q * m1) (hhi : q * m1 < mmin + delta) :
    ∃ s : ℝ, 0 < s ∧ s < 1 ∧ (q * m1 = mmin + delta / 2 → s = 1 / 2) ∧
      s = 1 / (Real.exp (delta / (q * m1 - mmin) + delta / (q * m1 - mmin - delta)) + 1) ∧
      plpeak_primary_ratio_pdf (fin m1) (fin q) (fin α) (fin β) (fin mmin) (fin mmax) (fin mpp) (fin sig) (fin lam)
          (some (fin delta))
        = powerlaw_pdf (fin q) (fin β) (fin (mmin / m1)) 1 * fin s
          * plpeak_primary_pdf (fin m1) (fin α) (fin mmin) (fin mmax) (fin mpp) (fin sig) (fin lam) (some (fin delta)) := by
  have hm0 : 0 < m1 := h0.trans hm
  obtain ⟨g, h1, _, h3, _⟩ := C19_taper_window_partial delta mmin hd
  obtain ⟨e, p0, p1, _⟩ := h1 (q * m1) hlo hhi
  have e' := smooth_eq (xmin := mmin) hd hlo.ne' hhi.ne
  have hg : g (q * m1) = 1 / (Real.exp (taperExp delta (q * m1 - mmin)) + 1) := by
    rw [e] at e'; exact (fin_inj _ _).1 e'
  refine ⟨g (q * m1), p0, p1, fun h => by rw [h]; exact h3, hg, ?_⟩
  simp only [plpeak_primary_ratio_pdf]
  rw [mul_fin, e, div_fin hm0.ne']

example : ∃ s : ℝ, 0 < s ∧ s < 1 := by
  obtain ⟨s, h1, h2, _⟩ := C37_tapered_joint (-2) 1 5 80 35 4 (1/10) 5 10 (3/4) (by norm_num) (by norm_num) (by norm_num)
    (by norm_num) (by norm_num) (by norm_num)
  exact ⟨s, h1, h2⟩

/-- the two logistic factors -/
def softLow (m mmin s : ℝ) : ℝ := 1 / (1 + Real.exp (-(s * (m - mmin))))
def softHigh (m mmax s : ℝ) : ℝ := 1 / (1 + Real.exp (s * (m - mmax)))

/-- **C77** (value). For every steepness the density is the mass-ratio power law times the primary power law, softened
at `mmin` with steepness `fall_off` and at `mmax` with the fixed steepness 4.  Partial; missing: the requested steepness at the upper end: `C77_upper_fall_off_fails`. -/
theorem C77_value_partial (m1 q α β mmin mmax fo : ℝ) (h0 : 0 < mmin) (hm : mmin < m1) (hq0 : mmin / m1 ≤ q) (hq1 : q ≤ 1) :
    ∃ pq : ℝ, 0 < pq ∧ powerlaw_pdf (fin q) (fin β) (fin (mmin / m1)) 1 = fin pq ∧
      powerlaw_primary_ratio_falloff_pdf (fin m1) (fin q) (fin α) (fin β) (fin mmin) (fin mmax) (fin fo)
        = fin (pq * (m1 ^ α * softLow m1 mmin fo * softHigh m1 mmax 4)) := by
  have hm0 : 0 < m1 := h0.trans hm
  have hlt : mmin / m1 < 1 := (div_lt_one hm0).2 hm
  have hpos := div_pos h0 hm0
  refine ⟨q ^ β * plNorm β (mmin / m1) 1, mul_pos (Real.rpow_pos_of_pos (hpos.trans_le hq0) _) (plNorm_pos hpos hlt),
    powerlaw_pdf_in hpos hlt hq0 hq1, ?_⟩
  simp only [powerlaw_primary_ratio_falloff_pdf, powerlaw_logit_pdf]
  rw [div_fin hm0.ne', one_def, powerlaw_pdf_in hpos hlt hq0 hq1, pow_fin_pos hm0, ofNat_def, neg_fin,
    logistic_unit_eq, logistic_unit_eq, mul_fin, mul_fin, mul_fin]
  refine congrArg fin ?_
  unfold softLow softHigh
  have e1 : -1 * fo * (m1 - mmin) = -(fo * (m1 - mmin)) := by ring
  have e2 : (1 : ℝ) * 4 * (m1 - mmax) = 4 * (m1 - mmax) := by ring
  rw [e1, e2]

/-- **C77 fails**: for every steepness other than 4 and every primary mass other than `mmax`, the density is *not* the
power law softened with `fall_off` at both ends. -/
theorem C77_upper_fall_off_fails (m1 q α β mmin mmax fo : ℝ) (h0 : 0 < mmin) (hm : mmin < m1) (hq0 : mmin / m1 ≤ q)
    (hq1 : q ≤ 1) (hne : m1 ≠ mmax) (hfo : fo ≠ 4) :
    ∃ pq : ℝ, powerlaw_pdf (fin q) (fin β) (fin (mmin / m1)) 1 = fin pq ∧
      powerlaw_primary_ratio_falloff_pdf (fin m1) (fin q) (fin α) (fin β) (fin mmin) (fin mmax) (fin fo)
        ≠ fin (pq * (m1 ^ α * softLow m1 mmin fo * softHigh m1 mmax fo)) := by
  obtain ⟨pq, hp, h1, h2⟩ := C77_value_partial m1 q α β mmin mmax fo h0 hm hq0 hq1
  refine ⟨pq, h1, ?_⟩
  rw [h2, Ne, fin_inj]
  intro h
  have hA : 0 < m1 ^ α * softLow m1 mmin fo :=
    mul_pos (Real.rpow_pos_of_pos (h0.trans hm) _) (by unfold softLow; positivity)
  have h3 := mul_left_cancel₀ hA.ne' (mul_left_cancel₀ hp.ne' h)
  unfold softHigh at h3
  have h4 : (1 : ℝ) + Real.exp (4 * (m1 - mmax)) = 1 + Real.exp (fo * (m1 - mmax)) := by
    have := congrArg (fun t => 1 / t) h3
    simpa using this
  have h5 : 4 * (m1 - mmax) = fo * (m1 - mmax) := Real.exp_injective (by linarith)
  exact hfo (mul_right_cancel₀ (sub_ne_zero.2 hne) h5).symm

example : ∃ pq : ℝ, powerlaw_pdf (fin (1/2)) (fin 1) (fin (5 / 20)) 1 = fin pq := by
  obtain ⟨pq, h, _⟩ := C77_upper_fall_off_fails 20 (1/2) (-2) 1 5 80 1 (by norm_num) (by norm_num) (by norm_num) (by norm_num)
    (by norm_num) (by norm_num)
  exact ⟨pq, h⟩

end GW
end
