import Verif.Model.Distributions
import Verif.Spec
import Mathlib.Analysis.SpecialFunctions.Integrals.Basic

/-! Real-number facts behind the power-law densities. -/

open MeasureTheory Set
noncomputable section
open Classical
namespace GW
open F

/-- the real normalisation constant of a power law on `[low, high]` -/
def plNorm (α low high : ℝ) : ℝ :=
  if α = -1 then 1 / Real.log (high / low) else (1 + α) / (high ^ (1 + α) - low ^ (1 + α))

theorem rpow_sub_sign {α low high : ℝ} (h0 : 0 < low) (h : low < high) (hα : α ≠ -1) :
    0 < (1 + α) / (high ^ (1 + α) - low ^ (1 + α)) ∧ high ^ (1 + α) - low ^ (1 + α) ≠ 0 := by
  have hh : 0 < high := h0.trans h
  rcases lt_or_gt_of_ne (fun hc : 1 + α = 0 => hα (by linarith)) with hneg | hpos
  · have h1 : high ^ (1 + α) < low ^ (1 + α) := Real.rpow_lt_rpow_of_neg h0 h hneg
    exact ⟨div_pos_of_neg_of_neg hneg (by linarith), by intro hc; linarith⟩
  · have h1 : low ^ (1 + α) < high ^ (1 + α) := Real.rpow_lt_rpow h0.le h hpos
    exact ⟨div_pos hpos (by linarith), by intro hc; linarith⟩

theorem log_div_pos {low high : ℝ} (h0 : 0 < low) (h : low < high) : 0 < Real.log (high / low) :=
  Real.log_pos ((one_lt_div h0).2 h)

theorem plNorm_pos {α low high : ℝ} (h0 : 0 < low) (h : low < high) : 0 < plNorm α low high := by
  unfold plNorm
  split_ifs with hα
  · exact one_div_pos.2 (log_div_pos h0 h)
  · exact (rpow_sub_sign h0 h hα).1

theorem powerlaw_pdf_out {x α low high fl : F} (h : lt x low ∨ gt x high) :
    powerlaw_pdf x α low high fl = fl := by
  simp only [powerlaw_pdf, if_pos h]

theorem powerlaw_norm_eq {α low high : ℝ} (h0 : 0 < low) (h : low < high) :
    (if feq (fin α) (-1) then 1 / log (fin high / fin low)
      else (1 + fin α) / (pow (fin high) (1 + fin α) - pow (fin low) (1 + fin α))) = fin (plNorm α low high) := by
  have hh : 0 < high := h0.trans h
  have hq : 0 < high / low := div_pos hh h0
  unfold plNorm
  by_cases hα : α = -1
  · have : feq (fin α) (-1) := by simp [hα]
    rw [if_pos this, if_pos hα, div_fin h0.ne', log_fin hq, one_def, div_fin (log_div_pos h0 h).ne']
  · have : ¬ feq (fin α) (-1) := by simp [hα]
    rw [if_neg this, if_neg hα, one_def, add_fin, pow_fin_pos hh, pow_fin_pos h0, sub_fin,
      div_fin (rpow_sub_sign h0 h hα).2]

theorem powerlaw_pdf_in {x α low high : ℝ} {fl : F} (h0 : 0 < low) (h : low < high) (h1 : low ≤ x) (h2 : x ≤ high) :
    powerlaw_pdf (fin x) (fin α) (fin low) (fin high) fl = fin (x ^ α * plNorm α low high) := by
  have hx : 0 < x := h0.trans_le h1
  simp only [powerlaw_pdf]
  rw [if_neg (by simp [not_lt.2 h1, not_lt.2 h2]), pow_fin_pos hx, powerlaw_norm_eq h0 h, mul_fin]

theorem integral_powerlaw {α low high : ℝ} (h0 : 0 < low) (h : low < high) :
    ∫ x in low..high, x ^ α * plNorm α low high = 1 := by
  have hh : 0 < high := h0.trans h
  have hnot : (0:ℝ) ∉ uIcc low high := by
    rw [uIcc_of_le h.le]; intro hc; exact absurd hc.1 (not_le.2 h0)
  rw [intervalIntegral.integral_mul_const]
  unfold plNorm
  split_ifs with hα
  · subst hα
    have : ∫ x in low..high, x ^ (-1:ℝ) = Real.log (high / low) := by
      rw [← integral_inv_of_pos h0 hh]
      refine intervalIntegral.integral_congr fun x hx => ?_
      exact Real.rpow_neg_one x
    rw [this, mul_one_div, div_self (log_div_pos h0 h).ne']
  · rw [integral_rpow (Or.inr ⟨hα, hnot⟩), add_comm α 1]
    have h1 := (rpow_sub_sign h0 h hα).2
    have h2 : 1 + α ≠ 0 := fun hc => hα (by linarith)
    field_simp

theorem continuousOn_powerlaw {α low high : ℝ} (h0 : 0 < low) :
    ContinuousOn (fun x : ℝ => x ^ α * plNorm α low high) (Icc low high) := by
  refine ContinuousOn.mul ?_ continuousOn_const
  exact ContinuousOn.rpow_const continuousOn_id fun x hx => Or.inl (h0.trans_le hx.1).ne'

theorem toReal_congr_integral {p : ℝ → F} {g : ℝ → ℝ} {a b : ℝ} (hab : a ≤ b)
    (h : ∀ x, a ≤ x → x ≤ b → p x = fin (g x)) :
    ∫ x in a..b, (p x).toReal = ∫ x in a..b, g x := by
  refine intervalIntegral.integral_congr fun x hx => ?_
  rw [uIcc_of_le hab] at hx
  simp only [h x hx.1 hx.2, toReal_fin]

/-- build `IsPdfOn` from a continuous real formula -/
theorem isPdfOn_of {p : ℝ → F} {g : ℝ → ℝ} {a b : ℝ} (hab : a ≤ b)
    (h : ∀ x, a ≤ x → x ≤ b → p x = fin (g x)) (hg : ContinuousOn g (Icc a b))
    (h0 : ∀ x, a ≤ x → x ≤ b → 0 ≤ g x) (hi : ∫ x in a..b, g x = 1) : IsPdfOn p a b := by
  refine ⟨fun x h1 h2 => ⟨g x, h0 x h1 h2, h x h1 h2⟩, ?_, ?_⟩
  · have : IntervalIntegrable g volume a b := by
      apply ContinuousOn.intervalIntegrable; rwa [uIcc_of_le hab]
    refine this.congr ?_
    intro x hx
    rw [uIoc_of_le hab] at hx
    simp only [h x hx.1.le hx.2, toReal_fin]
  · rw [toReal_congr_integral hab h, hi]

end GW
end
