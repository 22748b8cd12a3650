import Verif.Model.SplinePerturbation
import Mathlib.Analysis.SpecialFunctions.SmoothTransition

/-!
# C110: the low-mass smoothing window

What a user relies on: a window that switches a mass spectrum on smoothly over `[mmin, mmin + delta_m]`.
-/

noncomputable section
open Classical
namespace GW
open F

/-- Specification of a switch-on over `[lo, hi]`, `lo < hi`: off up to `lo`, on from `hi`, strictly rising in between, antisymmetric about the
middle (hence one half there), and infinitely differentiable everywhere, both ends included. -/
structure SwitchOn (lo hi : ℝ) (w : ℝ → ℝ) : Prop where
  off : ∀ m, m ≤ lo → w m = 0
  on : ∀ m, hi ≤ m → w m = 1
  rising : StrictMonoOn w (Set.Icc lo hi)
  symm : ∀ t, w (lo + t) + w (hi - t) = 1
  smooth : ContDiff ℝ (⊤ : ℕ∞) w

/-- `1 / (exp(1/x + 1/(x-1)) + 1)` is the standard smooth transition. -/
lemma planck_eq_transition {x : ℝ} (h0 : 0 < x) (h1 : x < 1) :
    1 / (Real.exp (1 / x + 1 / (x - 1)) + 1) = Real.smoothTransition x := by
  have e0 : expNegInvGlue x = Real.exp (-x⁻¹) := by simp [expNegInvGlue, not_le.mpr h0]
  have e1 : expNegInvGlue (1 - x) = Real.exp (-(1 - x)⁻¹) := by
    rw [expNegInvGlue, if_neg (not_le.mpr (by linarith : (0 : ℝ) < 1 - x))]
  have h : Real.exp (1 / x + 1 / (x - 1)) = Real.exp (-(1 - x)⁻¹) / Real.exp (-x⁻¹) := by
    rw [← Real.exp_sub]
    congr 1
    have : x - 1 ≠ 0 := by linarith
    have : 1 - x ≠ 0 := by linarith
    field_simp
    ring
  rw [Real.smoothTransition, e0, e1, h]
  have := Real.exp_pos (-x⁻¹)
  have := Real.exp_pos (-(1 - x)⁻¹)
  field_simp
  ring

lemma transition_strictMono : StrictMonoOn Real.smoothTransition (Set.Icc 0 1) := by
  have glue : StrictMonoOn expNegInvGlue (Set.Ici 0) := by
    intro x hx y _ hxy
    have hy : 0 < y := lt_of_le_of_lt hx hxy
    rcases eq_or_lt_of_le (Set.mem_Ici.1 hx) with h | h
    · rw [← h, expNegInvGlue.zero]; exact expNegInvGlue.pos_of_pos hy
    · rw [expNegInvGlue, if_neg (not_le.mpr h), expNegInvGlue, if_neg (not_le.mpr hy)]
      apply Real.exp_lt_exp.2
      have := inv_strictAnti₀ h hxy
      linarith
  intro x hx y hy hxy
  have a := glue (Set.mem_Ici.2 hx.1) (Set.mem_Ici.2 hy.1) hxy
  have b := glue (Set.mem_Ici.2 (by linarith [hy.2] : (0 : ℝ) ≤ 1 - y)) (Set.mem_Ici.2 (by linarith [hx.2] : (0 : ℝ) ≤ 1 - x))
    (by linarith : 1 - y < 1 - x)
  have px := Real.smoothTransition.pos_denom x
  have py := Real.smoothTransition.pos_denom y
  have n1 := expNegInvGlue.nonneg x
  have n2 := expNegInvGlue.nonneg (1 - y)
  rw [Real.smoothTransition, Real.smoothTransition, div_lt_div_iff₀ px py]
  nlinarith

lemma transition_symm (x : ℝ) : Real.smoothTransition x + Real.smoothTransition (1 - x) = 1 := by
  have := Real.smoothTransition.pos_denom x
  rw [Real.smoothTransition, Real.smoothTransition, sub_sub_cancel, add_comm (expNegInvGlue (1 - x)), ← add_div, div_self this.ne']

/-- The window of a mass is the standard transition of its position in the interval. -/
lemma massSmoothing_eq (m mmin δ : ℝ) (hδ : 0 < δ) :
    massSmoothing (fin m) (fin mmin) (fin δ) = fin (Real.smoothTransition ((m - mmin) / δ)) := by
  by_cases h0 : m ≤ mmin
  · have : (m - mmin) / δ ≤ 0 := div_nonpos_of_nonpos_of_nonneg (by linarith) hδ.le
    simp [massSmoothing, h0, Real.smoothTransition.zero_of_nonpos this]
  · push Not at h0
    by_cases h1 : m - mmin < δ
    · have hs : 0 < m - mmin := by linarith
      have hd : m - mmin - δ ≠ 0 := by linarith
      have hx : (m - mmin) / δ < 1 := by rw [div_lt_one hδ]; exact h1
      have hx0 : 0 < (m - mmin) / δ := div_pos hs hδ
      have e : Real.exp (δ / (m - mmin) + δ / (m - mmin - δ)) + 1 ≠ 0 := by positivity
      rw [← planck_eq_transition hx0 hx]
      have e2 : 1 / ((m - mmin) / δ) + 1 / ((m - mmin) / δ - 1) = δ / (m - mmin) + δ / (m - mmin - δ) := by
        have : (m - mmin) / δ - 1 = (m - mmin - δ) / δ := by field_simp
        rw [this, one_div_div, one_div_div]
      rw [e2]
      simp [massSmoothing, not_le.mpr h0, h0, h1, div_fin, hs.ne', hd, e]
    · have : 1 ≤ (m - mmin) / δ := by rw [le_div_iff₀ hδ]; linarith
      simp [massSmoothing, not_le.mpr h0, h1, Real.smoothTransition.one_of_one_le this]

/-- **C110.** For a positive width the window is a smooth switch-on over `[mmin, mmin + delta_m]`. -/
theorem C110_switch_on (mmin δ : ℝ) (hδ : 0 < δ) :
    ∃ w : ℝ → ℝ, SwitchOn mmin (mmin + δ) w ∧ ∀ m, massSmoothing (fin m) (fin mmin) (fin δ) = fin (w m) := by
  refine ⟨fun m => Real.smoothTransition ((m - mmin) / δ), ⟨?_, ?_, ?_, ?_, ?_⟩, fun m => massSmoothing_eq m mmin δ hδ⟩
  · exact fun m hm => Real.smoothTransition.zero_of_nonpos (div_nonpos_of_nonpos_of_nonneg (by linarith) hδ.le)
  · exact fun m hm => Real.smoothTransition.one_of_one_le (by rw [le_div_iff₀ hδ]; linarith)
  · intro x hx y hy hxy
    refine transition_strictMono ⟨div_nonneg (by linarith [hx.1]) hδ.le, ?_⟩ ⟨div_nonneg (by linarith [hy.1]) hδ.le, ?_⟩ ?_
    · rw [div_le_one hδ]; linarith [hx.2]
    · rw [div_le_one hδ]; linarith [hy.2]
    · exact div_lt_div_of_pos_right (by linarith) hδ
  · intro t
    have : (mmin + δ - t - mmin) / δ = 1 - (mmin + t - mmin) / δ := by field_simp; ring
    simp only [this]
    exact transition_symm _
  · exact Real.smoothTransition.contDiff.comp ((contDiff_id.sub contDiff_const).div_const δ)

/-- **C110.** For a width that is not positive the window is the step at `mmin`: off at `mmin` itself, on above. -/
theorem C110_step (m mmin δ : ℝ) (hδ : δ ≤ 0) :
    massSmoothing (fin m) (fin mmin) (fin δ) = if m ≤ mmin then 0 else 1 := by
  by_cases h0 : m ≤ mmin
  · simp [massSmoothing, h0]
  · have h1 : ¬ (m - mmin < δ) := by push Not at h0 ⊢; linarith
    simp [massSmoothing, h0, h1]

/-- **C110.** The window never returns NaN: a NaN mass is given full weight, as is an infinite one; the mass `-inf` gets none. -/
theorem C110_not_finite (mmin δ : ℝ) :
    massSmoothing nan (fin mmin) (fin δ) = 1 ∧ massSmoothing pinf (fin mmin) (fin δ) = 1 ∧
      massSmoothing ninf (fin mmin) (fin δ) = 0 := by
  refine ⟨?_, ?_, ?_⟩ <;> simp [massSmoothing]

/-- a window of width 5 above 3 solar masses: one half at 5.5 -/
example : massSmoothing (fin 5.5) (fin 3) (fin 5) = fin (1 / 2) := by
  obtain ⟨w, hw, h⟩ := C110_switch_on 3 5 (by norm_num)
  have := hw.symm 2.5
  norm_num at this
  rw [h]
  norm_num
  linarith

end GW
end
