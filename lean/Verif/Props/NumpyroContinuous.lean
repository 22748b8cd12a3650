import Verif.Model.NumpyroDistributions
import Verif.Lemmas.Powerlaw
import Mathlib.Analysis.SpecialFunctions.Integrals.Basic
import Mathlib.Analysis.SpecialFunctions.Trigonometric.Deriv
import Mathlib.Analysis.Complex.ExponentialBounds

/-! # Properties C24–C27: Sine, Cosine, Powerlaw and PowerlawSmoothedPowerlaw -/

open MeasureTheory Set
noncomputable section
open Classical
namespace GW
open F

/-! ## Specification: a cdf/icdf pair on an interval -/

/-- `cdf` and `icdf` are mutually inverse between `[a,b]` and `[0,1]`, all values being ordinary numbers. -/
structure InverseOn (cdf icdf : ℝ → F) (a b : ℝ) : Prop where
  /-- every probability has a quantile inside the support which the cdf maps back -/
  quantile : ∀ q, 0 ≤ q → q ≤ 1 → ∃ x, a ≤ x ∧ x ≤ b ∧ icdf q = fin x ∧ cdf x = fin q
  /-- every point of the support has a probability which the icdf maps back -/
  prob : ∀ x, a ≤ x → x ≤ b → ∃ q, 0 ≤ q ∧ q ≤ 1 ∧ cdf x = fin q ∧ icdf q = fin x

/-- `c` is finite and non-decreasing on the set `s` and takes values in `[0,1]`. -/
def IsCdfOn (c : ℝ → F) (s : Set ℝ) : Prop :=
  ∃ g : ℝ → ℝ, (∀ x ∈ s, c x = fin (g x) ∧ 0 ≤ g x ∧ g x ≤ 1) ∧ MonotoneOn g s

/-! ## C24 — Sine and Cosine -/

theorem cos_lt {a b : ℝ} (h0 : 0 ≤ a) (h : a < b) (hb : b ≤ Real.pi) : Real.cos b < Real.cos a :=
  Real.cos_lt_cos_of_nonneg_of_le_pi h0 hb h

theorem sine_cdf_in {a b x : ℝ} (h0 : 0 ≤ a) (h : a < b) (hb : b ≤ Real.pi) (h1 : a ≤ x) (h2 : x ≤ b) :
    sine_cdf a b x = fin ((Real.cos a - Real.cos x) / (Real.cos a - Real.cos b)) := by
  have := cos_lt h0 h hb
  have hne : Real.cos b - Real.cos a ≠ 0 := by linarith
  simp only [sine_cdf, lt_fin, gt_fin, if_neg (not_lt.2 h1), if_neg (not_lt.2 h2), sub_fin, div_fin hne]
  rw [fin_inj, ← neg_sub, ← neg_sub (Real.cos a) (Real.cos b), neg_div_neg_eq]

/-- **C24 (Sine).** cdf and icdf are inverse to each other on the support, for every sub-range of `[0, π]`. -/
theorem C24_sine_inverse (a b : ℝ) (h0 : 0 ≤ a) (h : a < b) (hb : b ≤ Real.pi) :
    InverseOn (sine_cdf a b) (sine_icdf a b) a b := by
  have hc := cos_lt h0 h hb
  have hne : Real.cos a - Real.cos b ≠ 0 := by linarith
  have hic : ∀ q, 0 ≤ q → q ≤ 1 → sine_icdf a b q = fin (Real.arccos (Real.cos a - q * (Real.cos a - Real.cos b))) := by
    intro q h1 h2
    simp only [sine_icdf, sub_fin, mul_fin, arccosF]
    rw [if_pos]
    have := Real.neg_one_le_cos b
    have := Real.cos_le_one a
    constructor <;> nlinarith
  constructor
  · intro q h1 h2
    have hw1 : Real.cos b ≤ Real.cos a - q * (Real.cos a - Real.cos b) := by nlinarith
    have hw2 : Real.cos a - q * (Real.cos a - Real.cos b) ≤ Real.cos a := by nlinarith
    have hx1 : a ≤ Real.arccos (Real.cos a - q * (Real.cos a - Real.cos b)) := by
      have := Real.arccos_le_arccos hw2
      rwa [Real.arccos_cos h0 (by linarith)] at this
    have hx2 : Real.arccos (Real.cos a - q * (Real.cos a - Real.cos b)) ≤ b := by
      have := Real.arccos_le_arccos hw1
      rwa [Real.arccos_cos (by linarith) hb] at this
    refine ⟨_, hx1, hx2, hic q h1 h2, ?_⟩
    rw [sine_cdf_in h0 h hb hx1 hx2, Real.cos_arccos (by linarith [Real.neg_one_le_cos b])
      (by linarith [Real.cos_le_one a])]
    rw [fin_inj]; field_simp; ring
  · intro x h1 h2
    have hx1 : Real.cos x ≤ Real.cos a := Real.cos_le_cos_of_nonneg_of_le_pi h0 (by linarith) h1
    have hx2 : Real.cos b ≤ Real.cos x := Real.cos_le_cos_of_nonneg_of_le_pi (by linarith) hb h2
    have hq0 : 0 ≤ (Real.cos a - Real.cos x) / (Real.cos a - Real.cos b) := div_nonneg (by linarith) (by linarith)
    have hq1 : (Real.cos a - Real.cos x) / (Real.cos a - Real.cos b) ≤ 1 := by
      rw [div_le_one (by linarith)]; linarith
    refine ⟨_, hq0, hq1, sine_cdf_in h0 h hb h1 h2, ?_⟩
    rw [hic _ hq0 hq1, div_mul_cancel₀ _ hne, fin_inj]
    rw [show Real.cos a - (Real.cos a - Real.cos x) = Real.cos x by ring, Real.arccos_cos (by linarith) (by linarith)]

/-- **C24 (Sine).** the cdf is 0 below, 1 above and non-decreasing on the whole line. -/
theorem C24_sine_cdf (a b : ℝ) (h0 : 0 ≤ a) (h : a < b) (hb : b ≤ Real.pi) :
    (∀ x < a, sine_cdf a b x = fin 0) ∧ (∀ x > b, sine_cdf a b x = fin 1) ∧ IsCdfOn (sine_cdf a b) univ := by
  have hc := cos_lt h0 h hb
  have hlow : ∀ x < a, sine_cdf a b x = fin 0 := by
    intro x hx
    simp only [sine_cdf, lt_fin, gt_fin, if_pos hx, if_neg (not_lt.2 (hx.le.trans h.le)), zero_def]
  have hhigh : ∀ x > b, sine_cdf a b x = fin 1 := by
    intro x hx
    simp only [sine_cdf, gt_fin, if_pos hx, one_def]
  refine ⟨hlow, hhigh, fun x => if x < a then 0 else if b < x then 1 else
      (Real.cos a - Real.cos x) / (Real.cos a - Real.cos b), ?_, ?_⟩
  · intro x _
    by_cases h1 : x < a
    · simp [h1, hlow x h1]
    · by_cases h2 : b < x
      · simp [h1, h2, hhigh x h2]
      · simp only [if_neg h1, if_neg h2]
        push Not at h1 h2
        refine ⟨sine_cdf_in h0 h hb h1 h2, ?_, ?_⟩
        · exact div_nonneg (by linarith [Real.cos_le_cos_of_nonneg_of_le_pi h0 (by linarith) h1]) (by linarith)
        · rw [div_le_one (by linarith)]
          linarith [Real.cos_le_cos_of_nonneg_of_le_pi (by linarith) hb h2]
  · intro x _ y _ hxy
    have hq : ∀ x, a ≤ x → x ≤ b → 0 ≤ (Real.cos a - Real.cos x) / (Real.cos a - Real.cos b) ∧
        (Real.cos a - Real.cos x) / (Real.cos a - Real.cos b) ≤ 1 := by
      intro x h1 h2
      refine ⟨div_nonneg (by linarith [Real.cos_le_cos_of_nonneg_of_le_pi h0 (by linarith) h1]) (by linarith), ?_⟩
      rw [div_le_one (by linarith)]
      linarith [Real.cos_le_cos_of_nonneg_of_le_pi (by linarith) hb h2]
    simp only
    split_ifs with g1 g2 g3 g4 g5 g6
    · exact le_refl _
    · exact zero_le_one
    · exact (hq y (by linarith) (by linarith)).1
    · linarith
    · exact le_refl _
    · linarith
    · linarith
    · exact (hq x (by linarith) (by linarith)).2
    · have := Real.cos_le_cos_of_nonneg_of_le_pi (x := x) (y := y) (by linarith) (by linarith) hxy
      exact div_le_div_of_nonneg_right (by linarith) (by linarith)

theorem sine_pdf_eq {a b x : ℝ} (h1 : 0 ≤ x) (h2 : x ≤ Real.pi) : exp (sine_log_prob a b x) = fin (Real.sin x / 2) := by
  have hs := Real.sin_nonneg_of_nonneg_of_le_pi h1 h2
  simp only [sine_log_prob, ofNat_def]
  rw [div_fin (by norm_num)]
  rcases hs.eq_or_lt with h | h
  · rw [← h, zero_div]; simp
  · rw [log_fin (by positivity)]; simp [Real.exp_log (show (0:ℝ) < Real.sin x / 2 by positivity)]

theorem integral_sine (a b : ℝ) : ∫ x in a..b, Real.sin x / 2 = (Real.cos a - Real.cos b) / 2 := by
  rw [intervalIntegral.integral_div, integral_sin]

/-- **C24 (Sine).** With the default range `[0, π]` the density integrates to one. -/
theorem C24_sine_density_full_range_partial : IsPdfOn (fun x => exp (sine_log_prob 0 Real.pi x)) 0 Real.pi := by
  refine isPdfOn_of Real.pi_pos.le (fun x h1 h2 => sine_pdf_eq h1 h2) (by fun_prop) ?_ ?_
  · intro x h1 h2; have := Real.sin_nonneg_of_nonneg_of_le_pi h1 h2; positivity
  · rw [integral_sine]; norm_num

/-- **C24 fails (Sine).** For every other sub-range of `[0, π]` the density integrates to
`(cos min − cos max)/2 < 1`: `log_prob` ignores `minimum` and `maximum`. -/
theorem C24_sine_density_subrange_fails (a b : ℝ) (h0 : 0 ≤ a) (h : a < b) (hb : b ≤ Real.pi)
    (hsub : 0 < a ∨ b < Real.pi) :
    ∫ x in a..b, (exp (sine_log_prob a b x)).toReal = (Real.cos a - Real.cos b) / 2 ∧
    (Real.cos a - Real.cos b) / 2 < 1 := by
  constructor
  · rw [toReal_congr_integral h.le (fun x h1 h2 => sine_pdf_eq (h0.trans h1) (h2.trans hb)), integral_sine]
  · rcases hsub with ha | hb'
    · have := cos_lt (le_refl 0) ha (by linarith)
      rw [Real.cos_zero] at this
      linarith [Real.neg_one_le_cos b]
    · have := cos_lt (h0.trans h.le) hb' (le_refl _)
      rw [Real.cos_pi] at this
      linarith [Real.cos_le_one a]

theorem sin_lt {a b : ℝ} (h0 : -(Real.pi / 2) ≤ a) (h : a < b) (hb : b ≤ Real.pi / 2) : Real.sin a < Real.sin b :=
  Real.sin_lt_sin_of_lt_of_le_pi_div_two h0 hb h

theorem sin_le {a b : ℝ} (h0 : -(Real.pi / 2) ≤ a) (h : a ≤ b) (hb : b ≤ Real.pi / 2) : Real.sin a ≤ Real.sin b :=
  Real.sin_le_sin_of_le_of_le_pi_div_two h0 hb h

theorem cosine_cdf_in {a b x : ℝ} (h0 : -(Real.pi / 2) ≤ a) (h : a < b) (hb : b ≤ Real.pi / 2) (h1 : a ≤ x) (h2 : x ≤ b) :
    cosine_cdf a b x = fin ((Real.sin x - Real.sin a) / (Real.sin b - Real.sin a)) := by
  have := sin_lt h0 h hb
  have hne : Real.sin b - Real.sin a ≠ 0 := by linarith
  simp only [cosine_cdf, lt_fin, gt_fin, if_neg (not_lt.2 h1), if_neg (not_lt.2 h2), sub_fin, div_fin hne]

/-- **C24 (Cosine).** cdf and icdf are inverse to each other on every sub-range of `[-π/2, π/2]`. -/
theorem C24_cosine_inverse (a b : ℝ) (h0 : -(Real.pi / 2) ≤ a) (h : a < b) (hb : b ≤ Real.pi / 2) :
    InverseOn (cosine_cdf a b) (cosine_icdf a b) a b := by
  have hc := sin_lt h0 h hb
  have hne : Real.sin b - Real.sin a ≠ 0 := by linarith
  have hic : ∀ q, 0 ≤ q → q ≤ 1 → cosine_icdf a b q = fin (Real.arcsin (Real.sin a + q * (Real.sin b - Real.sin a))) := by
    intro q h1 h2
    simp only [cosine_icdf, sub_fin, mul_fin, arcsinF]
    rw [show Real.sin a - q * (Real.sin a - Real.sin b) = Real.sin a + q * (Real.sin b - Real.sin a) by ring, if_pos]
    have := Real.neg_one_le_sin a
    have := Real.sin_le_one b
    constructor <;> nlinarith
  constructor
  · intro q h1 h2
    have hw1 : Real.sin a ≤ Real.sin a + q * (Real.sin b - Real.sin a) := by nlinarith
    have hw2 : Real.sin a + q * (Real.sin b - Real.sin a) ≤ Real.sin b := by nlinarith
    have hx1 : a ≤ Real.arcsin (Real.sin a + q * (Real.sin b - Real.sin a)) := by
      have := Real.monotone_arcsin hw1
      rwa [Real.arcsin_sin h0 (by linarith)] at this
    have hx2 : Real.arcsin (Real.sin a + q * (Real.sin b - Real.sin a)) ≤ b := by
      have := Real.monotone_arcsin hw2
      rwa [Real.arcsin_sin (by linarith) hb] at this
    refine ⟨_, hx1, hx2, hic q h1 h2, ?_⟩
    rw [cosine_cdf_in h0 h hb hx1 hx2, Real.sin_arcsin (by linarith [Real.neg_one_le_sin a])
      (by linarith [Real.sin_le_one b])]
    rw [fin_inj]; field_simp; ring
  · intro x h1 h2
    have hx1 := sin_le h0 h1 (h2.trans hb)
    have hx2 := sin_le (h0.trans h1) h2 hb
    have hq0 : 0 ≤ (Real.sin x - Real.sin a) / (Real.sin b - Real.sin a) := div_nonneg (by linarith) (by linarith)
    have hq1 : (Real.sin x - Real.sin a) / (Real.sin b - Real.sin a) ≤ 1 := by
      rw [div_le_one (by linarith)]; linarith
    refine ⟨_, hq0, hq1, cosine_cdf_in h0 h hb h1 h2, ?_⟩
    rw [hic _ hq0 hq1, div_mul_cancel₀ _ hne, fin_inj]
    rw [show Real.sin a + (Real.sin x - Real.sin a) = Real.sin x by ring, Real.arcsin_sin (by linarith) (by linarith)]

/-- **C24 (Cosine).** the cdf is 0 below, 1 above and non-decreasing on the whole line. -/
theorem C24_cosine_cdf (a b : ℝ) (h0 : -(Real.pi / 2) ≤ a) (h : a < b) (hb : b ≤ Real.pi / 2) :
    (∀ x < a, cosine_cdf a b x = fin 0) ∧ (∀ x > b, cosine_cdf a b x = fin 1) ∧ IsCdfOn (cosine_cdf a b) univ := by
  have hc := sin_lt h0 h hb
  have hlow : ∀ x < a, cosine_cdf a b x = fin 0 := by
    intro x hx
    simp only [cosine_cdf, lt_fin, gt_fin, if_pos hx, if_neg (not_lt.2 (hx.le.trans h.le)), zero_def]
  have hhigh : ∀ x > b, cosine_cdf a b x = fin 1 := by
    intro x hx
    simp only [cosine_cdf, gt_fin, if_pos hx, one_def]
  have hq : ∀ x, a ≤ x → x ≤ b → 0 ≤ (Real.sin x - Real.sin a) / (Real.sin b - Real.sin a) ∧
      (Real.sin x - Real.sin a) / (Real.sin b - Real.sin a) ≤ 1 := by
    intro x h1 h2
    refine ⟨div_nonneg (by linarith [sin_le h0 h1 (h2.trans hb)]) (by linarith), ?_⟩
    rw [div_le_one (by linarith)]
    linarith [sin_le (h0.trans h1) h2 hb]
  refine ⟨hlow, hhigh, fun x => if x < a then 0 else if b < x then 1 else
      (Real.sin x - Real.sin a) / (Real.sin b - Real.sin a), ?_, ?_⟩
  · intro x _
    by_cases h1 : x < a
    · simp [h1, hlow x h1]
    · by_cases h2 : b < x
      · simp [h1, h2, hhigh x h2]
      · simp only [if_neg h1, if_neg h2]
        push Not at h1 h2
        exact ⟨cosine_cdf_in h0 h hb h1 h2, hq x h1 h2⟩
  · intro x _ y _ hxy
    simp only
    split_ifs with g1 g2 g3 g4 g5 g6
    · exact le_refl _
    · exact zero_le_one
    · exact (hq y (by linarith) (by linarith)).1
    · linarith
    · exact le_refl _
    · linarith
    · linarith
    · exact (hq x (by linarith) (by linarith)).2
    · have := sin_le (a := x) (b := y) (by linarith) hxy (by linarith)
      exact div_le_div_of_nonneg_right (by linarith) (by linarith)

theorem cosine_pdf_eq {a b x : ℝ} (h1 : -(Real.pi / 2) ≤ x) (h2 : x ≤ Real.pi / 2) :
    exp (cosine_log_prob a b x) = fin (Real.cos x / 2) := by
  have hs := Real.cos_nonneg_of_neg_pi_div_two_le_of_le h1 h2
  simp only [cosine_log_prob, ofNat_def]
  rw [div_fin (by norm_num)]
  rcases hs.eq_or_lt with h | h
  · rw [← h, zero_div]; simp
  · rw [log_fin (by positivity)]; simp [Real.exp_log (show (0:ℝ) < Real.cos x / 2 by positivity)]

theorem integral_cosine (a b : ℝ) : ∫ x in a..b, Real.cos x / 2 = (Real.sin b - Real.sin a) / 2 := by
  rw [intervalIntegral.integral_div, integral_cos]

/-- **C24 (Cosine).** With the default range `[-π/2, π/2]` the density integrates to one. -/
theorem C24_cosine_density_full_range_partial :
    IsPdfOn (fun x => exp (cosine_log_prob (-(Real.pi / 2)) (Real.pi / 2) x)) (-(Real.pi / 2)) (Real.pi / 2) := by
  refine isPdfOn_of (by linarith [Real.pi_pos]) (fun x h1 h2 => cosine_pdf_eq h1 h2) (by fun_prop) ?_ ?_
  · intro x h1 h2; have := Real.cos_nonneg_of_neg_pi_div_two_le_of_le h1 h2; positivity
  · rw [integral_cosine]; norm_num

/-- **C24 fails (Cosine).** On every proper sub-range the density integrates to `(sin max − sin min)/2 < 1`. -/
theorem C24_cosine_density_subrange_fails (a b : ℝ) (h0 : -(Real.pi / 2) ≤ a) (h : a < b) (hb : b ≤ Real.pi / 2)
    (hsub : -(Real.pi / 2) < a ∨ b < Real.pi / 2) :
    ∫ x in a..b, (exp (cosine_log_prob a b x)).toReal = (Real.sin b - Real.sin a) / 2 ∧
    (Real.sin b - Real.sin a) / 2 < 1 := by
  constructor
  · rw [toReal_congr_integral h.le (fun x h1 h2 => cosine_pdf_eq (h0.trans h1) (h2.trans hb)), integral_cosine]
  · rcases hsub with ha | hb'
    · have := sin_lt (le_refl _) ha (by linarith)
      rw [Real.sin_neg, Real.sin_pi_div_two] at this
      linarith [Real.sin_le_one b]
    · have := sin_lt (h0.trans h.le) hb' (le_refl _)
      rw [Real.sin_pi_div_two] at this
      linarith [Real.neg_one_le_sin a]

/-! ## C25, C26 — Powerlaw -/

/-- the real number the cdf computes before clipping -/
def plG (α a b x : ℝ) : ℝ :=
  if α = -1 then Real.log (x / a) / Real.log (b / a)
  else (x ^ (α + 1) - a ^ (α + 1)) / (b ^ (α + 1) - a ^ (α + 1))

theorem rpow_diff_ne {α a b : ℝ} (h0 : 0 < a) (h : a < b) (hα : α ≠ -1) : b ^ (α + 1) - a ^ (α + 1) ≠ 0 := by
  have := (rpow_sub_sign h0 h hα).2; rwa [add_comm] at this

theorem max_min_fin (g : ℝ) : F.max (F.min (fin g) 1) 0 = fin (max (min g 1) 0) := by
  simp only [F.min, F.max, one_def, zero_def, le_fin]
  by_cases h1 : g ≤ 1
  · simp only [h1, min_eq_left h1, if_true]
    by_cases h2 : g ≤ 0
    · simp [h2]
    · simp [h2, max_eq_left (not_le.1 h2).le]
  · have : Min.min g 1 = 1 := min_eq_right (not_le.1 h1).le
    simp [h1, this]

theorem pl_cdf_eq {α a b x : ℝ} (h0 : 0 < a) (h : a < b) (hx : 0 < x) :
    pl_cdf (fin α) (fin a) (fin b) (fin x) = fin (max (min (plG α a b x) 1) 0) := by
  have hb : 0 < b := h0.trans h
  rw [← max_min_fin]
  simp only [pl_cdf, plG]
  congr 2
  by_cases hα : α = -1
  · subst hα
    rw [if_pos (by simp), if_pos rfl, div_fin h0.ne', div_fin h0.ne', log_fin (div_pos hx h0), log_fin (div_pos hb h0),
      div_fin (log_div_pos h0 h).ne']
  · rw [if_neg (by simp [hα]), if_neg hα, one_def, add_fin, pow_fin_pos hx, pow_fin_pos h0, pow_fin_pos hb, sub_fin,
      sub_fin, div_fin (rpow_diff_ne h0 h hα)]

theorem plG_mono {α a b : ℝ} (h0 : 0 < a) (h : a < b) : MonotoneOn (plG α a b) (Ioi 0) := by
  intro x hx y hy hxy
  have hx : 0 < x := hx
  have hy : 0 < y := hy
  have hb : 0 < b := h0.trans h
  unfold plG
  split_ifs with hα
  · exact div_le_div_of_nonneg_right
      (Real.log_le_log (div_pos hx h0) (div_le_div_of_nonneg_right hxy h0.le)) (log_div_pos h0 h).le
  · rcases lt_or_gt_of_ne (fun hc : α + 1 = 0 => hα (by linarith)) with hneg | hpos
    · have h1 : b ^ (α + 1) < a ^ (α + 1) := Real.rpow_lt_rpow_of_neg h0 h hneg
      have h2 : y ^ (α + 1) ≤ x ^ (α + 1) := Real.rpow_le_rpow_of_nonpos hx hxy hneg.le
      rw [← neg_div_neg_eq (x ^ (α + 1) - _), ← neg_div_neg_eq (y ^ (α + 1) - _)]
      exact div_le_div_of_nonneg_right (by linarith) (by linarith)
    · have h1 : a ^ (α + 1) < b ^ (α + 1) := Real.rpow_lt_rpow h0.le h hpos
      have h2 : x ^ (α + 1) ≤ y ^ (α + 1) := Real.rpow_le_rpow hx.le hxy hpos.le
      exact div_le_div_of_nonneg_right (by linarith) (by linarith)

theorem plG_low {α a b : ℝ} (h0 : 0 < a) : plG α a b a = 0 := by
  unfold plG; split_ifs
  · rw [div_self h0.ne', Real.log_one, zero_div]
  · rw [sub_self, zero_div]

theorem plG_high {α a b : ℝ} (h0 : 0 < a) (h : a < b) : plG α a b b = 1 := by
  unfold plG; split_ifs with hα
  · exact div_self (log_div_pos h0 h).ne'
  · exact div_self (rpow_diff_ne h0 h hα)

theorem pl_cdf_in {α a b x : ℝ} (h0 : 0 < a) (h : a < b) (h1 : a ≤ x) (h2 : x ≤ b) :
    pl_cdf (fin α) (fin a) (fin b) (fin x) = fin (plG α a b x) ∧ 0 ≤ plG α a b x ∧ plG α a b x ≤ 1 := by
  have hx := h0.trans_le h1
  have g0 : 0 ≤ plG α a b x := by
    rw [← plG_low (α := α) (b := b) h0]; exact plG_mono h0 h (mem_Ioi.2 h0) (mem_Ioi.2 hx) h1
  have g1 : plG α a b x ≤ 1 := by
    rw [← plG_high (α := α) h0 h]; exact plG_mono h0 h (mem_Ioi.2 hx) (mem_Ioi.2 (h0.trans h)) h2
  refine ⟨?_, g0, g1⟩
  rw [pl_cdf_eq h0 h hx, min_eq_left g1, max_eq_left g0]

/-- the real number computed by `icdf` -/
def plQ (α a b q : ℝ) : ℝ :=
  if α = -1 then a * Real.exp (q * Real.log (b / a))
  else (a ^ (1 + α) + q * (b ^ (1 + α) - a ^ (1 + α))) ^ (1 / (1 + α))

theorem between_pos {α a b q : ℝ} (h0 : 0 < a) (h : a < b) (h1 : 0 ≤ q) (h2 : q ≤ 1) :
    0 < a ^ (1 + α) + q * (b ^ (1 + α) - a ^ (1 + α)) := by
  have ha := Real.rpow_pos_of_pos h0 (1 + α)
  have hb := Real.rpow_pos_of_pos (h0.trans h) (1 + α)
  rcases h1.eq_or_lt with rfl | h1'
  · simpa using ha
  · nlinarith [mul_pos h1' hb, mul_nonneg (sub_nonneg.2 h2) ha.le]

theorem pl_icdf_eq {α a b q : ℝ} (h0 : 0 < a) (h : a < b) (h1 : 0 ≤ q) (h2 : q ≤ 1) :
    pl_icdf (fin α) (fin a) (fin b) (fin q) = fin (plQ α a b q) := by
  have hb : 0 < b := h0.trans h
  simp only [pl_icdf, plQ]
  by_cases hα : α = -1
  · subst hα
    rw [if_pos (by simp), if_pos rfl, div_fin h0.ne', log_fin (div_pos hb h0), mul_fin, exp_fin, mul_fin]
  · rw [if_neg (by simp [hα]), if_neg hα, one_def, add_fin, pow_fin_pos h0, pow_fin_pos hb, sub_fin, mul_fin, add_fin,
      div_fin (fun hc => hα (by linarith)), pow_fin_pos (between_pos h0 h h1 h2)]

theorem plQ_plG {α a b x : ℝ} (h0 : 0 < a) (h : a < b) (hx : 0 < x) : plQ α a b (plG α a b x) = x := by
  have hb : 0 < b := h0.trans h
  unfold plQ plG
  by_cases hα : α = -1
  · rw [if_pos hα, if_pos hα, div_mul_cancel₀ _ (log_div_pos h0 h).ne', Real.exp_log (div_pos hx h0)]
    field_simp
  · have hne := rpow_diff_ne h0 h hα
    rw [if_neg hα, if_neg hα, add_comm 1 α, div_mul_cancel₀ _ hne]
    rw [show a ^ (α + 1) + (x ^ (α + 1) - a ^ (α + 1)) = x ^ (α + 1) by ring, ← Real.rpow_mul hx.le,
      mul_one_div_cancel (fun hc => hα (by linarith)), Real.rpow_one]

theorem plG_plQ {α a b q : ℝ} (h0 : 0 < a) (h : a < b) (h1 : 0 ≤ q) (h2 : q ≤ 1) : plG α a b (plQ α a b q) = q := by
  unfold plQ plG
  by_cases hα : α = -1
  · rw [if_pos hα, if_pos hα, mul_div_assoc, mul_comm, div_mul_cancel₀ _ h0.ne', Real.log_exp,
      mul_div_cancel_right₀ _ (log_div_pos h0 h).ne']
  · have hne := rpow_diff_ne h0 h hα
    have hp := between_pos (α := α) h0 h h1 h2
    rw [if_neg hα, if_neg hα, add_comm 1 α] at *
    rw [← Real.rpow_mul hp.le, one_div_mul_cancel (fun hc => hα (by linarith)), Real.rpow_one]
    field_simp
    ring

theorem plQ_pos {α a b q : ℝ} (h0 : 0 < a) (h : a < b) (h1 : 0 ≤ q) (h2 : q ≤ 1) : 0 < plQ α a b q := by
  unfold plQ; split_ifs
  · positivity
  · exact Real.rpow_pos_of_pos (between_pos h0 h h1 h2) _

theorem plG_strict {α a b x y : ℝ} (h0 : 0 < a) (h : a < b) (hx : 0 < x) (hy : 0 < y) (hle : plG α a b x ≤ plG α a b y) :
    x ≤ y := by
  by_contra hc; push Not at hc
  have h1 := plG_mono (α := α) h0 h (mem_Ioi.2 hy) (mem_Ioi.2 hx) hc.le
  have h2 : plG α a b x = plG α a b y := le_antisymm hle h1
  have h3 := plQ_plG (α := α) h0 h hx
  have h4 := plQ_plG (α := α) h0 h hy
  rw [h2] at h3; linarith

/-- **C25.** For `0 < min < max` and every slope including `-1`, icdf maps `[0,1]` into `[min,max]` and is the
inverse of cdf. -/
theorem C25_powerlaw_inverse (α a b : ℝ) (h0 : 0 < a) (h : a < b) :
    InverseOn (fun x => pl_cdf (fin α) (fin a) (fin b) (fin x)) (fun q => pl_icdf (fin α) (fin a) (fin b) (fin q)) a b := by
  have hb := h0.trans h
  constructor
  · intro q h1 h2
    have hp := plQ_pos (α := α) h0 h h1 h2
    have hgq := plG_plQ (α := α) h0 h h1 h2
    have hx1 : a ≤ plQ α a b q := plG_strict h0 h h0 hp (by rw [plG_low h0, hgq]; exact h1)
    have hx2 : plQ α a b q ≤ b := plG_strict h0 h hp hb (by rw [plG_high h0 h, hgq]; exact h2)
    refine ⟨plQ α a b q, hx1, hx2, pl_icdf_eq h0 h h1 h2, ?_⟩
    simp only [(pl_cdf_in h0 h hx1 hx2).1, hgq]
  · intro x h1 h2
    obtain ⟨e, g0, g1⟩ := pl_cdf_in (α := α) h0 h h1 h2
    exact ⟨_, g0, g1, e, by simp only [pl_icdf_eq h0 h g0 g1, plQ_plG h0 h (h0.trans_le h1)]⟩

/-- **C25.** On the positive axis the cdf is non-decreasing with values in `[0,1]`, 0 at and below `min`, 1 at and
above `max`. -/
theorem C25_powerlaw_cdf_partial (α a b : ℝ) (h0 : 0 < a) (h : a < b) :
    IsCdfOn (fun x => pl_cdf (fin α) (fin a) (fin b) (fin x)) (Ioi 0) ∧
    (∀ x, 0 < x → x ≤ a → pl_cdf (fin α) (fin a) (fin b) (fin x) = fin 0) ∧
    (∀ x, b ≤ x → pl_cdf (fin α) (fin a) (fin b) (fin x) = fin 1) := by
  have hb := h0.trans h
  refine ⟨⟨fun x => max (min (plG α a b x) 1) 0, ?_, ?_⟩, ?_, ?_⟩
  · intro x hx
    exact ⟨pl_cdf_eq h0 h hx, le_max_right _ _, max_le (min_le_right _ _) zero_le_one⟩
  · intro x hx y hy hxy
    exact max_le_max (min_le_min (plG_mono h0 h hx hy hxy) (le_refl _)) (le_refl _)
  · intro x hx hxa
    rw [pl_cdf_eq h0 h hx, max_eq_right]
    have := plG_mono (α := α) h0 h (mem_Ioi.2 hx) (mem_Ioi.2 h0) hxa
    rw [plG_low h0] at this
    exact (min_le_left _ _).trans this
  · intro x hx
    have := plG_mono (α := α) h0 h (mem_Ioi.2 hb) (mem_Ioi.2 (hb.trans_le hx)) hx
    rw [plG_high h0 h] at this
    rw [pl_cdf_eq h0 h (hb.trans_le hx), min_eq_right this, max_eq_left zero_le_one]

/-- **C25 fails** left of zero: with slope 1 the cdf squares its argument, so at `-max` (below the whole support) it
returns 1. -/
theorem C25_cdf_left_of_zero_fails (a b : ℝ) (h0 : 0 < a) (h : a < b) :
    pl_cdf (fin 1) (fin a) (fin b) (fin (-b)) = fin 1 := by
  have hb := h0.trans h
  have hne := rpow_diff_ne (α := 1) h0 h (by norm_num)
  have e : plG 1 a b b = 1 := plG_high h0 h
  simp only [plG, if_neg (show (1:ℝ) ≠ -1 by norm_num)] at e
  simp only [pl_cdf]
  rw [if_neg (by simp; norm_num), one_def, add_fin, show (1:ℝ) + 1 = 2 by norm_num, pow_two_fin, pow_two_fin, pow_two_fin,
    neg_mul_neg, sub_fin, div_fin (by nlinarith), div_self (by nlinarith)]
  have := max_min_fin 1
  simpa using this

example : InverseOn (fun x => pl_cdf (fin (-1)) (fin 2) (fin 100) (fin x))
    (fun q => pl_icdf (fin (-1)) (fin 2) (fin 100) (fin q)) 2 100 :=
  C25_powerlaw_inverse (-1) 2 100 (by norm_num) (by norm_num)

theorem pl_pdf_eq {α a b x : ℝ} (hα : α ≠ -1) (h0 : 0 < a) (h : a < b) (h1 : a ≤ x) (h2 : x ≤ b) :
    exp (pl_log_prob (fin α) (fin a) (fin b) (fin x)) = fin (x ^ α * plNorm α a b) := by
  have hx := h0.trans_le h1
  have hb := h0.trans h
  obtain ⟨hN, hne⟩ := rpow_sub_sign h0 h hα
  simp only [pl_log_prob]
  rw [if_neg (by simp [not_lt.2 h1, not_lt.2 h2]), if_neg (by simp [hα]), one_def, add_fin, pow_fin_pos h0, pow_fin_pos hb,
    sub_fin, div_fin hne, log_fin hN, log_fin hx, mul_fin, add_fin, exp_fin, Real.exp_add, Real.exp_log hN,
    mul_comm α, ← Real.rpow_def_of_pos hx, plNorm, if_neg hα]

/-- **C26.** For every slope other than `-1`, `exp(log_prob)` is a probability density on `[min,max]`; outside
`log_prob` is the large negative finite constant. -/
theorem C26_powerlaw_density_partial (α a b : ℝ) (hα : α ≠ -1) (h0 : 0 < a) (h : a < b) :
    IsPdfOn (fun x => exp (pl_log_prob (fin α) (fin a) (fin b) (fin x))) a b ∧
    ∀ x, x < a ∨ b < x → pl_log_prob (fin α) (fin a) (fin b) (fin x) = fin (-BIG) := by
  constructor
  · refine isPdfOn_of h.le (fun x h1 h2 => pl_pdf_eq hα h0 h h1 h2) (continuousOn_powerlaw h0) ?_ (integral_powerlaw h0 h)
    intro x h1 h2
    exact mul_nonneg (Real.rpow_nonneg (h0.trans_le h1).le _) (plNorm_pos h0 h).le
  · intro x hx
    simp only [pl_log_prob]
    rw [if_pos (by simpa using hx)]; rfl

/-- **C26.** For every slope other than `-1` the density is the derivative of the cdf inside the support. -/
theorem C26_density_is_derivative_of_cdf_partial (α a b : ℝ) (hα : α ≠ -1) (h0 : 0 < a) (h : a < b) (x : ℝ)
    (h1 : a < x) (h2 : x < b) :
    HasDerivAt (fun v => (pl_cdf (fin α) (fin a) (fin b) (fin v)).toReal)
      (exp (pl_log_prob (fin α) (fin a) (fin b) (fin x))).toReal x := by
  have hx := h0.trans h1
  have hne := rpow_diff_ne h0 h hα
  rw [pl_pdf_eq hα h0 h h1.le h2.le, toReal_fin]
  have hd : HasDerivAt (plG α a b) (x ^ α * plNorm α a b) x := by
    have h3 := ((Real.hasDerivAt_rpow_const (p := α + 1) (Or.inl hx.ne')).sub_const (a ^ (α + 1))).div_const
      (b ^ (α + 1) - a ^ (α + 1))
    have e : plG α a b = fun v => (v ^ (α + 1) - a ^ (α + 1)) / (b ^ (α + 1) - a ^ (α + 1)) := by
      funext v; simp only [plG, if_neg hα]
    rw [e]
    refine h3.congr_deriv ?_
    rw [plNorm, if_neg hα, add_comm 1 α, add_sub_cancel_right]; ring
  refine hd.congr_of_eventuallyEq ?_
  filter_upwards [Ioo_mem_nhds h1 h2] with v hv
  rw [(pl_cdf_in h0 h hv.1.le hv.2.le).1, toReal_fin]

/-- **C26 fails** at slope `-1`, for every `0 < min < max`: the density integrates to `log(max/min)/(max/min)`, which
is below 1 (the code subtracts `log(max/min)` where it should subtract `log(log(max/min))`). -/
theorem C26_slope_minus_one_fails (a b : ℝ) (h0 : 0 < a) (h : a < b) :
    ∫ x in a..b, (exp (pl_log_prob (fin (-1)) (fin a) (fin b) (fin x))).toReal = Real.log (b / a) / (b / a) ∧
    Real.log (b / a) / (b / a) < 1 := by
  have hb := h0.trans h
  have hr : 0 < b / a := div_pos hb h0
  constructor
  · rw [toReal_congr_integral (g := fun x => x⁻¹ / (b / a)) h.le, intervalIntegral.integral_div,
      integral_inv_of_pos h0 hb]
    intro x h1 h2
    have hx := h0.trans_le h1
    simp only [pl_log_prob]
    rw [if_neg (by simp [not_lt.2 h1, not_lt.2 h2]), if_pos (by simp), div_fin h0.ne', log_fin hx, log_fin hr, neg_fin,
      sub_fin, exp_fin, Real.exp_sub, Real.exp_neg, Real.exp_log hx, Real.exp_log hr]
  · rw [div_lt_one hr]
    have := Real.add_one_le_exp (Real.log (b / a))
    rw [Real.exp_log hr] at this
    linarith

end GW
end
