import Verif.Model.NumpyroDistributions
import Verif.Lemmas.Powerlaw

/-! # Property C27: `PowerlawSmoothedPowerlaw` -/

open MeasureTheory Set
noncomputable section
open Classical
namespace GW
open F
namespace PSP

/-- Parameters for which every formula of the constructor makes sense: increasing positive break points and no slope
equal to `-1`. -/
structure Valid (d : PSP) : Prop where
  low_pos : 0 < d.low
  low_lt : d.low < d.minimum
  min_lt : d.minimum < d.maximum
  lt_high : d.maximum < d.high
  amin : d.alpha_min ≠ -1
  al : d.alpha ≠ -1
  amax : d.alpha_max ≠ -1

/-- mass of the middle and upper pieces relative to the lower one, computed from the three slopes (specification) -/
def ratioMass (d : PSP) : ℝ :=
  d.gamma * (d.minimum ^ (d.alpha_min - d.alpha) * ((d.maximum ^ (d.alpha + 1) - d.minimum ^ (d.alpha + 1)) / (d.alpha + 1))
  + d.minimum ^ (d.alpha_min - d.alpha) * d.maximum ^ (d.alpha - d.alpha_max)
    * ((d.high ^ (d.alpha_max + 1) - d.maximum ^ (d.alpha_max + 1)) / (d.alpha_max + 1)))

theorem pow_gap_pos {p a b : ℝ} (h0 : 0 < a) (h : a < b) (hp : p ≠ -1) : 0 < (b ^ (p + 1) - a ^ (p + 1)) / (p + 1) := by
  have := (rpow_sub_sign h0 h hp).1
  rw [add_comm] at this
  have h2 := inv_pos.2 this
  rwa [inv_div] at h2

variable {d : PSP}

theorem Valid.min_pos (h : d.Valid) : 0 < d.minimum := h.low_pos.trans h.low_lt
theorem Valid.max_pos (h : d.Valid) : 0 < d.maximum := h.min_pos.trans h.min_lt

theorem Valid.gamma_pos (h : d.Valid) : 0 < d.gamma := by
  have := inv_pos.2 (pow_gap_pos h.low_pos h.low_lt h.amin)
  rwa [inv_div] at this

theorem Valid.ratio_pos (h : d.Valid) : 0 < d.ratioMass := by
  have h1 := pow_gap_pos h.min_pos h.min_lt h.al
  have h2 := pow_gap_pos h.max_pos h.lt_high h.amax
  have h3 := h.gamma_pos
  have h4 := Real.rpow_pos_of_pos h.min_pos (d.alpha_min - d.alpha)
  have h5 := Real.rpow_pos_of_pos h.max_pos (d.alpha - d.alpha_max)
  unfold ratioMass; positivity

theorem k1_eq' (d : PSP) : d.k1 = fin (-d.gamma) / fin (1 - d.ratioMass) := by
  unfold k1 ratioMass
  congr 2
  ring

/-- the continuous broken power law with lower amplitude `k` (specification of the shape) -/
def broken (d : PSP) (k x : ℝ) : ℝ :=
  k * (Min.min x d.minimum) ^ d.alpha_min * (Max.max d.minimum (Min.min x d.maximum) / d.minimum) ^ d.alpha
    * (Max.max x d.maximum / d.maximum) ^ d.alpha_max

theorem broken_low (h : d.Valid) {k x : ℝ} (hx : x ≤ d.minimum) : d.broken k x = k * x ^ d.alpha_min := by
  have h1 := h.min_pos; have h2 := h.max_pos; have h3 := h.min_lt
  unfold broken
  rw [min_eq_left hx, min_eq_left (by linarith), max_eq_left hx, max_eq_right (by linarith), div_self h1.ne',
    div_self h2.ne', Real.one_rpow, Real.one_rpow, mul_one, mul_one]

theorem broken_mid (h : d.Valid) {k x : ℝ} (h1 : d.minimum ≤ x) (h2 : x ≤ d.maximum) :
    d.broken k x = k * d.minimum ^ (d.alpha_min - d.alpha) * x ^ d.alpha := by
  have hm := h.min_pos; have hM := h.max_pos
  unfold broken
  rw [min_eq_right h1, min_eq_left h2, max_eq_right h1, max_eq_right h2, div_self hM.ne', Real.one_rpow, mul_one,
    Real.div_rpow (hm.le.trans h1) hm.le, Real.rpow_sub hm]
  ring

theorem broken_high (h : d.Valid) {k x : ℝ} (h2 : d.maximum ≤ x) :
    d.broken k x = k * d.minimum ^ (d.alpha_min - d.alpha) * d.maximum ^ (d.alpha - d.alpha_max) * x ^ d.alpha_max := by
  have hm := h.min_pos; have hM := h.max_pos; have := h.min_lt
  unfold broken
  rw [min_eq_right (by linarith), min_eq_right h2, max_eq_right (by linarith), max_eq_left h2,
    Real.div_rpow hM.le hm.le, Real.div_rpow (by linarith) hM.le, Real.rpow_sub hm, Real.rpow_sub hM]
  ring

theorem exp_log_mul {c x p : ℝ} (hc : 0 < c) (hx : 0 < x) : Real.exp (Real.log c + Real.log x * p) = c * x ^ p := by
  rw [Real.exp_add, Real.exp_log hc, Real.rpow_def_of_pos hx]

theorem pdf_eq (h : d.Valid) {k x : ℝ} (hk : d.k1 = fin k) (hk0 : 0 < k) (hx : 0 < x) :
    exp (d.log_prob x) = fin (d.broken k x) := by
  have hm := h.min_pos; have hM := h.max_pos; have hlt := h.min_lt
  have h4 := Real.rpow_pos_of_pos h.min_pos (d.alpha_min - d.alpha)
  have h5 := Real.rpow_pos_of_pos h.max_pos (d.alpha - d.alpha_max)
  simp only [log_prob, k2, k3, hk, mul_fin, log_fin hx, log_fin hk0, log_fin (mul_pos hk0 h4),
    log_fin (mul_pos (mul_pos hk0 h4) h5), add_fin, lt_fin, gt_fin, ge_fin, le_fin, zero_def]
  rcases lt_or_ge x d.minimum with c1 | c1
  · rw [if_pos c1, if_neg (not_le.2 c1), if_neg (not_lt.2 (by linarith)), add_fin, add_fin, add_zero, add_zero, exp_fin,
      exp_log_mul hk0 hx, broken_low h c1.le]
  · rcases le_or_gt x d.maximum with c2 | c2
    · rw [if_neg (not_lt.2 c1), if_pos c1, if_pos c2, if_neg (not_lt.2 c2), add_fin, add_fin, add_zero, zero_add, exp_fin,
        exp_log_mul (mul_pos hk0 h4) hx, broken_mid h c1 c2]
    · rw [if_neg (not_lt.2 c1), if_pos c1, if_neg (not_le.2 c2), if_pos c2, add_fin, add_fin, zero_add, zero_add, exp_fin,
        exp_log_mul (mul_pos (mul_pos hk0 h4) h5) hx, broken_high h c2.le]

theorem broken_continuousOn (h : d.Valid) (k : ℝ) : ContinuousOn (d.broken k) (Ioi 0) := by
  have hm := h.min_pos; have hM := h.max_pos
  unfold broken
  refine ContinuousOn.mul (ContinuousOn.mul (ContinuousOn.mul continuousOn_const ?_) ?_) ?_
  · exact ContinuousOn.rpow_const (by fun_prop) fun x hx => Or.inl (lt_min hx hm).ne'
  · exact ContinuousOn.rpow_const (by fun_prop) fun x hx =>
      Or.inl (div_pos (lt_max_of_lt_left hm) hm).ne'
  · exact ContinuousOn.rpow_const (by fun_prop) fun x hx =>
      Or.inl (div_pos (lt_max_of_lt_right hM) hM).ne'

theorem integral_pow {p a b : ℝ} (h0 : 0 < a) (h : a < b) (hp : p ≠ -1) :
    ∫ x in a..b, x ^ p = (b ^ (p + 1) - a ^ (p + 1)) / (p + 1) := by
  apply integral_rpow
  right
  refine ⟨hp, ?_⟩
  rw [uIcc_of_le h.le]; intro hc; exact absurd hc.1 (not_le.2 h0)

theorem integral_broken (h : d.Valid) (k : ℝ) :
    ∫ x in d.low..d.high, d.broken k x = k / d.gamma * (1 + d.ratioMass) := by
  have hm := h.min_pos; have hM := h.max_pos; have hg := h.gamma_pos
  have hint : ∀ a b, 0 < a → a ≤ b → IntervalIntegrable (d.broken k) volume a b := by
    intro a b ha hab
    apply ContinuousOn.intervalIntegrable
    rw [uIcc_of_le hab]
    exact (broken_continuousOn h k).mono fun x hx => lt_of_lt_of_le ha hx.1
  rw [← intervalIntegral.integral_add_adjacent_intervals (hint _ d.maximum h.low_pos (h.low_lt.trans h.min_lt).le)
      (hint _ _ hM h.lt_high.le),
    ← intervalIntegral.integral_add_adjacent_intervals (hint _ d.minimum h.low_pos h.low_lt.le) (hint _ _ hm h.min_lt.le)]
  have e1 : ∫ x in d.low..d.minimum, d.broken k x = ∫ x in d.low..d.minimum, k * x ^ d.alpha_min := by
    refine intervalIntegral.integral_congr fun x hx => ?_
    rw [uIcc_of_le h.low_lt.le] at hx
    exact broken_low h hx.2
  have e2 : ∫ x in d.minimum..d.maximum, d.broken k x
      = ∫ x in d.minimum..d.maximum, k * d.minimum ^ (d.alpha_min - d.alpha) * x ^ d.alpha := by
    refine intervalIntegral.integral_congr fun x hx => ?_
    rw [uIcc_of_le h.min_lt.le] at hx
    exact broken_mid h hx.1 hx.2
  have e3 : ∫ x in d.maximum..d.high, d.broken k x = ∫ x in d.maximum..d.high,
      k * d.minimum ^ (d.alpha_min - d.alpha) * d.maximum ^ (d.alpha - d.alpha_max) * x ^ d.alpha_max := by
    refine intervalIntegral.integral_congr fun x hx => ?_
    rw [uIcc_of_le h.lt_high.le] at hx
    exact broken_high h hx.1
  rw [e1, e2, e3, intervalIntegral.integral_const_mul, intervalIntegral.integral_const_mul,
    intervalIntegral.integral_const_mul, integral_pow h.low_pos h.low_lt h.amin, integral_pow hm h.min_lt h.al,
    integral_pow hM h.lt_high h.amax]
  have e4 : (d.minimum ^ (d.alpha_min + 1) - d.low ^ (d.alpha_min + 1)) / (d.alpha_min + 1) = 1 / d.gamma := by
    rw [gamma, one_div_div]
  rw [e4]
  unfold ratioMass
  have := hg.ne'
  field_simp
  ring

end PSP
open PSP

theorem k1_pos {d : PSP} (h : d.Valid) (hgt : 1 < d.ratioMass) : d.k1 = fin (d.gamma / (d.ratioMass - 1)) := by
  rw [k1_eq', div_fin (by linarith), fin_inj, ← neg_sub, neg_div_neg_eq]

theorem nan_of_ratio {d : PSP} (h : d.Valid) (hle : d.ratioMass ≤ 1) : ∀ x, d.low ≤ x → x ≤ d.high → d.log_prob x = F.nan := by
  have hS := h.ratio_pos
  have hg := h.gamma_pos
  have hm := h.min_pos
  have h4 := Real.rpow_pos_of_pos h.min_pos (d.alpha_min - d.alpha)
  have h5 := Real.rpow_pos_of_pos h.max_pos (d.alpha - d.alpha_max)
  have key : log d.k1 = F.nan ∧ log d.k2 = F.nan ∧ log d.k3 = F.nan := by
    rcases hle.eq_or_lt with he | hlt
    · have : d.k1 = ninf := by
        rw [k1_eq', he, sub_self, div_fin_zero, infOfSign_neg (by linarith)]
      refine ⟨by rw [this]; rfl, ?_, ?_⟩
      · rw [k2, this, ninf_mul_fin, infOfSign_neg (by linarith)]; rfl
      · rw [k3, k2, this, ninf_mul_fin, infOfSign_neg (by linarith), ninf_mul_fin, infOfSign_neg (by linarith)]; rfl
    · have hk : d.k1 = fin (-d.gamma / (1 - d.ratioMass)) := by
        rw [k1_eq', div_fin (by linarith)]
      have hneg : -d.gamma / (1 - d.ratioMass) < 0 := div_neg_of_neg_of_pos (by linarith) (by linarith)
      refine ⟨by rw [hk, log_fin_neg hneg], ?_, ?_⟩
      · rw [k2, hk, mul_fin, log_fin_neg (mul_neg_of_neg_of_pos hneg h4)]
      · rw [k3, k2, hk, mul_fin, mul_fin, log_fin_neg (mul_neg_of_neg_of_pos (mul_neg_of_neg_of_pos hneg h4) h5)]
  intro x h1 h2
  simp only [log_prob, key.1, key.2.1, key.2.2, nan_add, lt_fin, gt_fin, ge_fin, le_fin]
  rcases lt_or_ge x d.minimum with c1 | c1
  · rw [if_pos c1]; simp
  · rcases le_or_gt x d.maximum with c2 | c2
    · rw [if_pos c1, if_pos c2]; simp
    · rw [if_pos c2]; simp

/-- **C27, the part that holds.** Whenever the log-density is a number (not NaN) at some point of the support, the density is finite and
positive and continuous on the whole positive axis, in particular across both break points, and it is a power law with the requested index
on each of the three pieces. -/
theorem C27_continuous_partial (d : PSP) (h : d.Valid) {x₀ : ℝ} (h1 : d.low ≤ x₀) (h2 : x₀ ≤ d.high) (hx : d.log_prob x₀ ≠ F.nan) :
    ∃ (g : ℝ → ℝ) (K₁ K₂ K₃ : ℝ), 0 < K₁ ∧ 0 < K₂ ∧ 0 < K₃ ∧ (∀ x, 0 < x → exp (d.log_prob x) = fin (g x)) ∧ ContinuousOn g (Ioi 0) ∧
      (∀ x, x ≤ d.minimum → g x = K₁ * x ^ d.alpha_min) ∧ (∀ x, d.minimum ≤ x → x ≤ d.maximum → g x = K₂ * x ^ d.alpha) ∧
      (∀ x, d.maximum ≤ x → g x = K₃ * x ^ d.alpha_max) := by
  have hgt : 1 < d.ratioMass := not_le.1 fun hle => hx (nan_of_ratio h hle x₀ h1 h2)
  have hk0 : 0 < d.gamma / (d.ratioMass - 1) := div_pos h.gamma_pos (by linarith)
  have h4 := Real.rpow_pos_of_pos h.min_pos (d.alpha_min - d.alpha)
  have h5 := Real.rpow_pos_of_pos h.max_pos (d.alpha - d.alpha_max)
  exact ⟨d.broken _, _, _, _, hk0, mul_pos hk0 h4, mul_pos (mul_pos hk0 h4) h5, fun _ hx => pdf_eq h (k1_pos h hgt) hk0 hx,
    broken_continuousOn h _, fun x hx => broken_low h hx, fun x h1 h2 => broken_mid h h1 h2, fun x hx => broken_high h hx⟩

/-- **C27 fails** for every valid parameter set: either the log-density is NaN on the whole support, or it is a
density whose total mass exceeds 1 (the amplitude formula has the sign of two terms wrong). -/
theorem C27_never_normalised_fails (d : PSP) (h : d.Valid) :
    (∀ x, d.low ≤ x → x ≤ d.high → d.log_prob x = F.nan) ∨
    1 < ∫ x in d.low..d.high, (exp (d.log_prob x)).toReal := by
  have hS := h.ratio_pos
  have hg := h.gamma_pos
  have hm := h.min_pos
  have h4 := Real.rpow_pos_of_pos h.min_pos (d.alpha_min - d.alpha)
  have h5 := Real.rpow_pos_of_pos h.max_pos (d.alpha - d.alpha_max)
  rcases le_or_gt d.ratioMass 1 with hle | hgt
  · exact .inl (nan_of_ratio h hle)
  · right
    have hk := k1_pos h hgt
    have hk0 : 0 < d.gamma / (d.ratioMass - 1) := div_pos hg (by linarith)
    have hlh : d.low ≤ d.high := (h.low_lt.trans (h.min_lt.trans h.lt_high)).le
    rw [toReal_congr_integral hlh (fun x h1 _ => pdf_eq h hk hk0 (h.low_pos.trans_le h1)), integral_broken h]
    have : d.gamma / (d.ratioMass - 1) / d.gamma = 1 / (d.ratioMass - 1) := by field_simp
    rw [this, div_mul_eq_mul_div, one_mul, lt_div_iff₀ (by linarith)]
    linarith

/-- a parameter set satisfying the hypotheses -/
example : (PSP.mk (-2) 5 50 8 3 2 100).Valid :=
  { low_pos := by norm_num, low_lt := by norm_num, min_lt := by norm_num, lt_high := by norm_num,
    amin := by norm_num, al := by norm_num, amax := by norm_num [PSP.alpha_max] }

/-- and one whose log-density is a number, as `C27_continuous_partial` assumes -/
example : ∃ (d : PSP) (x : ℝ), d.Valid ∧ d.low ≤ x ∧ x ≤ d.high ∧ d.log_prob x ≠ F.nan := by
  have hv : (PSP.mk 0 2 10 2 1 1 20).Valid := by
    refine ⟨?_, ?_, ?_, ?_, ?_, ?_, ?_⟩ <;> norm_num [PSP.alpha_max]
  have hS : (PSP.mk 0 2 10 2 1 1 20).ratioMass = 52 / 3 := by
    simp only [ratioMass, gamma, alpha_max]
    norm_num
  have hgt : 1 < (PSP.mk 0 2 10 2 1 1 20).ratioMass := by rw [hS]; norm_num
  refine ⟨⟨0, 2, 10, 2, 1, 1, 20⟩, 5, hv, by norm_num, by norm_num, fun hn => ?_⟩
  have := pdf_eq hv (k1_pos hv hgt) (div_pos hv.gamma_pos (by linarith)) (x := 5) (by norm_num)
  rw [hn] at this
  cases this

end GW
end
