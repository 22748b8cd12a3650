import Verif.Model.NumpyroSampling
import Verif.Props.NumpyroContinuous
import Verif.Props.NumpyroGrid

/-!
# Random draws follow the distribution (C102)
-/

open MeasureTheory Set
noncomputable section
open Classical
namespace GW
open F

/-! ## Specification -/

/-- The chance that a draw computed from one uniform number of `[0, 1)` lies in `s`. -/
def chance (draw : ℝ → F) (s : F → Prop) : ENNReal := volume {u : ℝ | u ∈ Ico 0 1 ∧ s (draw u)}

/-- at most `x`, and a number -/
def atMost (x : ℝ) : F → Prop
  | fin y => y ≤ x
  | _ => False

/-- Entry `i` of the array is the draw computed from the `i`-th uniform number (so entries are independent and equally distributed), and the
array has the shape asked for. -/
structure DrawsFrom (sample : (ℕ → ℝ) → List ℕ → Draws) (draw : ℝ → F) : Prop where
  shape : ∀ u s, (sample u s).shape = s
  entry : ∀ u s i, (sample u s).get i = draw (u i)

/-- The draw follows the cumulative distribution `cdf` on `[a, b]`: it always lies in `[a, b]`, and for every `x` there it is at most `x` with
probability `cdf x`. -/
structure FollowsCdf (draw : ℝ → F) (cdf : ℝ → F) (a b : ℝ) : Prop where
  range : ∀ u ∈ Ico (0 : ℝ) 1, interval a b (draw u)
  law : ∀ x, a ≤ x → x ≤ b → ∃ p : ℝ, cdf x = fin p ∧ chance draw (atMost x) = ENNReal.ofReal p

/-! ## Inversion sampling -/

/-- a monotone cdf with an inverse gives draws that follow it -/
theorem follows_of_inverse {cdf icdf : ℝ → F} {a b : ℝ} (h : InverseOn cdf icdf a b) {s : Set ℝ} (hs : Icc a b ⊆ s) (hc : IsCdfOn cdf s) :
    FollowsCdf icdf cdf a b := by
  obtain ⟨g, hg, hm⟩ := hc
  refine ⟨fun u hu => ?_, fun x hxa hxb => ?_⟩
  · obtain ⟨y, h1, h2, h3, -⟩ := h.quantile u hu.1 hu.2.le
    rw [h3]
    exact ⟨h1, h2⟩
  · obtain ⟨q, hq0, hq1, hcx, hiq⟩ := h.prob x hxa hxb
    refine ⟨q, hcx, ?_⟩
    have hgx : g x = q := by
      have := (hg x (hs ⟨hxa, hxb⟩)).1
      rw [hcx] at this
      exact (F.fin.inj this).symm
    have hset : {u : ℝ | u ∈ Ico 0 1 ∧ atMost x (icdf u)} = Ico 0 1 ∩ Iic q := by
      ext u
      simp only [mem_setOf_eq, mem_inter_iff, mem_Iic]
      refine and_congr_right fun hu => ?_
      obtain ⟨y, h1, h2, h3, h4⟩ := h.quantile u hu.1 hu.2.le
      have hgy : g y = u := by
        have := (hg y (hs ⟨h1, h2⟩)).1
        rw [h4] at this
        exact (F.fin.inj this).symm
      rw [h3]
      simp only [atMost]
      constructor
      · intro hyx
        rw [← hgy, ← hgx]
        exact hm (hs ⟨h1, h2⟩) (hs ⟨hxa, hxb⟩) hyx
      · intro huq
        by_contra hlt
        have hle : g x ≤ g y := hm (hs ⟨hxa, hxb⟩) (hs ⟨h1, h2⟩) (not_le.mp hlt).le
        have : u = q := le_antisymm huq (by rw [← hgx, ← hgy]; exact hle)
        rw [this, hiq] at h3
        exact hlt (F.fin.inj h3).ge
    unfold chance
    rw [hset]
    rcases hq1.eq_or_lt with h1 | h1
    · have : Ico (0 : ℝ) 1 ∩ Iic q = Ico 0 1 := inter_eq_left.mpr fun u hu => by rw [h1]; exact hu.2.le
      rw [this, Real.volume_Ico, h1]
      norm_num
    · have : Ico (0 : ℝ) 1 ∩ Iic q = Icc 0 q := by
        ext u
        simp only [mem_inter_iff, mem_Ico, mem_Iic, mem_Icc]
        exact ⟨fun h => ⟨h.1.1, h.2⟩, fun h => ⟨⟨h.1, h.2.trans_lt h1⟩, h.2⟩⟩
      rw [this, Real.volume_Icc, sub_zero]

/-! ## C102 -/

/-- **C102 (Sine).**  Draws have the requested shape, lie in the support and follow the cdf, for every sub-range of `[0, π]`. -/
theorem C102_sine (a b : ℝ) (h0 : 0 ≤ a) (h : a < b) (hb : b ≤ Real.pi) :
    DrawsFrom (sine_sample a b) (sine_icdf a b) ∧ FollowsCdf (sine_icdf a b) (sine_cdf a b) a b ∧
      ∀ u ∈ Ico (0 : ℝ) 1, sine_support a b (sine_icdf a b u) := by
  have hf := follows_of_inverse (C24_sine_inverse a b h0 h hb) (subset_univ _) (C24_sine_cdf a b h0 h hb).2.2
  exact ⟨⟨fun u s => by simp [sine_sample], fun u s i => rfl⟩, hf, hf.range⟩

/-- **C102 (Cosine).** -/
theorem C102_cosine (a b : ℝ) (h0 : -(Real.pi / 2) ≤ a) (h : a < b) (hb : b ≤ Real.pi / 2) :
    DrawsFrom (cosine_sample a b) (cosine_icdf a b) ∧ FollowsCdf (cosine_icdf a b) (cosine_cdf a b) a b ∧
      ∀ u ∈ Ico (0 : ℝ) 1, cosine_support a b (cosine_icdf a b u) := by
  have hf := follows_of_inverse (C24_cosine_inverse a b h0 h hb) (subset_univ _) (C24_cosine_cdf a b h0 h hb).2.2
  exact ⟨⟨fun u s => by simp [cosine_sample], fun u s i => rfl⟩, hf, hf.range⟩

/-- **C102 (Powerlaw), partial** (missing: the declared support, see `C102_powerlaw_support_fails`).  Draws follow the cdf, for every slope
and every positive range; they lie in the support if the caller passes a support containing the range. -/
theorem C102_powerlaw_partial (α a b : ℝ) (h0 : 0 < a) (h : a < b) :
    DrawsFrom (pl_sample α a b) (fun u => pl_icdf (fin α) (fin a) (fin b) (fin u)) ∧
    FollowsCdf (fun u => pl_icdf (fin α) (fin a) (fin b) (fin u)) (fun x => pl_cdf (fin α) (fin a) (fin b) (fin x)) a b ∧
    ∀ low high, low ≤ a → b ≤ high → ∀ u ∈ Ico (0 : ℝ) 1, pl_support low high (pl_icdf (fin α) (fin a) (fin b) (fin u)) := by
  have hf := follows_of_inverse (C25_powerlaw_inverse α a b h0 h) (s := Ioi 0) (fun x hx => h0.trans_le hx.1)
    (C25_powerlaw_cdf_partial α a b h0 h).1
  refine ⟨⟨fun u s => by simp [pl_sample], fun u s i => rfl⟩, hf, fun low high hl hh u hu => ?_⟩
  have := hf.range u hu
  revert this
  cases pl_icdf (fin α) (fin a) (fin b) (fin u) <;> simp only [pl_support, interval, imp_self]
  exact fun h => ⟨hl.trans h.1, h.2.trans hh⟩

/-- **C102 is false of the power law's declared support:** with the default support and a range above 1 (a mass range, say) no draw lies in
the support, except the one for `u = 0` when the range starts at exactly 1. -/
theorem C102_powerlaw_support_fails (α a b : ℝ) (h0 : 1 ≤ a) (h : a < b) (u : ℝ) (hu : u ∈ Ioo (0 : ℝ) 1) :
    ¬ pl_support (value := pl_icdf (fin α) (fin a) (fin b) (fin u)) := by
  have ha : 0 < a := by linarith
  obtain ⟨x, h1, h2, h3, h4⟩ := (C25_powerlaw_inverse α a b ha h).quantile u hu.1.le hu.2.le
  rw [h3]
  simp only [pl_support, interval, not_and, not_le]
  intro _
  rcases h1.eq_or_lt with rfl | h1
  · have : pl_cdf (fin α) (fin a) (fin b) (fin a) = fin 0 := (C25_powerlaw_cdf_partial α a b ha h).2.1 a ha le_rfl
    rw [this] at h4
    exact absurd (F.fin.inj h4) hu.1.ne
  · linarith

/-- the grid version of `InverseOn` -/
theorem grid_inverse {cdf icdf : ℝ → ℝ} {a b : ℝ} (hc0 : cdf a = 0) (hc1 : cdf b = 1) (hm : Monotone cdf)
    (hr : ∀ q, 0 ≤ q → q ≤ 1 → a ≤ icdf q ∧ icdf q ≤ b) (h1 : ∀ x, a ≤ x → x ≤ b → icdf (cdf x) = x) (h2 : ∀ q, 0 ≤ q → q ≤ 1 → cdf (icdf q) = q) :
    InverseOn (fun x => fin (cdf x)) (fun q => fin (icdf q)) a b ∧ IsCdfOn (fun x => fin (cdf x)) (Icc a b) := by
  have h01 : ∀ x, a ≤ x → x ≤ b → 0 ≤ cdf x ∧ cdf x ≤ 1 := fun x ha hb => ⟨hc0 ▸ hm ha, hc1 ▸ hm hb⟩
  exact ⟨⟨fun q h0 h => ⟨icdf q, (hr q h0 h).1, (hr q h0 h).2, rfl, by rw [h2 q h0 h]⟩,
    fun x ha hb => ⟨cdf x, (h01 x ha hb).1, (h01 x ha hb).2, rfl, by rw [h1 x ha hb]⟩⟩,
    cdf, fun x hx => ⟨rfl, h01 x hx.1 hx.2⟩, hm.monotoneOn _⟩

/-- **C102 (PowerlawRedshift), partial** (missing: `maximum`, see `C102_redshift_maximum_fails`; unevenly spaced grids, where the cdf itself is
wrong, C28).  On an equally spaced grid draws follow the cdf, and they lie in the declared support if it contains the grid. -/
theorem C102_redshift_partial (d : PLRedshift) (h : d.OK) (s : ℝ) (hs : 0 < s) (hu : ∀ j, j + 1 < d.n → d.zs (j + 1) - d.zs j = s) :
    DrawsFrom (plz_sample d) (fun u => fin (d.icdf u)) ∧
    FollowsCdf (fun u => fin (d.icdf u)) (fun z => fin (d.cdf z)) (d.zs 0) (d.zs (d.n - 1)) ∧
    (∀ low high, low ≤ d.zs 0 → d.zs (d.n - 1) ≤ high → ∀ u ∈ Ico (0 : ℝ) 1, plz_support low high (fin (d.icdf u))) ∧
    (0 ≤ d.zs 0 → d.zs (d.n - 1) ≤ 1000 → ∀ u ∈ Ico (0 : ℝ) 1, plz_support (value := fin (d.icdf u))) := by
  obtain ⟨h0, h1, hm, hi1, hi2⟩ := C28_redshift_cdf_partial d h s hs hu
  have hstrict := gridCdf_strict h.pdfs_nonneg h.pdfs_pos hs hu h.trapz_pdfs
  have hr : ∀ q, 0 ≤ q → q ≤ 1 → d.zs 0 ≤ d.icdf q ∧ d.icdf q ≤ d.zs (d.n - 1) := fun q _ _ =>
    interp_range h.two hstrict (fun i hi => (h.inc i hi).le) q
  obtain ⟨g1, g2⟩ := grid_inverse h0 h1 hm hr hi1 hi2
  have hf := follows_of_inverse g1 Subset.rfl g2
  exact ⟨⟨fun u s => by simp [plz_sample], fun u s i => rfl⟩, hf, fun low high hl hh u hu => ⟨hl.trans (hf.range u hu).1, (hf.range u hu).2.trans hh⟩,
    fun hl hh u hu => ⟨hl.trans (hf.range u hu).1, (hf.range u hu).2.trans hh⟩⟩

/-- **C102 is false of `PowerlawRedshift`'s `maximum`:** when the grid goes beyond it, draws beyond it have positive probability, although
the density there is (numerically) zero. -/
theorem C102_redshift_maximum_fails (d : PLRedshift) (h : d.OK) (s : ℝ) (hs : 0 < s) (hu : ∀ j, j + 1 < d.n → d.zs (j + 1) - d.zs j = s)
    (h1 : d.zs 0 ≤ d.maximum) (h2 : d.maximum < d.zs (d.n - 1)) :
    0 < chance (fun u => fin (d.icdf u)) (fun z => ¬ atMost d.maximum z) ∧ ∀ z, d.maximum < z → d.log_prob z = fin (-BIG) := by
  refine ⟨?_, (C29_redshift_density d h).2.2⟩
  obtain ⟨h0, hl, hm, hi1, hi2⟩ := C28_redshift_cdf_partial d h s hs hu
  have hc1 : d.cdf d.maximum < 1 := by
    refine lt_of_le_of_ne (hl ▸ hm h2.le) fun e => ?_
    have e1 := hi1 _ h1 h2.le
    have e2 := hi1 _ ((h1.trans h2.le)) le_rfl
    rw [e, ← hl, e2] at e1
    exact h2.ne' e1
  have hc0 : 0 ≤ d.cdf d.maximum := h0 ▸ hm h1
  have hsub : Ioo (d.cdf d.maximum) 1 ⊆ {u : ℝ | u ∈ Ico 0 1 ∧ ¬ atMost d.maximum (fin (d.icdf u))} := by
    intro u hu
    refine ⟨⟨hc0.trans hu.1.le, hu.2⟩, ?_⟩
    simp only [atMost, not_le]
    by_contra hle
    have := hm (not_lt.mp hle)
    rw [hi2 u (hc0.trans hu.1.le) hu.2.le] at this
    exact absurd hu.1 (not_lt.mpr this)
  refine lt_of_lt_of_le ?_ (measure_mono hsub)
  rw [Real.volume_Ioo]
  simpa using hc1

/-- **C102 (BSplineDistribution), partial** (missing: the shape, see `C102_bspline_shape_fails`).  On an equally spaced grid with a finite design
matrix every entry of a draw follows the cdf and lies inside the grid. -/
theorem C102_bspline_partial (d : BSplineDist) (B : ℕ → ℕ → ℝ) (h : d.OK B) (s : ℝ) (hs : 0 < s)
    (hu : ∀ j, j + 1 < d.n → d.grid (j + 1) - d.grid j = s) :
    (∀ u sh i, (bspline_sample d u sh).get i = fin (d.icdf (u i))) ∧
    FollowsCdf (fun u => fin (d.icdf u)) (fun x => fin (d.cdf x)) (d.grid 0) (d.grid (d.n - 1)) := by
  obtain ⟨h0, h1, hm, hi1, hi2⟩ := C28_bspline_cdf_partial d B h s hs hu
  have hpos : ∀ i < d.n, 0 < (d.pdfs i).toReal := fun i hi => by
    rw [h.pdfs_eq hi, toReal_fin]; exact div_pos (Real.exp_pos _) h.norm_pos
  have htot : trapz d.n (fun i => (d.pdfs i).toReal) d.grid = 1 := by
    rw [trapz_congr (y' := fun i => Real.exp (d.lin B i) / trapz d.n (fun i => Real.exp (d.lin B i)) d.grid)
      (x' := d.grid) (fun i hi => by rw [h.pdfs_eq hi, toReal_fin]) (fun _ _ => rfl), trapz_div,
      div_self h.norm_pos.ne']
  have hstrict : IncOn d.n d.cdfgrid := gridCdf_strict (fun i hi => (hpos i hi).le) (fun i _ hi => hpos i hi) hs hu htot
  have hr : ∀ q, 0 ≤ q → q ≤ 1 → d.grid 0 ≤ d.icdf q ∧ d.icdf q ≤ d.grid (d.n - 1) := fun q _ _ =>
    interp_range h.two hstrict (fun i hi => (h.inc i hi).le) q
  obtain ⟨g1, g2⟩ := grid_inverse h0 h1 hm hr hi1 hi2
  exact ⟨fun u s i => rfl, follows_of_inverse g1 Subset.rfl g2⟩

/-- **C102 is false of the shape of `BSplineDistribution` draws:** asking for one number returns one per spline coefficient. -/
theorem C102_bspline_shape_fails (d : BSplineDist) (u : ℕ → ℝ) (sh : List ℕ) : (bspline_sample d u sh).shape = sh ++ [d.m] ∧ (bspline_sample d u sh).shape ≠ sh := by
  refine ⟨rfl, fun h => ?_⟩
  have := congrArg List.length h
  simp [bspline_sample] at this

/-- **C102 is false of `PowerlawSmoothedPowerlaw`:** every draw is exactly 1, whatever the parameters; for a mass range above 1 it is outside
the declared support. -/
theorem C102_smoothed_powerlaw_fails (d : PSP) (u : ℕ → ℝ) (sh : List ℕ) (i : ℕ) :
    (psp_sample d u sh).get i = fin 1 ∧ (1 < d.low → ¬ psp_support d ((psp_sample d u sh).get i)) := by
  refine ⟨rfl, fun h => ?_⟩
  simp only [psp_sample, psp_support, one_def, interval, not_and, not_le]
  intro h'
  linarith

/-- **C102 is false of `PSplineCoeficientPrior`:** its own draw is rejected by its own density, for every number of coefficients. -/
theorem C102_pspline_fails (N : ℕ) (inv_var : ℝ) (deg : ℕ) (u : ℕ → ℝ) :
    pspline_log_prob_draws N inv_var deg (pspline_sample N inv_var u []) = .error .assertionError := by
  unfold pspline_log_prob_draws
  rw [if_neg (by simp [pspline_sample])]

/-! ### Draws and densities -/

theorem chance_eq {draw cdf : ℝ → F} {a b : ℝ} (h : FollowsCdf draw cdf a b) {x p : ℝ} (ha : a ≤ x) (hb : x ≤ b) (hp : cdf x = fin p) :
    chance draw (atMost x) = ENNReal.ofReal p := by
  obtain ⟨q, h1, h2⟩ := h.law x ha hb
  rw [h2]
  rw [hp] at h1
  rw [F.fin.inj h1]

/-- **C102 (Sine), partial** (missing: sub-ranges, where `log_prob` is not normalised, C24).  With the default range the chance of a draw at
most `x` is the integral of the density `exp(log_prob)` up to `x`. -/
theorem C102_sine_density_partial (x : ℝ) (h1 : 0 ≤ x) (h2 : x ≤ Real.pi) :
    chance (sine_icdf 0 Real.pi) (atMost x) = ENNReal.ofReal (∫ t in (0 : ℝ)..x, (exp (sine_log_prob 0 Real.pi t)).toReal) := by
  rw [chance_eq (C102_sine 0 Real.pi le_rfl Real.pi_pos le_rfl).2.1 h1 h2 (sine_cdf_in le_rfl Real.pi_pos le_rfl h1 h2)]
  rw [toReal_congr_integral h1 (fun t ht1 ht2 => sine_pdf_eq ht1 (ht2.trans h2)), integral_sine]
  norm_num

/-- **C102 (Cosine), partial.** -/
theorem C102_cosine_density_partial (x : ℝ) (h1 : -(Real.pi / 2) ≤ x) (h2 : x ≤ Real.pi / 2) :
    chance (cosine_icdf (-(Real.pi / 2)) (Real.pi / 2)) (atMost x) =
      ENNReal.ofReal (∫ t in (-(Real.pi / 2))..x, (exp (cosine_log_prob (-(Real.pi / 2)) (Real.pi / 2) t)).toReal) := by
  have hp : -(Real.pi / 2) < Real.pi / 2 := by linarith [Real.pi_pos]
  rw [chance_eq (C102_cosine _ _ le_rfl hp le_rfl).2.1 h1 h2 (cosine_cdf_in le_rfl hp le_rfl h1 h2)]
  rw [toReal_congr_integral h1 (fun t ht1 ht2 => cosine_pdf_eq ht1 (ht2.trans h2)), integral_cosine]
  norm_num

/-- **C102 (Powerlaw), partial** (missing: slope -1, where `log_prob` is not normalised, C26).  The chance of a draw at most `x` is the integral of
the density `exp(log_prob)` up to `x`. -/
theorem C102_powerlaw_density_partial (α a b x : ℝ) (hα : α ≠ -1) (h0 : 0 < a) (h : a < b) (h1 : a ≤ x) (h2 : x ≤ b) :
    chance (fun u => pl_icdf (fin α) (fin a) (fin b) (fin u)) (atMost x) =
      ENNReal.ofReal (∫ t in a..x, (exp (pl_log_prob (fin α) (fin a) (fin b) (fin t))).toReal) := by
  rw [chance_eq (C102_powerlaw_partial α a b h0 h).2.1 h1 h2 (pl_cdf_in h0 h h1 h2).1]
  rw [toReal_congr_integral h1 (fun t ht1 ht2 => pl_pdf_eq hα h0 h ht1 (ht2.trans h2)), intervalIntegral.integral_mul_const,
    integral_rpow (Or.inr ⟨hα, by rw [uIcc_of_le h1]; exact fun hc => absurd hc.1 (not_le.2 h0)⟩)]
  have hne := (rpow_sub_sign h0 h hα).2
  have h3 : 1 + α ≠ 0 := fun hc => hα (by linarith)
  unfold plG plNorm
  rw [if_neg hα, if_neg hα, add_comm α 1]
  congr 1
  field_simp

/-- A mass range: every draw with `u > 0` of a power law between 5 and 80 is outside the default support; draws of `Sine` on `[1, 2]` follow the cdf. -/
example : ¬ pl_support (value := pl_icdf (fin (-2)) (fin 5) (fin 80) (fin (1 / 2))) ∧
    FollowsCdf (sine_icdf 1 2) (sine_cdf 1 2) 1 2 :=
  ⟨C102_powerlaw_support_fails (-2) 5 80 (by norm_num) (by norm_num) _ ⟨by norm_num, by norm_num⟩,
    (C102_sine 1 2 (by norm_num) (by norm_num) Real.two_le_pi).2.1⟩

/-- The grid of `exampleRedshift` (0, 1, 2) with `maximum` cut to 1 meets the hypotheses of `C102_redshift_maximum_fails`. -/
example : ∃ d : PLRedshift, d.OK ∧ (∀ j, j + 1 < d.n → d.zs (j + 1) - d.zs j = 1) ∧ d.zs 0 ≤ d.maximum ∧ d.maximum < d.zs (d.n - 1) := by
  refine ⟨{ exampleRedshift with maximum := 1 }, ?_, ?_, ?_, ?_⟩
  · exact ⟨exampleRedshift_ok.two, exampleRedshift_ok.inc, exampleRedshift_ok.zpos, exampleRedshift_ok.nonneg, exampleRedshift_ok.pos⟩
  · intro j _; simp [exampleRedshift]
  · simp [exampleRedshift]
  · norm_num [exampleRedshift]

end GW
