import Verif.Model.RoundingPerturbed
import Verif.Props.RoundingLogSplineExact
import Verif.Props.RoundingParametricExact
import Verif.Lemmas.Powerlaw

/-! # Property C158: the power law with a spline in mass, in rounded arithmetic -/

open Finset
noncomputable section
open Classical
namespace GW
open F

variable {f : Arith} {κ : ℝ}

/-- power law times the exponential of the spline: `α` is the slope as passed, the power is `m ^ (-α)` -/
def perturbedMass (s : Spline) (c : ℕ → ℝ) (α l h m : ℝ) : ℝ := plDensity m (-α) l h * Real.exp (s.logExpo c m)

/-- its exact integral over the grid -/
def perturbedMassNorm (s : Spline) (c : ℕ → ℝ) (α l h : ℝ) (n : ℕ) (ms : ℕ → ℝ) : ℝ := trapz (n + 1) (fun j => perturbedMass s c α l h (ms j)) ms

/-- its error -/
def perturbedErr (s : Spline) (D : ℕ) (A W Λ α l h κ : ℝ) : ℝ := κ * plErr (1 + -α) (Real.log (h / l)) + (logSplineErr s D A W Λ κ + (6 + A) * κ)

theorem plErr_nonneg {s Λ : ℝ} (h : 0 ≤ Λ) : 0 ≤ plErr s Λ := by unfold plErr; positivity

/-- power law and exponential, before normalisation -/
theorem C158_weight (C : f.Contract κ) {pw : F → F → F} (P : PowContract pw κ) {s : Spline} {k D : ℕ} {o : RTree s.N} {c : ℕ → ℝ} {A W Λ : ℝ} (h : s.DensityOK k o D c A κ) (hs : s.Steady W)
    {m α mmin mmax : ℝ} (hm : s.LogPoint f Λ m) (r : PLRange (-α) mmin mmax) (h1 : mmin ≤ m) (h2 : m ≤ mmax) (hA0 : 0 ≤ A) (hA : A ≤ 30)
    (hsz : Rg 44 (perturbedMass s c α mmin mmax m)) (hε : perturbedErr s D A W Λ α mmin mmax κ ≤ 1) :
    ∃ p, perturbedMassR f pw s o (fun i => fin (c i)) m (fin α) (fin mmin) (fin mmax) = fin p ∧ Rel (perturbedErr s D A W Λ α mmin mmax κ) (perturbedMass s c α mmin mmax m) p := by
  have hκ := C.pos
  have hΛ : 0 ≤ Λ := (abs_nonneg _).trans hm.lam
  obtain ⟨hE0, hL0⟩ := logSplineErr_nonneg (D := D) hκ hs hA0 hΛ
  have hAκ : 0 ≤ A * κ := by positivity
  have hlE : logSplineErr s D A W Λ κ = (10 * s.order + 5 + 2 * D) * κ * A + 2 * A / W * (1 + Λ) * κ := rfl
  have hL0' : 0 ≤ logSplineErr s D A W Λ κ := by rw [hlE]; linarith
  have hp0 : 0 ≤ κ * plErr (1 + -α) (Real.log (mmax / mmin)) := mul_nonneg hκ.le (plErr_nonneg (le_trans (by positivity) r.gap))
  unfold perturbedErr at hε ⊢
  obtain ⟨p, ep, wp⟩ := C.powerlaw P r h1 h2 (by linarith)
  have pp : 0 < plDensity m (-α) mmin mmax := lt_of_lt_of_le (by positivity) (r.density h1 h2).2.1
  obtain ⟨e, ee, he, hb⟩ := C149_exponent C h hs hm hA0 (by linarith) (by rw [hlE] at hε; linarith)
  obtain ⟨y, ey, wy⟩ := C.exp_norm e hb
  have re := (Rel.of_within (Real.exp_pos _) (Within.of_abs_log he)).trans (Rel.of_within (Real.exp_pos _) wy)
  obtain ⟨q, eq, rq⟩ := C.rel_round ((Rel.of_within pp wp).mul re) (by linarith) (by refine le_trans ?_ hsz.1; norm_num) (hsz.2.trans (by norm_num))
  refine ⟨q, ?_, rq.mono (by linarith)⟩
  unfold perturbedMassR
  rw [neg_fin, ep, ee, ey, mul_fin, eq]

/-- what the grid of masses has to satisfy: points in the range of the spline and between the cut-offs, weights of ordinary size, steps of ordinary length -/
structure MassGrid (f : Arith) (s : Spline) (c : ℕ → ℝ) (Λ α mmin mmax : ℝ) {n : ℕ} (og : RTree n) (D' : ℕ) (ms : ℕ → ℝ) : Prop where
  covers : og.Covers
  depth : og.depth ≤ D'
  points : n ≤ 2 ^ 12
  inside : ∀ j ≤ n, s.LogPoint f Λ (ms j)
  cut : ∀ j ≤ n, mmin ≤ ms j ∧ ms j ≤ mmax
  size : ∀ j ≤ n, Rg 44 (perturbedMass s c α mmin mmax (ms j))
  steps : ∀ j < n, (2⁻¹:ℝ) ^ 18 ≤ ms (j + 1) - ms j ∧ ms (j + 1) - ms j ≤ 2 ^ 18

/-- **C158.** The density of the primary mass in rounded arithmetic. -/
theorem C158_primary (C : f.Contract κ) {pw : F → F → F} (P : PowContract pw κ) {s : Spline} {k D : ℕ} {o : RTree s.N} {c : ℕ → ℝ} {A W Λ : ℝ} (h : s.DensityOK k o D c A κ) (hs : s.Steady W)
    {m1 α mmin mmax : ℝ} {n D' : ℕ} {og : RTree n} {ms : ℕ → ℝ} (g : MassGrid f s c Λ α mmin mmax og D' ms)
    (hm : s.LogPoint f Λ m1) (r : PLRange (-α) mmin mmax) (h1 : mmin ≤ m1) (h2 : m1 ≤ mmax) (hsz : Rg 44 (perturbedMass s c α mmin mmax m1)) (hA0 : 0 ≤ A) (hA : A ≤ 30)
    (hε : 2 * perturbedErr s D A W Λ α mmin mmax κ + (10 + 2 * D') * κ ≤ 1) :
    ∃ p, perturbedMassPdfR f pw s o (fun i => fin (c i)) og ms m1 (fin α) (fin mmin) (fin mmax) = fin p ∧
      Rel (2 * perturbedErr s D A W Λ α mmin mmax κ + (10 + 2 * D') * κ) (perturbedMass s c α mmin mmax m1 / perturbedMassNorm s c α mmin mmax n ms) p ∧
      (2⁻¹:ℝ) ^ 63 ≤ perturbedMassNorm s c α mmin mmax n ms ∧ perturbedMassNorm s c α mmin mmax n ms ≤ 2 ^ 75 := by
  have hκ := C.pos
  have hD' : (0:ℝ) ≤ D' * κ := mul_nonneg (Nat.cast_nonneg _) hκ.le
  have hΛ : 0 ≤ Λ := (abs_nonneg _).trans hm.lam
  obtain ⟨hE0, hL0⟩ := logSplineErr_nonneg (D := D) hκ hs hA0 hΛ
  have he0 : 0 ≤ perturbedErr s D A W Λ α mmin mmax κ := by
    have hp0 : 0 ≤ κ * plErr (1 + -α) (Real.log (mmax / mmin)) := mul_nonneg hκ.le (plErr_nonneg (le_trans (by positivity) r.gap))
    have : 0 ≤ (6 + A) * κ := by positivity
    unfold perturbedErr logSplineErr
    linarith
  obtain ⟨a, ea, ra⟩ := C158_weight C P h hs hm r h1 h2 hA0 hA hsz (by linarith)
  obtain ⟨T, eT, rT, t0, t1⟩ := C.trapz_rel og g.covers g.depth g.points he0 (y := fun j => perturbedMassR f pw s o (fun i => fin (c i)) (ms j) (fin α) (fin mmin) (fin mmax))
    (Y := fun j => perturbedMass s c α mmin mmax (ms j)) (grid := ms)
    (fun j hj => C158_weight C P h hs (g.inside j hj) r (g.cut j hj).1 (g.cut j hj).2 hA0 hA (g.size j hj) (by linarith)) (fun j hj => ⟨(g.size j hj).1, (g.size j hj).2⟩) g.steps (by linarith)
  have tp : 0 < trapz (n + 1) (fun j => perturbedMass s c α mmin mmax (ms j)) ms := lt_of_lt_of_le (by positivity) t0
  obtain ⟨p, ep, rp⟩ := C.rel_round (ra.div rT) (by linarith) (by
      rw [le_div_iff₀ tp]
      exact le_trans (mul_le_mul_of_nonneg_left t1 (by positivity)) (le_trans (by norm_num) hsz.1)) (by
      rw [div_le_iff₀ tp]
      exact hsz.2.trans (le_trans (by norm_num) (mul_le_mul_of_nonneg_left t0 (by positivity))))
  refine ⟨p, ?_, rp.mono (by linarith), t0, t1⟩
  unfold perturbedMassPdfR perturbedMassNormR
  rw [ea, eT, div_fin (rT.pos tp).ne']
  exact ep

/-- **C158.** The joint density of primary mass and mass ratio in rounded arithmetic. -/
theorem C158_masses (C : f.Contract κ) {pw : F → F → F} (P : PowContract pw κ) {s : Spline} {k D : ℕ} {o : RTree s.N} {c : ℕ → ℝ} {A W Λ : ℝ} (h : s.DensityOK k o D c A κ) (hs : s.Steady W)
    {m1 q α β mmin mmax m2min : ℝ} {n D' : ℕ} {og : RTree n} {ms : ℕ → ℝ} (g : MassGrid f s c Λ α mmin mmax og D' ms)
    (hm : s.LogPoint f Λ m1) (r : PLRange (-α) mmin mmax) (h1 : mmin ≤ m1) (h2 : m1 ≤ mmax) (hsz : Rg 44 (perturbedMass s c α mmin mmax m1)) (hA0 : 0 ≤ A) (hA : A ≤ 30)
    (rq : RatioRange κ β (m2min / m1) q)
    (hε : 2 * perturbedErr s D A W Λ α mmin mmax κ + (12 + 2 * D') * κ + κ * ratioErr (1 + β) (Real.log (1 / (m2min / m1))) ≤ 1 / 2)
    (hs2 : Rg 122 (perturbedMass s c α mmin mmax m1 / perturbedMassNorm s c α mmin mmax n ms * plDensity q β (m2min / m1) 1)) :
    ∃ p, perturbedMassRatioR f pw s o (fun i => fin (c i)) og ms (fin m2min) m1 q (fin α) (fin β) (fin mmin) (fin mmax) = fin p ∧
      Within (2 * perturbedErr s D A W Λ α mmin mmax κ + (12 + 2 * D') * κ + κ * ratioErr (1 + β) (Real.log (1 / (m2min / m1))))
        (perturbedMass s c α mmin mmax m1 / perturbedMassNorm s c α mmin mmax n ms * plDensity q β (m2min / m1) 1) p := by
  have hκ := C.pos
  have hD' : (0:ℝ) ≤ D' * κ := mul_nonneg (Nat.cast_nonneg _) hκ.le
  have hm0 : 0 < m1 := flLo_pos.trans_le hm.low
  have hΛ : 0 ≤ Λ := (abs_nonneg _).trans hm.lam
  obtain ⟨hE0, hL0⟩ := logSplineErr_nonneg (D := D) hκ hs hA0 hΛ
  have he0 : 0 ≤ perturbedErr s D A W Λ α mmin mmax κ := by
    have hp0 : 0 ≤ κ * plErr (1 + -α) (Real.log (mmax / mmin)) := mul_nonneg hκ.le (plErr_nonneg (le_trans (by positivity) r.gap))
    have : 0 ≤ (6 + A) * κ := by positivity
    unfold perturbedErr logSplineErr
    linarith
  have hg : 0 < Real.log (1 / (m2min / m1)) := lt_of_lt_of_le (by positivity) rq.gap
  have hr0 : 0 ≤ κ * ratioErr (1 + β) (Real.log (1 / (m2min / m1))) := by
    unfold ratioErr plErr; positivity
  obtain ⟨a, ea, ra, -, -⟩ := C158_primary C P h hs g hm r h1 h2 hsz hA0 hA (by linarith)
  obtain ⟨b, eb, wb, pb⟩ := C147_ratio C P hm0 rq (by linarith)
  obtain ⟨p, ep, rp⟩ := C.rel_round (ra.mul (Rel.of_within pb wb)) (by linarith) hs2.1 hs2.2
  refine ⟨p, ?_, (rp.mono (by linarith)).within hs2.pos.le⟩
  unfold perturbedMassRatioR
  rw [ea, eb, mul_fin, ep]

/-- **C158**, outside: a mass below the sampled minimum or above the sampled maximum gets density zero, whatever the spline, as long as exponent and normalisation are finite numbers. -/
theorem C158_outside (C : f.Contract κ) {pw : F → F → F} {s : Spline} {o : RTree s.N} {c : ℕ → F} {m1 α mmin mmax e T : ℝ} {n : ℕ} {og : RTree n} {ms : ℕ → ℝ} (hout : m1 < mmin ∨ mmax < m1)
    (he : s.logXProjectR f o c m1 = fin e) (hb : |e| ≤ 80) (hT : perturbedMassNormR f pw s o c og ms (fin α) (fin mmin) (fin mmax) = fin T) (hT0 : T ≠ 0) :
    perturbedMassPdfR f pw s o c og ms m1 (fin α) (fin mmin) (fin mmax) = fin 0 := by
  obtain ⟨y, ey, -⟩ := C.exp_norm e hb
  have hp : powerlaw_pdfR f pw (fin m1) (-fin α) (fin mmin) (fin mmax) = fin 0 := by
    unfold powerlaw_pdfR
    rw [if_pos (show lt (fin m1) (fin mmin) ∨ gt (fin m1) (fin mmax) from hout)]
    rfl
  have h0 : f.r (fin 0) = fin 0 := C.rd_zero
  unfold perturbedMassPdfR
  rw [hT]
  unfold perturbedMassR
  rw [hp, he, ey, mul_fin, zero_mul, h0, div_fin hT0, zero_div, h0]

/-- **C158.** Without rounding the density is the documented product over its integral. -/
theorem C158_exact {s : Spline} (hk : 1 ≤ s.order) {n : ℕ} (o : RTree s.N) (ho : o.Covers) (og : RTree n) (hog : og.Covers) {ms : ℕ → ℝ} {m1 α mmin mmax : ℝ} (h0 : 0 < mmin) (hlt : mmin < mmax) (hα : 1 + -α ≠ 0)
    (hg : ∀ j ≤ n, (mmin ≤ ms j ∧ ms j ≤ mmax) ∧ ¬ s.outside (Real.log (ms j))) (c : ℕ → ℝ) (hm : (mmin ≤ m1 ∧ m1 ≤ mmax) ∧ ¬ s.outside (Real.log m1)) (hT : perturbedMassNorm s c α mmin mmax n ms ≠ 0)
    (m2min beta : F) (q : ℝ) :
    perturbedMassRatioR Arith.exact F.pow s o (fun i => fin (c i)) og ms m2min m1 q (fin α) beta (fin mmin) (fin mmax) =
      fin (perturbedMass s c α mmin mmax m1 / perturbedMassNorm s c α mmin mmax n ms) * powerlaw_pdf (fin q) beta (m2min / fin m1) 1 := by
  have key : ∀ {v : ℝ}, (mmin ≤ v ∧ v ≤ mmax) ∧ ¬ s.outside (Real.log v) → perturbedMassR Arith.exact F.pow s o (fun i => fin (c i)) v (fin α) (fin mmin) (fin mmax) = fin (perturbedMass s c α mmin mmax v) := by
    rintro v ⟨⟨h1, h2⟩, hv⟩
    have hl : Arith.exact.log (fin v) = fin (Real.log v) := F.log_fin (h0.trans_le h1)
    unfold perturbedMassR Spline.logXProjectR
    rw [einsumR_exact o ho (fun i => s.bBases i (Real.log v)) c _ fun i _ => by unfold Spline.logXBasesR; simp only [hl]; rw [bBasesR_exact s hk]]
    rw [C140_exact, neg_fin, powerlaw_pdf_in h0 hlt h1 h2, one_def, mul_fin, mul_one, exact_r, exact_r, show ∀ x : ℝ, Arith.exact.exp (fin x) = fin (Real.exp x) from fun _ => rfl, mul_fin]
    unfold perturbedMass plDensity Spline.logExpo Spline.expo plNorm
    rw [s.clampTo_eq hv, if_neg (fun h => hα (by linarith))]
  have hN : perturbedMassNormR Arith.exact F.pow s o (fun i => fin (c i)) og ms (fin α) (fin mmin) (fin mmax) = fin (perturbedMassNorm s c α mmin mmax n ms) :=
    trapzR_exact og hog _ _ _ fun j hj => key (hg j hj)
  unfold perturbedMassRatioR perturbedMassPdfR
  rw [key hm, hN, div_fin hT]
  simp only [exact_r, C140_exact]

/-! ### example: slope 3 on 4..12, coefficients up to 1 -/

theorem plDensity_four {x : ℝ} (h4 : 4 ≤ x) (h12 : x ≤ 12) : 1 / 64 ≤ plDensity x (-3) 4 12 ∧ plDensity x (-3) 4 12 ≤ 1 := by
  have x0 : 0 < x := by linarith
  have e : plDensity x (-3) 4 12 = (x ^ 3)⁻¹ * 36 := by
    unfold plDensity
    have e1 : ∀ y : ℝ, 0 < y → y ^ (1 + -3 : ℝ) = (y ^ 2)⁻¹ := fun y hy => by
      rw [show (1 + -3 : ℝ) = -((2:ℕ):ℝ) by norm_num, Real.rpow_neg hy.le, Real.rpow_natCast]
    rw [e1 4 (by norm_num), e1 12 (by norm_num), show (-3:ℝ) = -((3:ℕ):ℝ) by norm_num, Real.rpow_neg x0.le, Real.rpow_natCast]
    norm_num
  have x3 : 0 < x ^ 3 := by positivity
  have a : (4:ℝ) ^ 3 ≤ x ^ 3 := pow_le_pow_left₀ (by norm_num) h4 3
  have b : x ^ 3 ≤ (12:ℝ) ^ 3 := pow_le_pow_left₀ x0.le h12 3
  rw [e, inv_mul_eq_div]
  constructor
  · rw [le_div_iff₀ x3]; norm_num at b; linarith
  · rw [div_le_iff₀ x3]; norm_num at a; linarith

theorem log_three : (1:ℝ) ≤ Real.log (12 / 4) := by
  rw [Real.le_log_iff_exp_le (by norm_num)]
  linarith [Real.exp_one_lt_d9]

theorem plRange_four : PLRange (-3) 4 12 := ⟨by norm_num, by norm_num, le_trans (by norm_num) log_three, by norm_num, by norm_num⟩

theorem perturbed_size {c : ℕ → ℝ} (hc : ∀ i < 3, |c i| ≤ 1) {x : ℝ} (h4 : 4 ≤ x) (h12 : x ≤ 12) : Rg 44 (perturbedMass hatSpline c 3 4 12 x) := by
  obtain ⟨a, b⟩ := plDensity_four h4 h12
  have h := hat_steady.logExpo_le hatSpline_ok (A := 1) (by norm_num) hc (by simp [hatSpline]) x
  rw [abs_le] at h
  have e1 : Real.exp 1 ≤ 4 := by linarith [Real.exp_one_lt_d9]
  have u : (1:ℝ) / 4 ≤ Real.exp (hatSpline.logExpo c x) := by
    refine le_trans ?_ (Real.exp_le_exp.2 h.1)
    rw [Real.exp_neg, one_div]; exact inv_anti₀ (Real.exp_pos _) e1
  have v : Real.exp (hatSpline.logExpo c x) ≤ 4 := (Real.exp_le_exp.2 h.2).trans e1
  unfold perturbedMass
  exact ⟨le_trans (by norm_num) (mul_le_mul a u (by norm_num) (by linarith)), (mul_le_mul b v (Real.exp_pos _).le (by norm_num)).trans (by norm_num)⟩

theorem perturbed_grid {c : ℕ → ℝ} (hc : ∀ i < 3, |c i| ≤ 1) : MassGrid binary32 hatSpline c 3 3 4 12 hatGridOrder 1 logHatGrid where
  covers := hatGridOrder_covers
  depth := by decide
  points := by norm_num
  inside := fun j hj => hat_logPoint (logHatGrid_inside j hj).1 (by linarith [(logHatGrid_inside j hj).2])
  cut := fun j hj => logHatGrid_inside j hj
  size := fun j hj => perturbed_size hc (logHatGrid_inside j hj).1 (logHatGrid_inside j hj).2
  steps := logHatGrid_step

theorem perturbed_err : 2 * perturbedErr hatSpline 2 1 1 3 3 4 12 (2⁻¹ ^ 23) + (10 + 2 * (1:ℕ)) * 2⁻¹ ^ 23 ≤ (2⁻¹:ℝ) ^ 13 := by
  have h : plErr (1 + -3) (Real.log (12 / 4)) ≤ 97 := by
    unfold plErr
    have l := log_three
    have : 2 / (|(1:ℝ) + -3| * Real.log (12 / 4)) ≤ 1 := by
      rw [show |(1:ℝ) + -3| = 2 by norm_num, div_le_one (by linarith)]; linarith
    rw [show |(1:ℝ) + -3| = 2 by norm_num] at this ⊢
    linarith
  have h' := mul_le_mul_of_nonneg_left h (show (0:ℝ) ≤ 2⁻¹ ^ 23 by positivity)
  unfold perturbedErr logSplineErr
  simp only [hatSpline]
  norm_num at h' ⊢
  linarith

/-- slope 3 on 4..12, every mass there, all coefficients up to 1: accurate to `2⁻¹³` in single precision -/
example (c : ℕ → ℝ) (hc : ∀ i < 3, |c i| ≤ 1) (m : ℝ) (h4 : 4 ≤ m) (h12 : m ≤ 12) :
    ∃ p, perturbedMassPdfR binary32 pow32 hatSpline hatOrder (fun i => fin (c i)) hatGridOrder logHatGrid m (fin 3) (fin 4) (fin 12) = fin p ∧
      Within (2⁻¹ ^ 13) (perturbedMass hatSpline c 3 4 12 m / perturbedMassNorm hatSpline c 3 4 12 2 logHatGrid) p := by
  obtain ⟨p, ep, rp, tp, -⟩ := C158_primary (W := 1) binary32_contract pow32_contract (hatSpline_density hc (by norm_num)) hat_steady (perturbed_grid hc) (hat_logPoint h4 (by linarith)) plRange_four h4 h12
    (perturbed_size hc h4 h12) (by norm_num) (by norm_num) (perturbed_err.trans (by norm_num))
  exact ⟨p, ep, (rp.mono perturbed_err).within (div_nonneg (perturbed_size hc h4 h12).pos.le (le_trans (by positivity) tp))⟩

/-- the joint density at primary mass 8 and ratio 1/2, minimum secondary mass 2, slope 1 in the ratio -/
example (c : ℕ → ℝ) (hc : ∀ i < 3, |c i| ≤ 1) :
    ∃ p, perturbedMassRatioR binary32 pow32 hatSpline hatOrder (fun i => fin (c i)) hatGridOrder logHatGrid (fin 2) 8 (1 / 2) (fin 3) (fin 1) (fin 4) (fin 12) = fin p ∧
      Within (2⁻¹ ^ 12) (perturbedMass hatSpline c 3 4 12 8 / perturbedMassNorm hatSpline c 3 4 12 2 logHatGrid * plDensity (1 / 2) 1 (2 / 8) 1) p := by
  have hd : plDensity (1 / 2) 1 (2 / 8) 1 = 16 / 15 := by
    unfold plDensity
    rw [show (1:ℝ) + 1 = ((2:ℕ):ℝ) by norm_num, Real.rpow_natCast, Real.rpow_natCast, Real.rpow_one]
    norm_num
  have l4 : 1 ≤ Real.log (1 / (2 / 8)) := by
    rw [Real.le_log_iff_exp_le (by norm_num)]
    linarith [Real.exp_one_lt_d9]
  have hre : ratioErr (1 + 1) (Real.log (1 / (2 / 8))) ≤ 250 := by
    have l0 : 0 < Real.log (1 / (2 / 8)) := by linarith
    have i : 1 / Real.log (1 / (2 / 8)) ≤ 1 := by rw [div_le_one l0]; exact l4
    unfold ratioErr plErr
    rw [show |(1:ℝ) + 1| = 2 by norm_num]
    have e1 : 2 / (2 * (Real.log (1 / (2 / 8)) / 2)) = 2 * (1 / Real.log (1 / (2 / 8))) := by field_simp
    have e2 : 2 / Real.log (1 / (2 / 8)) = 2 * (1 / Real.log (1 / (2 / 8))) := by field_simp
    rw [e1, e2]
    linarith
  have sz := perturbed_size hc (x := 8) (by norm_num) (by norm_num)
  obtain ⟨-, -, -, t0, t1⟩ := C158_primary (W := 1) (m1 := 8) binary32_contract pow32_contract (hatSpline_density hc (by norm_num)) hat_steady (perturbed_grid hc) (hat_logPoint (by norm_num) (by norm_num)) plRange_four
    (by norm_num) (by norm_num) sz (by norm_num) (by norm_num) (perturbed_err.trans (by norm_num))
  have tp : 0 < perturbedMassNorm hatSpline c 3 4 12 2 logHatGrid := lt_of_lt_of_le (by positivity) t0
  have s2 : Rg 122 (perturbedMass hatSpline c 3 4 12 8 / perturbedMassNorm hatSpline c 3 4 12 2 logHatGrid * plDensity (1 / 2) 1 (2 / 8) 1) := by
    have a : (2⁻¹:ℝ) ^ 120 ≤ perturbedMass hatSpline c 3 4 12 8 / perturbedMassNorm hatSpline c 3 4 12 2 logHatGrid := by
      rw [le_div_iff₀ tp]; exact le_trans (mul_le_mul_of_nonneg_left t1 (by positivity)) (le_trans (by norm_num) sz.1)
    have b : perturbedMass hatSpline c 3 4 12 8 / perturbedMassNorm hatSpline c 3 4 12 2 logHatGrid ≤ 2 ^ 120 := by
      rw [div_le_iff₀ tp]; exact sz.2.trans (le_trans (by norm_num) (mul_le_mul_of_nonneg_left t0 (by positivity)))
    rw [hd]
    constructor
    · norm_num at a ⊢; linarith
    · norm_num at b ⊢; linarith
  have hε : 2 * perturbedErr hatSpline 2 1 1 3 3 4 12 (2⁻¹ ^ 23) + (12 + 2 * (1:ℕ)) * 2⁻¹ ^ 23 + 2⁻¹ ^ 23 * ratioErr (1 + 1) (Real.log (1 / (2 / 8))) ≤ (2⁻¹:ℝ) ^ 12 := by
    have := perturbed_err
    have h2 := mul_le_mul_of_nonneg_left hre (show (0:ℝ) ≤ 2⁻¹ ^ 23 by positivity)
    norm_num at this h2 ⊢
    linarith
  obtain ⟨p, ep, wp⟩ := C158_masses (W := 1) (m1 := 8) (q := 1 / 2) (β := 1) (m2min := 2) binary32_contract pow32_contract (hatSpline_density hc (by norm_num)) hat_steady (perturbed_grid hc)
    (hat_logPoint (by norm_num) (by norm_num)) plRange_four (by norm_num) (by norm_num) sz (by norm_num) (by norm_num)
    ⟨by norm_num, le_trans (by norm_num) l4, by norm_num, by norm_num, by norm_num, by norm_num⟩ (hε.trans (by norm_num)) s2
  exact ⟨p, ep, wp.mono hε s2.pos.le⟩

end GW
end
