import Verif.Props.TrueNorm
import Verif.Props.RedshiftSpline

/-! # Property C119: the true integral of the grid-normalised redshift densities -/

open Finset
noncomputable section
open Classical
namespace GW
open F

/-- Specification: `f` is positive on `[a, b]` and its logarithm has slope at most `K` there. -/
structure LogSlope (f : ℝ → ℝ) (a b K : ℝ) : Prop where
  pos : ∀ x ∈ Set.Icc a b, 0 < f x
  slope : ∀ x ∈ Set.Icc a b, ∀ y ∈ Set.Icc a b, |Real.log (f x) - Real.log (f y)| ≤ K * |x - y|

theorem LogSlope.mul {f g : ℝ → ℝ} {a b K L : ℝ} (hf : LogSlope f a b K) (hg : LogSlope g a b L) :
    LogSlope (fun x => f x * g x) a b (K + L) := by
  refine ⟨fun x hx => mul_pos (hf.pos x hx) (hg.pos x hx), fun x hx y hy => ?_⟩
  rw [Real.log_mul (hf.pos x hx).ne' (hg.pos x hx).ne', Real.log_mul (hf.pos y hy).ne' (hg.pos y hy).ne', add_sub_add_comm, add_mul]
  exact (abs_add_le _ _).trans (add_le_add (hf.slope x hx y hy) (hg.slope x hx y hy))

/-- `log` has slope at most `1/a` above `a` -/
theorem log_slope {a x y : ℝ} (ha : 0 < a) (hx : a ≤ x) (hy : a ≤ y) : |Real.log x - Real.log y| ≤ |x - y| / a := by
  have key : ∀ x y : ℝ, a ≤ y → y ≤ x → Real.log x - Real.log y ≤ (x - y) / a := by
    intro x y hy hxy
    have hy0 : 0 < y := ha.trans_le hy
    have hx0 : 0 < x := hy0.trans_le hxy
    rw [← Real.log_div hx0.ne' hy0.ne']
    refine (Real.log_le_sub_one_of_pos (div_pos hx0 hy0)).trans ?_
    rw [div_sub_one hy0.ne']
    exact div_le_div_of_nonneg_left (by linarith) ha hy
  rcases le_total y x with hxy | hxy
  · rw [abs_of_nonneg (sub_nonneg.2 hxy), abs_of_nonneg (sub_nonneg.2 (Real.log_le_log (ha.trans_le hy) hxy))]
    exact key x y hy hxy
  · rw [abs_sub_comm, abs_sub_comm x, abs_of_nonneg (sub_nonneg.2 hxy), abs_of_nonneg (sub_nonneg.2 (Real.log_le_log (ha.trans_le hx) hxy))]
    exact key y x hx hxy

theorem logSlope_rpow {a b r : ℝ} (ha : -1 < a) : LogSlope (fun z => (1 + z) ^ r) a b (|r| / (1 + a)) := by
  refine ⟨fun x hx => Real.rpow_pos_of_pos (by linarith [hx.1]) _, fun x hx y hy => ?_⟩
  have h1 : 0 < 1 + x := by linarith [hx.1]
  have h2 : 0 < 1 + y := by linarith [hy.1]
  rw [Real.log_rpow h1, Real.log_rpow h2, ← mul_sub, abs_mul]
  refine (mul_le_mul_of_nonneg_left (log_slope (a := 1 + a) (by linarith) (by linarith [hx.1]) (by linarith [hy.1])) (abs_nonneg r)).trans (le_of_eq ?_)
  rw [add_sub_add_left_eq_sub]
  ring

/-- a weight with log slope at most `K`, divided by its 1000-point trapezoid sum, has true integral 1 up to a factor `exp(±K (b-a)/1998)` -/
theorem unitOnGrid_true_mass {w d : ℝ → ℝ} {a b K : ℝ} (hab : a < b) (hw : LogSlope w a b K) (hd : UnitOnGrid w a b d) :
    Real.exp (-(K * (b - a) / 1998)) ≤ ∫ x in a..b, d x ∧ (∫ x in a..b, d x) ≤ Real.exp (K * (b - a) / 1998) := by
  obtain ⟨⟨c, hc, hdc⟩, hu⟩ := hd
  have hw' : ∀ x ∈ Set.Icc a b, Real.exp (Real.log (w x)) = w x := fun x hx => Real.exp_log (hw.pos x hx)
  have hK : 0 ≤ K := by
    have := (abs_nonneg _).trans (hw.slope b ⟨hab.le, le_rfl⟩ a ⟨le_rfl, hab.le⟩)
    rw [abs_of_pos (by linarith)] at this
    exact nonneg_of_mul_nonneg_left this (by linarith)
  have hg : ContinuousOn (fun x => Real.log (w x)) (Set.Icc a b) := by
    have : LipschitzOnWith (Real.toNNReal K) (fun x => Real.log (w x)) (Set.Icc a b) :=
      LipschitzOnWith.of_dist_le_mul fun x hx y hy => by
        rw [Real.dist_eq, Real.dist_eq, Real.coe_toNNReal K hK]; exact hw.slope x hx y hy
    exact this.continuousOn
  have ht : trapz 1000 (fun j => Real.exp (Real.log (w ((linspace a b 1000).get j)))) (linspace a b 1000).get = 1 / c := by
    rw [trapz_congr (y' := fun j => w ((linspace a b 1000).get j)) (x' := (linspace a b 1000).get) (fun i hi => hw' _ (linspace_mem hab hi)) (fun _ _ => rfl)]
    have : trapz 1000 (fun i => c * w ((linspace a b 1000).get i)) (linspace a b 1000).get = 1 := by simpa only [hdc] using hu
    rw [trapz_smul] at this
    field_simp
    linarith
  have hmain := true_mass_log (g := fun x => Real.log (w x)) (n := 1000) (ε := K * (b - a) / 1998) (by norm_num) hab hg (fun x hx y hy hxy => by
    refine (hw.slope x hx y hy).trans ((mul_le_mul_of_nonneg_left hxy hK).trans (le_of_eq ?_))
    push_cast
    ring)
  simp only [ht, one_div_one_div] at hmain
  have e : ∫ x in a..b, d x = ∫ x in a..b, Real.exp (Real.log (w x)) * c := by
    refine intervalIntegral.integral_congr fun x hx => ?_
    rw [Set.uIcc_of_le hab.le] at hx
    rw [hdc, hw' x hx, mul_comm]
  rw [e]
  exact hmain

/-- **C119**, PowerlawRedshiftModel.  If the logarithm of the volume element has slope at most `K` over the overlap of the two data sets, the
density `d` the model evaluates has true integral 1 up to a factor `exp(±ε)`, `ε = (K + |lamb - 1| / (1 + zmin)) (zmax - zmin) / 1998`. -/
theorem C119_powerlaw (m : ZModel) (h : m.OK) (lamb K : ℝ) (hK : LogSlope m.dV m.zmin m.zmax K) :
    ∃ d : ℝ → ℝ,
      (∀ (twoD : Bool) (i : ℕ), -1 < (if twoD then m.zpe else m.zinj).get i → (if twoD then m.zpe else m.zinj).get i ≤ m.zmax →
        m.call twoD (if twoD then m.zpe else m.zinj) lamb i = fin (d ((if twoD then m.zpe else m.zinj).get i))) ∧
      Real.exp (-((K + |lamb - 1| / (1 + m.zmin)) * (m.zmax - m.zmin) / 1998)) ≤ ∫ z in m.zmin..m.zmax, d z ∧
      (∫ z in m.zmin..m.zmax, d z) ≤ Real.exp ((K + |lamb - 1| / (1 + m.zmin)) * (m.zmax - m.zmin) / 1998) := by
  obtain ⟨d, hd, hcall⟩ := C39_redshift_model m h lamb
  refine ⟨d, fun twoD i h1 h2 => (((hcall twoD i h1).1) h2).1, ?_⟩
  exact unitOnGrid_true_mass h.overlap (hK.mul (logSlope_rpow h.above)) ⟨hd.shape, hd.unit⟩

/-- the exponential of a LogX spline on `[a, b]` has log slope at most `D (n - k + 1) / (a' log (b/a))` on `[a', b']` -/
theorem logSlope_logX (n k : ℕ) (a b a' b' : ℝ) (ha : 0 < a) (hab : a < b) (ha' : a ≤ a') (hb' : b' ≤ b) (hk : 2 ≤ k) (hn : k ≤ n)
    (hgap : 1 / 1000000 ≤ (Real.log b - Real.log a) / ((n : ℝ) - k + 1)) (s : Spline) (hs : logXInit n none none a b k = .ok s)
    (c : ℕ → ℝ) (D : ℝ) (hD0 : 0 ≤ D) (hD : ∀ i, i + 1 < n → |c (i + 1) - c i| ≤ D) :
    LogSlope (fun z => Real.exp (logXSum s c z)) a' b' (D * ((n : ℝ) - k + 1) / (a' * Real.log (b / a))) := by
  refine ⟨fun x _ => Real.exp_pos _, fun x hx y hy => ?_⟩
  have hb : 0 < b := ha.trans hab
  have ha0 : 0 < a' := ha.trans_le ha'
  have hden := default_den_pos hn
  have hl : 0 < Real.log b - Real.log a := sub_pos.2 (Real.log_lt_log ha hab)
  have hmem : ∀ x ∈ Set.Icc a' b', Real.log x ∈ Set.Icc (Real.log a) (Real.log b) := fun x hx =>
    ⟨Real.log_le_log ha (ha'.trans hx.1), Real.log_le_log (ha0.trans_le hx.1) (hx.2.trans hb')⟩
  have hev : ∀ x, logXSum s c x = s.bEval false c (Real.log x) := fun x => by
    simp [logXSum, Spline.bEval, bProject, bNorm, Spline.logXBases]
  rw [Real.log_exp, Real.log_exp, hev, hev]
  refine (C111_lipschitz n k _ _ hk hn hgap s hs c D hD _ _ (hmem y hy) (hmem x hx)).trans ?_
  refine (mul_le_mul_of_nonneg_left (log_slope ha0 hx.1 hy.1) (div_nonneg hD0 (div_nonneg hl.le hden.le))).trans (le_of_eq ?_)
  rw [Real.log_div hb.ne' ha.ne']
  field_simp

/-- **C119**, PowerlawSplineRedshiftModel: the slope of the exponentiated spline adds `D (n - 3) / (zmin log (zmax/zmin))`, `D` the largest difference of
neighbouring coefficients. -/
theorem C119_powerlaw_spline (n : ℕ) (dV : ℝ → ℝ) (zpe zinj : Arr ℝ) (m : PLSpline) (h : PLSpline.make n dV zpe zinj .logX = .ok m)
    (hn : 4 ≤ n) (hmin : 0 < m.parent.zmin) (hlt : m.parent.zmin < m.parent.zmax)
    (hgap : 1 / 1000000 ≤ (Real.log m.parent.zmax - Real.log m.parent.zmin) / ((n : ℝ) - (4 : ℕ) + 1))
    (K : ℝ) (hK : LogSlope dV m.parent.zmin m.parent.zmax K) (lamb : ℝ) (c : ℕ → ℝ) (D : ℝ) (hD : ∀ i, i + 1 < n → |c (i + 1) - c i| ≤ D) :
    ∃ d : ℝ → ℝ,
      (∀ (twoD : Bool) (i : ℕ), 0 < (if twoD then zpe else zinj).get i → (if twoD then zpe else zinj).get i ≤ m.parent.zmax →
        m.call twoD (if twoD then zpe else zinj) lamb c i = fin (d ((if twoD then zpe else zinj).get i))) ∧
      ∀ ε, ε = (K + |lamb - 1| / (1 + m.parent.zmin) + D * ((n : ℝ) - 3) / (m.parent.zmin * Real.log (m.parent.zmax / m.parent.zmin)))
          * (m.parent.zmax - m.parent.zmin) / 1998 →
        Real.exp (-ε) ≤ ∫ z in m.parent.zmin..m.parent.zmax, d z ∧ (∫ z in m.parent.zmin..m.parent.zmax, d z) ≤ Real.exp ε := by
  obtain ⟨s, hs, d, hd, hcall⟩ := C35_powerlaw_spline_partial n dV zpe zinj m h hmin hlt (fun x h1 h2 => hK.pos x ⟨h1, h2⟩) lamb c
  refine ⟨d, fun twoD i h1 h2 => ((hcall twoD i h1).1) h2, ?_⟩
  rintro ε rfl
  have hD0 : 0 ≤ D := (abs_nonneg _).trans (hD 0 (by omega))
  have := unitOnGrid_true_mass hlt ((hK.mul (logSlope_rpow (r := lamb - 1) (by linarith))).mul
    (logSlope_logX n 4 _ _ _ _ hmin hlt le_rfl le_rfl (by norm_num) hn hgap s hs c D hD0 hD)) hd
  rwa [show (n : ℝ) - ((4 : ℕ) : ℝ) + 1 = n - 3 by push_cast; ring] at this

/-- **C119**, BSplineRedshift with `normalize=False` on a spline range `lo..hi` that covers the overlap of the two data sets. -/
theorem C119_spline (dV : ℝ → ℝ) (n : ℕ) (z zi v vi : List F) (lo hi : ℝ) (degree : ℕ) (m : ZSpline)
    (h : ZSpline.make dV n z zi v vi lo hi .logX degree false = .ok m) (hdeg : 1 ≤ degree) (hn : degree + 1 ≤ n)
    (hlo : 0 < lo) (hmin : lo ≤ m.zmin) (hlt : m.zmin < m.zmax) (hmax : m.zmax ≤ hi)
    (hgap : 1 / 1000000 ≤ (Real.log hi - Real.log lo) / ((n : ℝ) - (degree + 1 : ℕ) + 1))
    (K : ℝ) (hK : LogSlope dV m.zmin m.zmax K) (c : ℕ → ℝ) (D : ℝ) (hD : ∀ i, i + 1 < n → |c (i + 1) - c i| ≤ D) :
    ∃ d : ℝ → ℝ,
      (∀ (pe : Bool) (i : ℕ) (x : ℝ), 0 < x → (if pe then z else zi)[i]? = some (fin x) →
        (if pe then v else vi)[i]? = some (fin (dV x)) → (m.call c pe)[i]? = some (fin (d x))) ∧
      ∀ ε, ε = (K + 1 / (1 + m.zmin) + D * ((n : ℝ) - degree) / (m.zmin * Real.log (hi / lo))) * (m.zmax - m.zmin) / 1998 →
        Real.exp (-ε) ≤ ∫ x in m.zmin..m.zmax, d x ∧ (∫ x in m.zmin..m.zmax, d x) ≤ Real.exp ε := by
  have hm0 : 0 < m.zmin := hlo.trans_le hmin
  have hlh : lo < hi := hmin.trans_lt (hlt.trans_le hmax)
  obtain ⟨s, hs, d, hd, hcall⟩ := C35_redshift_spline_partial dV n z zi v vi lo hi degree m hlo hlh hn h hm0 hlt (fun x h1 h2 => hK.pos x ⟨h1, h2⟩) c
  refine ⟨d, hcall, ?_⟩
  rintro ε rfl
  have h1n : 1 < n := by omega
  have hD0 : 0 ≤ D := (abs_nonneg _).trans (hD 0 h1n)
  have hw := (hK.mul (logSlope_rpow (r := -1) (b := m.zmax) (by linarith : -1 < m.zmin))).mul
    (logSlope_logX n (degree + 1) lo hi m.zmin m.zmax hlo hlh hmin hmax (by omega) hn hgap s hs c D hD0 hD)
  have e : ∀ x ∈ Set.Icc m.zmin m.zmax, rateWeight dV s c x = dV x * (1 + x) ^ (-1 : ℝ) * Real.exp (logXSum s c x) := fun x _ => by
    rw [rateWeight, Real.rpow_neg_one, div_eq_mul_inv]
  have hw' : LogSlope (rateWeight dV s c) m.zmin m.zmax (K + |(-1 : ℝ)| / (1 + m.zmin) + D * ((n : ℝ) - (degree + 1 : ℕ) + 1) / (m.zmin * Real.log (hi / lo))) :=
    ⟨fun x hx => by rw [e x hx]; exact hw.pos x hx, fun x hx y hy => by rw [e x hx, e y hy]; exact hw.slope x hx y hy⟩
  have := unitOnGrid_true_mass hlt hw' hd
  rwa [_root_.abs_neg, _root_.abs_one, show (n : ℝ) - ((degree + 1 : ℕ) : ℝ) + 1 = n - degree by push_cast; ring] at this

/-- the hypotheses of `C119_powerlaw` are met by the model with volume element `z²` between 1/5 and 1/2, with slope 10 -/
example : LogSlope exampleZ.dV exampleZ.zmin exampleZ.zmax 10 := by
  have e1 : exampleZ.zmin = 1/5 := by
    simp [exampleZ, ZModel.zmin, arrMin, List.range_succ]; norm_num
  rw [e1]
  refine ⟨fun x hx => ?_, fun x hx y hy => ?_⟩
  · have : 0 < x := by linarith [hx.1]
    simp only [exampleZ]; positivity
  · simp only [exampleZ]
    rw [Real.log_pow, Real.log_pow, ← mul_sub, abs_mul]
    have := log_slope (a := 1/5) (by norm_num) hx.1 hy.1
    norm_num
    linarith

/-- and those of `C119_powerlaw_spline` and `C119_spline` on the knots: the instances beside C35 have `zmin = 0.1`, `zmax = 1` and six functions -/
example : 1 / 1000000 ≤ (Real.log 1 - Real.log 0.1) / (((6 : ℕ) : ℝ) - (4 : ℕ) + 1) ∧
    1 / 1000000 ≤ (Real.log 2.3 - Real.log 0.0001) / (((6 : ℕ) : ℝ) - ((3 + 1 : ℕ) : ℝ) + 1) ∧ LogSlope (fun z : ℝ => z ^ 2) 0.1 1 20 := by
  have h1 : Real.log 0.1 ≤ 0.1 - 1 := Real.log_le_sub_one_of_pos (by norm_num)
  have h2 : Real.log 0.0001 ≤ 0.0001 - 1 := Real.log_le_sub_one_of_pos (by norm_num)
  have h3 : 0 ≤ Real.log 2.3 := Real.log_nonneg (by norm_num)
  refine ⟨?_, ?_, fun x hx => ?_, fun x hx y hy => ?_⟩
  · rw [Real.log_one, le_div_iff₀ (by norm_num)]; norm_num at h1 ⊢; linarith
  · rw [le_div_iff₀ (by norm_num)]; norm_num at h2 h3 ⊢; linarith
  · have : 0 < x := lt_of_lt_of_le (by norm_num) hx.1
    positivity
  · have := log_slope (a := 0.1) (by norm_num) hx.1 hy.1
    simp only [Real.log_pow]
    rw [← mul_sub, abs_mul]
    norm_num at this ⊢
    linarith

end GW
end
