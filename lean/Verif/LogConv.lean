import Verif.Dilog
import Mathlib.Analysis.SpecialFunctions.Log.NegMulLog

/-! # The convolution of two logarithmic densities, in closed form

`∫ log(t/b) log((u-t)/a) dt` has a primitive in terms of `dilog`, continuous on the whole line. -/

open MeasureTheory Set
noncomputable section
namespace GW

/-- A primitive of `log (|t - u| / a)`. -/
def lcW (a u t : ℝ) : ℝ := (t - u) * (Real.log ((t - u) / a) - 1)

/-- A primitive of `log (|t| / b) * log (|u - t| / a)`. -/
def lcF (a b u t : ℝ) : ℝ :=
  Real.log (t / b) * (lcW a u t - lcW a u 0) - lcW a u t + t - u * dilog (t / u)

theorem lcW_cont {a : ℝ} (ha : a ≠ 0) (u : ℝ) : Continuous (lcW a u) := by
  have e : lcW a u = fun t => a * ((t - u) / a * Real.log ((t - u) / a)) - (t - u) := by
    funext t; unfold lcW; field_simp
  rw [e]
  have := Real.continuous_mul_log
  have h2 : Continuous fun t : ℝ => (t - u) / a := by fun_prop
  exact ((this.comp h2).const_mul a).sub (by fun_prop)

theorem lcW_deriv {a u t : ℝ} (ha : a ≠ 0) (ht : t ≠ u) : HasDerivAt (lcW a u) (Real.log ((t - u) / a)) t := by
  have h1 : HasDerivAt (fun t : ℝ => t - u) 1 t := (hasDerivAt_id t).sub_const u
  have h2 : HasDerivAt (fun t : ℝ => (t - u) / a) (1 / a) t := h1.div_const a
  have hne : (t - u) / a ≠ 0 := div_ne_zero (sub_ne_zero.2 ht) ha
  have h3 := (h2.log hne).sub_const 1
  have h4 := h1.mul h3
  refine h4.congr_deriv ?_
  have : t - u ≠ 0 := sub_ne_zero.2 ht
  field_simp
  ring

theorem lcF_cont {a b u : ℝ} (ha : a ≠ 0) (hb : b ≠ 0) (hu : u ≠ 0) : Continuous (lcF a b u) := by
  have hd : Continuous (dslope (lcW a u) 0) := by
    rw [← continuousOn_univ, continuousOn_dslope Filter.univ_mem]
    exact ⟨(lcW_cont ha u).continuousOn, (lcW_deriv ha (Ne.symm hu)).differentiableAt⟩
  have e : lcF a b u = fun t => b * (t / b * Real.log (t / b)) * dslope (lcW a u) 0 t - lcW a u t + t - u * dilog (t / u) := by
    funext t
    have h := sub_smul_dslope (lcW a u) 0 t
    simp only [sub_zero, smul_eq_mul] at h
    unfold lcF
    rw [← h]
    field_simp
  rw [e]
  have h2 : Continuous fun t : ℝ => t / b := by fun_prop
  have h3 : Continuous fun t : ℝ => t / u := by fun_prop
  exact (((((Real.continuous_mul_log.comp h2).const_mul b).mul hd).sub (lcW_cont ha u)).add continuous_id).sub
    ((dilog_continuous.comp h3).const_mul u)

theorem lcF_deriv {a b u t : ℝ} (ha : a ≠ 0) (hb : b ≠ 0) (hu : u ≠ 0) (h0 : t ≠ 0) (ht : t ≠ u) :
    HasDerivAt (lcF a b u) (Real.log (t / b) * Real.log ((u - t) / a)) t := by
  have hW := lcW_deriv ha ht
  have h1 : HasDerivAt (fun t : ℝ => t / b) (1 / b) t := (hasDerivAt_id t).div_const b
  have h2 := h1.log (div_ne_zero h0 hb)
  have h3 : HasDerivAt (fun t : ℝ => t / u) (1 / u) t := (hasDerivAt_id t).div_const u
  have h4 : HasDerivAt (dilog ∘ fun t : ℝ => t / u) (-(Real.log (1 - t / u) / (t / u)) * (1 / u)) t :=
    HasDerivAt.comp (h₂ := dilog) t
      (dilog_hasDerivAt (x := t / u) (div_ne_zero h0 hu) (by rw [Ne, div_eq_one_iff_eq hu]; exact ht)) h3
  have h5 := ((((h2.mul (hW.sub_const (lcW a u 0))).sub hW).add (hasDerivAt_id t)).sub (h4.const_mul u))
  refine h5.congr_deriv ?_
  have htu : t - u ≠ 0 := sub_ne_zero.2 ht
  have e1 : Real.log (1 - t / u) = Real.log ((t - u) / a) - Real.log (u / a) := by
    rw [← Real.log_div (div_ne_zero htu ha) (div_ne_zero hu ha), ← Real.log_neg_eq_log]
    congr 1
    field_simp
    ring
  have e2 : Real.log ((u - t) / a) = Real.log ((t - u) / a) := by
    rw [← Real.log_neg_eq_log]; congr 1; ring
  have e3 : lcW a u 0 = -u * (Real.log (u / a) - 1) := by
    unfold lcW
    rw [← Real.log_neg_eq_log]
    ring_nf
  rw [e1, e2, e3]
  unfold lcW
  field_simp
  ring

theorem lc_piece {a b u l h : ℝ} (ha : 0 < a) (hb : 0 < b) (hu : 0 < u) (hlh : l ≤ h)
    (hin : ∀ t, l < t → t < h → |t| < b ∧ |u - t| < a) (h0 : ∀ t, l < t → t < h → t ≠ 0) (h1 : ∀ t, l < t → t < h → t ≠ u) :
    IntervalIntegrable (fun t => Real.log (t / b) * Real.log ((u - t) / a)) volume l h ∧
      ∫ t in l..h, Real.log (t / b) * Real.log ((u - t) / a) = lcF a b u h - lcF a b u l := by
  have hc := lcF_cont ha.ne' hb.ne' hu.ne'
  have hd : ∀ t ∈ Ioo l h, HasDerivAt (lcF a b u) (Real.log (t / b) * Real.log ((u - t) / a)) t := fun t ht =>
    lcF_deriv ha.ne' hb.ne' hu.ne' (h0 t ht.1 ht.2) (h1 t ht.1 ht.2)
  have hn : ∀ t ∈ Ioo l h, 0 ≤ Real.log (t / b) * Real.log ((u - t) / a) := by
    intro t ht
    obtain ⟨hh1, hh2⟩ := hin t ht.1 ht.2
    have key : ∀ x c : ℝ, 0 < c → |x| < c → Real.log (x / c) ≤ 0 := by
      intro x c hc hx
      rw [← Real.log_abs, abs_div, abs_of_pos hc]
      exact Real.log_nonpos (by positivity) (by rw [div_le_one hc]; exact hx.le)
    exact mul_nonneg_of_nonpos_of_nonpos (key _ _ hb hh1) (key _ _ ha hh2)
  have hi : IntervalIntegrable (fun t => Real.log (t / b) * Real.log ((u - t) / a)) volume l h := by
    rw [intervalIntegrable_iff_integrableOn_Ioc_of_le hlh]
    exact intervalIntegral.integrableOn_deriv_of_nonneg hc.continuousOn hd hn
  exact ⟨hi, intervalIntegral.integral_eq_sub_of_hasDerivAt_of_le hlh hc.continuousOn hd hi⟩

theorem lc_split {f G : ℝ → ℝ} {l m h : ℝ}
    (h1 : IntervalIntegrable f volume l m ∧ ∫ t in l..m, f t = G m - G l)
    (h2 : IntervalIntegrable f volume m h ∧ ∫ t in m..h, f t = G h - G m) :
    IntervalIntegrable f volume l h ∧ ∫ t in l..h, f t = G h - G l := by
  refine ⟨h1.1.trans h2.1, ?_⟩
  rw [← intervalIntegral.integral_add_adjacent_intervals h1.1 h2.1, h1.2, h2.2]; ring

theorem lc_piece0 {a b u l h : ℝ} (ha : 0 < a) (hb : 0 < b) (hu : 0 < u) (hlh : l ≤ h)
    (hin : ∀ t, l < t → t < h → |t| < b ∧ |u - t| < a) (h1 : ∀ t, l < t → t < h → t ≠ u) :
    IntervalIntegrable (fun t => Real.log (t / b) * Real.log ((u - t) / a)) volume l h ∧
      ∫ t in l..h, Real.log (t / b) * Real.log ((u - t) / a) = lcF a b u h - lcF a b u l := by
  by_cases h0 : l < 0 ∧ 0 < h
  · refine lc_split (m := 0) ?_ ?_
    · exact lc_piece ha hb hu h0.1.le (fun t x y => hin t x (y.trans h0.2)) (fun t _ y => y.ne) (fun t x y => h1 t x (y.trans h0.2))
    · exact lc_piece ha hb hu h0.2.le (fun t x y => hin t (h0.1.trans x) y) (fun t x _ => x.ne') (fun t x y => h1 t (h0.1.trans x) y)
  · refine lc_piece ha hb hu hlh hin (fun t x y e => h0 ?_) h1
    subst e; exact ⟨x, y⟩

/-- The primitive evaluates the integral on every interval where both logarithms are non-positive. -/
theorem lc_integral {a b u l h : ℝ} (ha : 0 < a) (hb : 0 < b) (hu : 0 < u) (hlh : l ≤ h)
    (hin : ∀ t, l < t → t < h → |t| < b ∧ |u - t| < a) :
    IntervalIntegrable (fun t => Real.log (t / b) * Real.log ((u - t) / a)) volume l h ∧
      ∫ t in l..h, Real.log (t / b) * Real.log ((u - t) / a) = lcF a b u h - lcF a b u l := by
  by_cases h0 : l < u ∧ u < h
  · refine lc_split (m := u) ?_ ?_
    · exact lc_piece0 ha hb hu h0.1.le (fun t x y => hin t x (y.trans h0.2)) (fun t _ y => y.ne)
    · exact lc_piece0 ha hb hu h0.2.le (fun t x y => hin t (h0.1.trans x) y) (fun t x _ => x.ne')
  · refine lc_piece0 ha hb hu hlh hin (fun t x y e => h0 ?_)
    subst e; exact ⟨x, y⟩

end GW
