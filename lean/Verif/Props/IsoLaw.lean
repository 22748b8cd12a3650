import Verif.Props.ChiP
import Verif.LogConv
import Verif.LintLaw
import Mathlib.MeasureTheory.Integral.Prod

/-!
# C93: the isotropic effective-spin prior is the distribution of the effective spin
-/

noncomputable section
open Classical MeasureTheory Set
namespace GW

/-! ## Specification -/

/-- Density of the aligned component `s = a₁ cos θ₁` when the magnitude is uniform on `(0, a)` and `cos θ₁` on `(-1, 1)`. -/
def zDensity (a s : ℝ) : ℝ := if |s| < a then Real.log (a / |s|) / (2 * a) else 0

/-- Density at `χ` of `(s₁ + q s₂)/(1 + q)` for independent `s₁`, `s₂` of density `zDensity a`: the convolution of the densities of
`s₁` and `q s₂`, taken at `(1 + q) χ`. -/
def isoDensity (χ q a : ℝ) : ℝ := (1 + q) * ∫ s, zDensity a s * zDensity (q * a) ((1 + q) * χ - s)

/-! ## Closed form of the convolution -/

theorem conv_indicator {a b u : ℝ} (ha : 0 < a) (hb : 0 < b) (hba : b ≤ a) (hu : 0 ≤ u) (t : ℝ) :
    zDensity a (u - t) * zDensity b t =
      (Ioo (max (-b) (u - a)) b).indicator (fun t => 1 / (4 * a * b) * (Real.log (t / b) * Real.log ((u - t) / a))) t := by
  have flip : ∀ c y : ℝ, 0 < c → Real.log (c / |y|) = -Real.log (y / c) := by
    intro c y hc
    rw [← Real.log_inv, inv_div, ← Real.log_abs (c / y), abs_div, abs_of_pos hc]
  by_cases h : t ∈ Ioo (max (-b) (u - a)) b
  · rw [indicator_of_mem h]
    obtain ⟨h1, h2⟩ := h
    rw [max_lt_iff] at h1
    unfold zDensity
    rw [if_pos (by rw [abs_lt]; constructor <;> linarith), if_pos (by rw [abs_lt]; constructor <;> linarith), flip a _ ha, flip b _ hb]
    field_simp
    ring
  · rw [indicator_of_notMem h]
    unfold zDensity
    by_cases h1 : |t| < b
    · rw [if_neg (c := |u - t| < a), zero_mul]
      intro h2
      rw [abs_lt] at h1 h2
      exact h ⟨max_lt h1.1 (by linarith), h1.2⟩
    · rw [if_neg h1, mul_zero]

theorem conv_eq {a b u : ℝ} (ha : 0 < a) (hb : 0 < b) (hba : b ≤ a) (hu : 0 < u) (hu' : u < a + b) :
    Integrable (fun s => zDensity a s * zDensity b (u - s)) ∧
      ∫ s, zDensity a s * zDensity b (u - s) = 1 / (4 * a * b) * (lcF a b u b - lcF a b u (max (-b) (u - a))) := by
  have hlb : max (-b) (u - a) ≤ b := max_le (by linarith) (by linarith)
  obtain ⟨hi, hv⟩ := lc_integral (a := a) (b := b) (u := u) ha hb hu hlb (by
    intro t h1 h2
    rw [max_lt_iff] at h1
    rw [abs_lt, abs_lt]
    refine ⟨⟨?_, ?_⟩, ?_, ?_⟩ <;> linarith)
  have hI : Integrable (fun t => zDensity a (u - t) * zDensity b t) := by
    simp only [conv_indicator ha hb hba hu.le]
    rw [integrable_indicator_iff measurableSet_Ioo]
    exact ((intervalIntegrable_iff_integrableOn_Ioo_of_le hlb).1 hi).const_mul _
  constructor
  · have := hI.comp_sub_left u
    simpa using this
  · rw [← integral_sub_left_eq_self (fun s => zDensity a s * zDensity b (u - s)) volume u]
    have e : ∀ t, zDensity a (u - t) * zDensity b (u - (u - t)) = zDensity a (u - t) * zDensity b t := by intro t; congr 2; ring
    simp only [e, conv_indicator ha hb hba hu.le]
    rw [integral_indicator measurableSet_Ioo, integral_const_mul, ← integral_Ioc_eq_integral_Ioo,
      ← intervalIntegral.integral_of_le hlb, hv]

theorem isoA_value {x q a : ℝ} (hq : 0 < q) (hq1 : q ≤ 1) (ha : 0 < a) (hx : 0 < x) (h1 : x < a * (1 - q) / (1 + q))
    (h2 : x < q * a / (1 + q)) : isoA dilog x q a = isoDensity x q a := by
  have hp : 0 < 1 + q := by linarith
  rw [lt_div_iff₀ hp] at h1 h2
  obtain ⟨u, hu⟩ : ∃ u, u = (1 + q) * x := ⟨_, rfl⟩
  have hup : 0 < u := by rw [hu]; positivity
  have hb : 0 < q * a := by positivity
  have hba : q * a ≤ a := by nlinarith
  have h1' : u < a - q * a := by rw [hu]; nlinarith
  have h2' : u < q * a := by rw [hu]; nlinarith
  unfold isoA isoDensity
  rw [← hu, (conv_eq ha hb hba hup (by linarith)).2, max_eq_left (by linarith)]
  have ea : -q * a / u = -(q * a) / u := by ring
  have e1 : q ^ 2 * a ^ 2 - (1 + q) ^ 2 * x ^ 2 = (q * a - u) * (q * a + u) := by rw [hu]; ring
  have e2 : (1 + u / (q * a)) / (1 - u / (q * a)) = (q * a + u) / (q * a - u) := by
    have : q * a - u ≠ 0 := by linarith
    have : 1 - u / (q * a) ≠ 0 := by
      intro h; field_simp at h; linarith
    field_simp
  have e3 : 2 * (1 + q) * x = 2 * u := by rw [hu]; ring
  unfold arctanh
  rw [ea, e1, e2, e3, Real.log_mul (by linarith) (by linarith), Real.log_div (by linarith) (by linarith)]
  unfold lcF lcW
  have l1 : Real.log (q * a / (q * a)) = 0 := by rw [div_self hb.ne']; exact Real.log_one
  have l2 : Real.log (-(q * a) / (q * a)) = 0 := by rw [neg_div, Real.log_neg_eq_log]; exact l1
  have l3 : Real.log ((q * a - u) / a) = Real.log (q * a - u) - Real.log a := Real.log_div (by linarith) ha.ne'
  have l4 : Real.log ((-(q * a) - u) / a) = Real.log (q * a + u) - Real.log a := by
    rw [← Real.log_neg_eq_log, ← Real.log_div (by linarith) ha.ne']; congr 1; ring
  rw [l1, l2, l3, l4]
  field_simp
  ring

theorem isoB_value {x q a : ℝ} (hq : 0 < q) (hq1 : q ≤ 1) (ha : 0 < a) (h1 : x < a * (1 - q) / (1 + q))
    (h2 : q * a / (1 + q) < x) : isoB dilog x q a = isoDensity x q a := by
  have hp : 0 < 1 + q := by linarith
  have hx : 0 < x := lt_trans (by positivity) h2
  rw [lt_div_iff₀ hp] at h1
  rw [div_lt_iff₀ hp] at h2
  obtain ⟨u, hu⟩ : ∃ u, u = (1 + q) * x := ⟨_, rfl⟩
  have hup : 0 < u := by rw [hu]; positivity
  have hb : 0 < q * a := by positivity
  have hba : q * a ≤ a := by nlinarith
  have h1' : u < a - q * a := by rw [hu]; nlinarith
  have h2' : q * a < u := by rw [hu]; nlinarith
  unfold isoB isoDensity
  rw [← hu, (conv_eq ha hb hba hup (by linarith)).2, max_eq_left (by linarith)]
  have ea : -q * a / u = -(q * a) / u := by ring
  have e1 : (1 + q) ^ 2 * x ^ 2 - q ^ 2 * a ^ 2 = (u - q * a) * (q * a + u) := by rw [hu]; ring
  have e2 : (1 + q * a / u) / (1 - q * a / u) = (q * a + u) / (u - q * a) := by
    have : u - q * a ≠ 0 := by linarith
    have : 1 - q * a / u ≠ 0 := by
      intro h; field_simp at h; linarith
    field_simp
    ring
  have e3 : 2 * (1 + q) * x = 2 * u := by rw [hu]; ring
  unfold arctanh
  rw [ea, e1, e2, e3, Real.log_mul (by linarith) (by linarith), Real.log_div (by linarith) (by linarith)]
  unfold lcF lcW
  have l1 : Real.log (q * a / (q * a)) = 0 := by rw [div_self hb.ne']; exact Real.log_one
  have l2 : Real.log (-(q * a) / (q * a)) = 0 := by rw [neg_div, Real.log_neg_eq_log]; exact l1
  have l3 : Real.log ((q * a - u) / a) = Real.log (u - q * a) - Real.log a := by
    rw [← Real.log_neg_eq_log, ← Real.log_div (by linarith) ha.ne']; congr 1; ring
  have l4 : Real.log ((-(q * a) - u) / a) = Real.log (q * a + u) - Real.log a := by
    rw [← Real.log_neg_eq_log, ← Real.log_div (by linarith) ha.ne']; congr 1; ring
  rw [l1, l2, l3, l4]
  field_simp
  ring

theorem isoC_value {x q a : ℝ} (hq : 0 < q) (hq1 : q ≤ 1) (ha : 0 < a) (h1 : a * (1 - q) / (1 + q) < x)
    (h2 : x < q * a / (1 + q)) : isoC dilog x q a = isoDensity x q a := by
  have hp : 0 < 1 + q := by linarith
  have hx : 0 < x := lt_of_le_of_lt (div_nonneg (mul_nonneg ha.le (by linarith)) hp.le) h1
  rw [div_lt_iff₀ hp] at h1
  rw [lt_div_iff₀ hp] at h2
  obtain ⟨u, hu⟩ : ∃ u, u = (1 + q) * x := ⟨_, rfl⟩
  have hup : 0 < u := by rw [hu]; positivity
  have hb : 0 < q * a := by positivity
  have hba : q * a ≤ a := by nlinarith
  have h1' : a - q * a < u := by rw [hu]; nlinarith
  have h2' : u < q * a := by rw [hu]; nlinarith
  unfold isoC isoDensity
  rw [← hu, (conv_eq ha hb hba hup (by linarith)).2, max_eq_right (by linarith)]
  have ex : 2 * (1 + q) * (a - x) = 2 * (a + q * a - u) := by rw [hu]; ring
  have p1 : 0 < a - u := by linarith
  have p2 : 0 < q * a - u := by linarith
  have ed : (u - a) / u = 1 - a / u := by field_simp
  unfold lcF lcW
  have l1 : Real.log (q * a / (q * a)) = 0 := by rw [div_self hb.ne']; exact Real.log_one
  have l2 : Real.log ((u - a) / (q * a)) = Real.log (a - u) - (Real.log q + Real.log a) := by
    rw [← Real.log_neg_eq_log, ← Real.log_mul hq.ne' ha.ne', ← Real.log_div p1.ne' hb.ne']; congr 1; ring
  have l3 : Real.log ((q * a - u) / a) = Real.log (q * a - u) - Real.log a := Real.log_div p2.ne' ha.ne'
  have l4 : Real.log ((u - a - u) / a) = 0 := by
    rw [← Real.log_neg_eq_log, show -((u - a - u) / a) = 1 by field_simp; ring]; exact Real.log_one
  have l5 : Real.log ((0 - u) / a) = Real.log u - Real.log a := by
    rw [← Real.log_neg_eq_log, ← Real.log_div hup.ne' ha.ne']; congr 1; ring
  have l6 : Real.log (q * a / (a - u)) = Real.log q + Real.log a - Real.log (a - u) := by
    rw [Real.log_div hb.ne' p1.ne', Real.log_mul hq.ne' ha.ne']
  have l7 : Real.log (a / (q * a - u)) = Real.log a - Real.log (q * a - u) := Real.log_div ha.ne' p2.ne'
  have l8 : Real.log ((a - u) * (q * a - u) / q) = Real.log (a - u) + Real.log (q * a - u) - Real.log q := by
    rw [Real.log_div (by positivity) hq.ne', Real.log_mul p1.ne' p2.ne']
  rw [l1, l2, l3, l4, l5, l6, l7, l8, ex, ed]
  field_simp
  ring

theorem isoD_value {x q a : ℝ} (hq : 0 < q) (hq1 : q ≤ 1) (ha : 0 < a) (h1 : a * (1 - q) / (1 + q) < x) (h3 : x < a / (1 + q))
    (h2 : q * a / (1 + q) < x) : isoDr dilog x q a = isoDensity x q a := by
  have hp : 0 < 1 + q := by linarith
  have hx : 0 < x := lt_trans (by positivity) h2
  rw [div_lt_iff₀ hp] at h1 h2
  rw [lt_div_iff₀ hp] at h3
  obtain ⟨u, hu⟩ : ∃ u, u = (1 + q) * x := ⟨_, rfl⟩
  have hup : 0 < u := by rw [hu]; positivity
  have hb : 0 < q * a := by positivity
  have hba : q * a ≤ a := by nlinarith
  have h1' : a - q * a < u := by rw [hu]; nlinarith
  have h2' : q * a < u := by rw [hu]; nlinarith
  have h3' : u < a := by rw [hu]; nlinarith
  unfold isoDr isoDensity
  rw [← hu, (conv_eq ha hb hba hup (by linarith)).2, max_eq_right (by linarith)]
  have ex : x = u / (1 + q) := by rw [hu]; field_simp
  have p1 : 0 < a - u := by linarith
  have p2 : 0 < u - q * a := by linarith
  have ed : (u - a) / u = 1 - a / u := by field_simp
  unfold lcF lcW
  have l1 : Real.log (q * a / (q * a)) = 0 := by rw [div_self hb.ne']; exact Real.log_one
  have l2 : Real.log ((u - a) / (q * a)) = Real.log (a - u) - (Real.log q + Real.log a) := by
    rw [← Real.log_neg_eq_log, ← Real.log_mul hq.ne' ha.ne', ← Real.log_div p1.ne' hb.ne']; congr 1; ring
  have l3 : Real.log ((q * a - u) / a) = Real.log (u - q * a) - Real.log a := by
    rw [← Real.log_neg_eq_log, ← Real.log_div p2.ne' ha.ne']; congr 1; ring
  have l4 : Real.log ((u - a - u) / a) = 0 := by
    rw [← Real.log_neg_eq_log, show -((u - a - u) / a) = 1 by field_simp; ring]; exact Real.log_one
  have l5 : Real.log ((0 - u) / a) = Real.log u - Real.log a := by
    rw [← Real.log_neg_eq_log, ← Real.log_div hup.ne' ha.ne']; congr 1; ring
  have l6 : Real.log (q * a / (a - u)) = Real.log q + Real.log a - Real.log (a - u) := by
    rw [Real.log_div hb.ne' p1.ne', Real.log_mul hq.ne' ha.ne']
  have l7 : Real.log (a / (u - q * a)) = Real.log a - Real.log (u - q * a) := Real.log_div ha.ne' p2.ne'
  have l8 : Real.log ((-q * a + u) * (a - u) / q) = Real.log (u - q * a) + Real.log (a - u) - Real.log q := by
    rw [show -q * a + u = u - q * a by ring, Real.log_div (by positivity) hq.ne', Real.log_mul p2.ne' p1.ne']
  have l9 : Real.log (u / a) = Real.log u - Real.log a := Real.log_div hup.ne' ha.ne'
  have l10 : Real.log (a / u) = Real.log a - Real.log u := Real.log_div ha.ne' hup.ne'
  have l11 : Real.log ((a - u) / q) = Real.log (a - u) - Real.log q := Real.log_div p1.ne' hq.ne'
  rw [l1, l2, l3, l4, l5, l6, l7, l8, l9, l10, l11, ed, ex]
  field_simp
  ring

theorem isoE_value {x q a : ℝ} (hq : 0 < q) (hq1 : q ≤ 1) (ha : 0 < a) (h1 : a / (1 + q) < x) (h2 : x < a) :
    isoE dilog x q a = isoDensity x q a := by
  have hp : 0 < 1 + q := by linarith
  have hx : 0 < x := lt_trans (by positivity) h1
  rw [div_lt_iff₀ hp] at h1
  obtain ⟨u, hu⟩ : ∃ u, u = (1 + q) * x := ⟨_, rfl⟩
  have hup : 0 < u := by rw [hu]; positivity
  have hb : 0 < q * a := by positivity
  have hba : q * a ≤ a := by nlinarith
  have h1' : a < u := by rw [hu]; nlinarith
  have h2' : u < a + q * a := by rw [hu]; nlinarith
  unfold isoE isoDensity
  rw [← hu, (conv_eq ha hb hba hup (by linarith)).2, max_eq_right (by linarith)]
  have ex : 2 * (1 + q) * (a - x) = 2 * (a + q * a - u) := by rw [hu]; ring
  have ex2 : 2 * (1 + q) * x = 2 * u := by rw [hu]; ring
  have p1 : 0 < u - a := by linarith
  have p2 : 0 < u - q * a := by linarith
  have ed : (u - a) / u = 1 - a / u := by field_simp
  unfold lcF lcW
  have l1 : Real.log (q * a / (q * a)) = 0 := by rw [div_self hb.ne']; exact Real.log_one
  have l2 : Real.log ((u - a) / (q * a)) = Real.log (u - a) - (Real.log q + Real.log a) := by
    rw [← Real.log_mul hq.ne' ha.ne', ← Real.log_div p1.ne' hb.ne']
  have l3 : Real.log ((q * a - u) / a) = Real.log (u - q * a) - Real.log a := by
    rw [← Real.log_neg_eq_log, ← Real.log_div p2.ne' ha.ne']; congr 1; ring
  have l4 : Real.log ((u - a - u) / a) = 0 := by
    rw [← Real.log_neg_eq_log, show -((u - a - u) / a) = 1 by field_simp; ring]; exact Real.log_one
  have l5 : Real.log ((0 - u) / a) = Real.log u - Real.log a := by
    rw [← Real.log_neg_eq_log, ← Real.log_div hup.ne' ha.ne']; congr 1; ring
  have l6 : Real.log (q / (u - a)) = Real.log q - Real.log (u - a) := Real.log_div hq.ne' p1.ne'
  have l7 : Real.log ((u - a) / q) = Real.log (u - a) - Real.log q := Real.log_div p1.ne' hq.ne'
  have l8 : Real.log ((u - a) * (u - q * a) / q) = Real.log (u - a) + Real.log (u - q * a) - Real.log q := by
    rw [Real.log_div (by positivity) hq.ne', Real.log_mul p1.ne' p2.ne']
  have l9 : Real.log (q * a / (u - a)) = Real.log q + Real.log a - Real.log (u - a) := by
    rw [Real.log_div hb.ne' p1.ne', Real.log_mul hq.ne' ha.ne']
  have l10 : Real.log ((u - q * a) / a) = Real.log (u - q * a) - Real.log a := Real.log_div p2.ne' ha.ne'
  rw [l1, l2, l3, l4, l5, l6, l7, l8, l9, l10, ex, ex2, ed]
  field_simp
  ring

/-! ### At zero -/

theorem log_sq_integral {b c : ℝ} (hb : 0 < b) (hbc : b ≤ c) :
    IntervalIntegrable (fun t => Real.log (t / b) * Real.log (t / c)) volume 0 b ∧
      ∫ t in (0 : ℝ)..b, Real.log (t / b) * Real.log (t / c) = b * (2 - Real.log (b / c)) := by
  have hc : 0 < c := hb.trans_le hbc
  have hcont : Continuous fun t : ℝ => 4 * b * (√(t / b) * Real.log √(t / b)) ^ 2 := by
    have h1 : Continuous fun t : ℝ => √(t / b) := by fun_prop
    exact ((Real.continuous_mul_log.comp h1).pow 2).const_mul _
  have hsq : ∀ t ∈ Icc (0 : ℝ) b, t * Real.log (t / b) ^ 2 = 4 * b * (√(t / b) * Real.log √(t / b)) ^ 2 := by
    intro t ht
    have h0 : 0 ≤ t / b := div_nonneg ht.1 hb.le
    rw [Real.log_sqrt h0, mul_pow, Real.sq_sqrt h0]
    field_simp
    ring
  have hlin : Continuous fun t : ℝ => t * Real.log (t / b) := by
    have e : (fun t : ℝ => t * Real.log (t / b)) = fun t => b * (t / b * Real.log (t / b)) := by
      funext t; field_simp
    rw [e]
    have h2 : Continuous fun t : ℝ => t / b := by fun_prop
    exact (Real.continuous_mul_log.comp h2).const_mul b
  obtain ⟨k, hk⟩ : ∃ k, k = Real.log (b / c) := ⟨_, rfl⟩
  have hG : ContinuousOn (fun t : ℝ => t * Real.log (t / b) ^ 2 + (k - 2) * (t * Real.log (t / b)) + (2 - k) * t) (Icc 0 b) := by
    refine ContinuousOn.add (ContinuousOn.add ?_ (hlin.const_mul _).continuousOn) (by fun_prop)
    exact hcont.continuousOn.congr hsq
  have hd : ∀ t ∈ Ioo (0 : ℝ) b,
      HasDerivAt (fun t : ℝ => t * Real.log (t / b) ^ 2 + (k - 2) * (t * Real.log (t / b)) + (2 - k) * t)
        (Real.log (t / b) * (Real.log (t / b) + k)) t := by
    intro t ht
    have h1 : HasDerivAt (fun t : ℝ => t / b) (1 / b) t := (hasDerivAt_id t).div_const b
    have h2 := h1.log (div_ne_zero ht.1.ne' hb.ne')
    have h3 := (((hasDerivAt_id t).mul (h2.pow 2)).add (((hasDerivAt_id t).mul h2).const_mul (k - 2))).add
      ((hasDerivAt_id t).const_mul (2 - k))
    refine h3.congr_deriv ?_
    have := ht.1.ne'
    simp only [id, Pi.pow_apply]
    field_simp
    ring
  have e : ∀ t ∈ Ioo (0 : ℝ) b, Real.log (t / b) * Real.log (t / c) = Real.log (t / b) * (Real.log (t / b) + k) := by
    intro t ht
    rw [hk, ← Real.log_mul (div_ne_zero ht.1.ne' hb.ne') (div_ne_zero hb.ne' hc.ne')]
    congr 2; field_simp
  have hd' : ∀ t ∈ Ioo (0 : ℝ) b,
      HasDerivAt (fun t : ℝ => t * Real.log (t / b) ^ 2 + (k - 2) * (t * Real.log (t / b)) + (2 - k) * t)
        (Real.log (t / b) * Real.log (t / c)) t := fun t ht => by rw [e t ht]; exact hd t ht
  have hn : ∀ t ∈ Ioo (0 : ℝ) b, 0 ≤ Real.log (t / b) * Real.log (t / c) := by
    intro t ht
    have key : ∀ d : ℝ, 0 < d → t ≤ d → Real.log (t / d) ≤ 0 := fun d hd htd =>
      Real.log_nonpos (div_nonneg ht.1.le hd.le) (by rw [div_le_one hd]; exact htd)
    exact mul_nonneg_of_nonpos_of_nonpos (key b hb ht.2.le) (key c hc (ht.2.le.trans hbc))
  have hi : IntervalIntegrable (fun t => Real.log (t / b) * Real.log (t / c)) volume 0 b := by
    rw [intervalIntegrable_iff_integrableOn_Ioc_of_le hb.le]
    exact intervalIntegral.integrableOn_deriv_of_nonneg hG hd' hn
  refine ⟨hi, ?_⟩
  rw [intervalIntegral.integral_eq_sub_of_hasDerivAt_of_le hb.le hG hd' hi, hk, div_self hb.ne', Real.log_one]
  ring

theorem isoZ_value {q a : ℝ} (hq : 0 < q) (hq1 : q ≤ 1) (ha : 0 < a) : isoZ q a = isoDensity 0 q a := by
  have hb : 0 < q * a := by positivity
  have hba : q * a ≤ a := by nlinarith
  obtain ⟨hi, hv⟩ := log_sq_integral hb hba
  have hev : ∀ t : ℝ, Real.log (t / (q * a)) * Real.log ((0 - t) / a) = Real.log (t / (q * a)) * Real.log (t / a) := by
    intro t; rw [zero_sub, neg_div, Real.log_neg_eq_log]
  have hev2 : ∀ t : ℝ, Real.log (-t / (q * a)) * Real.log (-t / a) = Real.log (t / (q * a)) * Real.log (t / a) := by
    intro t; rw [neg_div, neg_div, Real.log_neg_eq_log, Real.log_neg_eq_log]
  have hi2 : IntervalIntegrable (fun t => Real.log (t / (q * a)) * Real.log (t / a)) volume (-(q * a)) 0 := by
    have := hi.symm.comp_sub_left 0
    simpa [hev2] using this
  have hv2 : ∫ t in (-(q * a))..0, Real.log (t / (q * a)) * Real.log (t / a) = q * a * (2 - Real.log (q * a / a)) := by
    have := intervalIntegral.integral_comp_neg (fun t => Real.log (t / (q * a)) * Real.log (t / a)) (a := 0) (b := q * a)
    simp only [hev2, neg_zero] at this
    rw [← this, hv]
  unfold isoZ isoDensity
  rw [mul_zero, ← integral_sub_left_eq_self (fun s => zDensity a s * zDensity (q * a) (0 - s)) volume 0]
  have e : ∀ t : ℝ, zDensity a (0 - t) * zDensity (q * a) (0 - (0 - t)) = zDensity a (0 - t) * zDensity (q * a) t := by
    intro t; congr 2; ring
  simp only [e, conv_indicator ha hb hba le_rfl]
  rw [max_eq_left (by linarith), integral_indicator measurableSet_Ioo, integral_const_mul, ← integral_Ioc_eq_integral_Ioo,
    ← intervalIntegral.integral_of_le (by linarith)]
  simp only [hev]
  rw [← intervalIntegral.integral_add_adjacent_intervals hi2 hi, hv, hv2, mul_div_cancel_right₀ _ ha.ne']
  field_simp
  ring

/-! ### Symmetry and support -/

theorem zDensity_even (a s : ℝ) : zDensity a (-s) = zDensity a s := by unfold zDensity; rw [abs_neg]

theorem zDensity_nonneg {a : ℝ} (ha : 0 < a) (s : ℝ) : 0 ≤ zDensity a s := by
  unfold zDensity
  split_ifs with h
  · rcases eq_or_ne s 0 with h0 | h0
    · simp [h0]
    · have := abs_pos.2 h0
      exact div_nonneg (Real.log_nonneg (by rw [le_div_iff₀ this]; linarith)) (by linarith)
  · exact le_rfl

theorem zDensity_measurable (a : ℝ) : Measurable (zDensity a) := by
  unfold zDensity
  refine Measurable.ite ?_ (by fun_prop) measurable_const
  exact measurableSet_lt (by fun_prop) measurable_const

theorem conv_neg (a b u : ℝ) (s : ℝ) : zDensity a (-s) * zDensity b (-u - -s) = zDensity a s * zDensity b (u - s) := by
  rw [zDensity_even, ← zDensity_even b (-u - -s)]; congr 2; ring

theorem isoDensity_even (χ q a : ℝ) : isoDensity (-χ) q a = isoDensity χ q a := by
  unfold isoDensity
  rw [← integral_neg_eq_self (fun s => zDensity a s * zDensity (q * a) ((1 + q) * -χ - s)) volume, mul_neg]
  simp only [conv_neg]

theorem isoDensity_abs (χ q a : ℝ) : isoDensity |χ| q a = isoDensity χ q a := by
  rcases abs_choice χ with h | h
  · rw [h]
  · rw [h, isoDensity_even]

theorem conv_outside {a b u : ℝ} (hu : a + b ≤ u) (s : ℝ) : zDensity a s * zDensity b (u - s) = 0 := by
  unfold zDensity
  by_cases h : |s| < a
  · rw [if_neg (c := |u - s| < b), mul_zero]
    intro h2
    rw [abs_lt] at h h2
    linarith [h.2, h2.2]
  · rw [if_neg h, zero_mul]

theorem conv_integrable_pos {a b u : ℝ} (ha : 0 < a) (hb : 0 < b) (hba : b ≤ a) (hu : 0 < u) :
    Integrable (fun s => zDensity a s * zDensity b (u - s)) := by
  rcases lt_or_ge u (a + b) with h | h
  · exact (conv_eq ha hb hba hu h).1
  · simp only [conv_outside h]; exact integrable_zero _ _ _

theorem conv_integrable {a b u : ℝ} (ha : 0 < a) (hb : 0 < b) (hba : b ≤ a) (hu : u ≠ 0) :
    Integrable (fun s => zDensity a s * zDensity b (u - s)) := by
  rcases lt_or_gt_of_ne hu with h | h
  · have := (conv_integrable_pos ha hb hba (neg_pos.2 h)).comp_neg
    refine this.congr (Filter.Eventually.of_forall fun s => ?_)
    have := conv_neg a b u s
    simpa using this
  · exact conv_integrable_pos ha hb hba h

theorem isoSelect_value {x q a : ℝ} (hq : 0 < q) (hq1 : q ≤ 1) (ha : 0 < a) (hx : 0 ≤ x)
    (hb : x ∉ [a * (1 - q) / (1 + q), a / (1 + q), q * a / (1 + q)]) :
    isoSelect dilog x q a = some (F.fin (isoDensity x q a)) := by
  have h1 : 0 < 1 + q := by linarith
  have hn : isoSelect dilog x q a ≠ none := fun h => hb (by simpa using isoSelect_none dilog hq hq1 ha hx h)
  unfold isoSelect at hn ⊢
  simp only [] at hn ⊢
  split_ifs at hn ⊢ with hZ hA hB hC hD hE hF
  · rw [hZ, isoZ_value hq hq1 ha]
  · rw [isoA_value hq hq1 ha hA.1 hA.2.1 hA.2.2]
  · rw [isoB_value hq hq1 ha hB.1 hB.2]
  · rw [isoC_value hq hq1 ha hC.1 hC.2]
  · have h3 : q * a / (1 + q) < x := lt_of_le_of_ne hD.2.2 (fun h => hb (by simp [← h]))
    rw [isoD_eq dilog hq ha, isoD_value hq hq1 ha hD.1 hD.2.1 h3]
    · rw [div_lt_iff₀ h1] at h3; linarith
    · have := hD.2.1; rw [lt_div_iff₀ h1] at this; linarith
  · rw [isoE_value hq hq1 ha hE.2.1 hE.2.2]
  · unfold isoDensity
    have : a + q * a ≤ (1 + q) * x := by nlinarith
    simp only [conv_outside this, integral_zero, mul_zero]
  · exact absurd rfl hn

/-! ## The law of the effective spin -/

theorem lawLog_eq {a : ℝ} (ha : 0 < a) (s : ℝ) : (if |s| < a then ENNReal.ofReal (Real.log (a / |s|)) else 0) =
    ENNReal.ofReal (2 * a * zDensity a s) := by
  unfold zDensity
  split_ifs
  · congr 1; field_simp
  · simp

theorem lawLog_scale {a q : ℝ} (hq : 0 < q) (t : ℝ) :
    zDensity a (1 / q * t) = q * zDensity (q * a) t := by
  unfold zDensity
  have e : |1 / q * t| = |t| / q := by rw [abs_mul, abs_of_pos (one_div_pos.2 hq)]; ring
  have e2 : |t| / q < a ↔ |t| < q * a := by rw [div_lt_iff₀ hq, mul_comm]
  rw [e]
  by_cases h : |t| < q * a
  · rw [if_pos h, if_pos (e2.2 h)]
    have : a / (|t| / q) = q * a / |t| := by rw [div_div_eq_mul_div, mul_comm]
    rw [this]
    rcases eq_or_ne a 0 with h0 | h0
    · simp [h0]
    · field_simp
  · rw [if_neg h, if_neg (fun h' => h (e2.1 h')), mul_zero]

theorem iso_law {q a : ℝ} (hq : 0 < q) (hq1 : q ≤ 1) (ha : 0 < a) {g : ℝ → ENNReal} (hg : Measurable g) :
    ∫⁻ a₁ in Ioo 0 a, ∫⁻ c₁ in Ioo (-1) 1, ∫⁻ a₂ in Ioo 0 a, ∫⁻ c₂ in Ioo (-1) 1, g ((a₁ * c₁ + q * (a₂ * c₂)) / (1 + q)) =
      ENNReal.ofReal (4 * a ^ 2) * ∫⁻ x, ENNReal.ofReal (isoDensity x q a) * g x := by
  have hp : 0 < 1 + q := by linarith
  have hb : 0 < q * a := by positivity
  have hba : q * a ≤ a := by nlinarith
  have mz := zDensity_measurable
  have mza := mz a
  have mzb := mz (q * a)
  have e1 : ∀ s, ∫⁻ a₂ in Ioo 0 a, ∫⁻ c₂ in Ioo (-1) 1, g ((s + q * (a₂ * c₂)) / (1 + q)) =
      ∫⁻ t, ENNReal.ofReal (2 * a * zDensity (q * a) t) * g ((s + t) / (1 + q)) := by
    intro s
    have := lintegral_product (a := a) (g := fun t => g ((s + q * t) / (1 + q))) (by fun_prop)
    rw [this]
    simp only [lawLog_eq ha]
    rw [lintegral_scale (one_div_pos.2 hq).ne' (by fun_prop), abs_of_pos (one_div_pos.2 hq),
      ← lintegral_const_mul _ (by fun_prop)]
    refine lintegral_congr fun t => ?_
    rw [lawLog_scale hq, ← mul_assoc, ← ENNReal.ofReal_mul (one_div_pos.2 hq).le]
    congr 2
    · field_simp
    · field_simp
  simp only [e1]
  have e2 := lintegral_product (a := a) (g := fun s => ∫⁻ t, ENNReal.ofReal (2 * a * zDensity (q * a) t) * g ((s + t) / (1 + q)))
    (by
      refine Measurable.lintegral_prod_right' (f := fun p : ℝ × ℝ => ENNReal.ofReal (2 * a * zDensity (q * a) p.2) * g ((p.1 + p.2) / (1 + q))) ?_
      fun_prop)
  rw [e2]
  simp only [lawLog_eq ha]
  rw [lintegral_sum hp (by fun_prop) (by fun_prop) hg, ← lintegral_const_mul' _ _ ENNReal.ofReal_ne_top]
  refine lintegral_congr_ae ?_
  filter_upwards [compl_mem_ae_iff.2 (measure_singleton (0 : ℝ))] with x hx
  rw [← mul_assoc]
  congr 1
  have hx0 : (1 + q) * x ≠ 0 := mul_ne_zero hp.ne' hx
  have hI := conv_integrable ha hb hba hx0
  unfold isoDensity
  rw [← ENNReal.ofReal_mul (by positivity)]
  have e3 : ∀ s, ENNReal.ofReal (2 * a * zDensity a s) * ENNReal.ofReal (2 * a * zDensity (q * a) ((1 + q) * x - s)) =
      ENNReal.ofReal (4 * a ^ 2) * ENNReal.ofReal (zDensity a s * zDensity (q * a) ((1 + q) * x - s)) := by
    intro s
    have n1 := zDensity_nonneg ha s
    rw [← ENNReal.ofReal_mul (by positivity), ← ENNReal.ofReal_mul (by positivity)]
    congr 1; ring
  simp only [e3]
  rw [lintegral_const_mul' _ _ ENNReal.ofReal_ne_top, ← ofReal_integral_eq_lintegral_ofReal hI, ← ENNReal.ofReal_mul (by positivity),
    ← ENNReal.ofReal_mul (by positivity)]
  · congr 1; ring
  · exact Filter.Eventually.of_forall fun s => mul_nonneg (zDensity_nonneg ha _) (zDensity_nonneg hb _)

/-! ## C93 -/

/-- **C93.** At every `χ_eff` other than the three break points the value returned is exactly the density of the effective spin of
two independent isotropic spins with uniform magnitudes. -/
theorem C93_density (depth : ℕ) {χ q a : ℝ} (hq : 0 < q) (hq1 : q ≤ 1) (ha : 0 < a)
    (hb : |χ| ∉ [a * (1 - q) / (1 + q), a / (1 + q), q * a / (1 + q)]) :
    isotropicPrior dilog (depth + 1) χ q a = .ok (F.fin (isoDensity χ q a)) := by
  simp only [isotropicPrior, isoSelect_value hq hq1 ha (abs_nonneg χ) hb, isoDensity_abs]

theorem breaks_ae (q a : ℝ) : ∀ᵐ χ : ℝ, |χ| ∉ [a * (1 - q) / (1 + q), a / (1 + q), q * a / (1 + q)] := by
  have hc : ({a * (1 - q) / (1 + q), -(a * (1 - q) / (1 + q)), a / (1 + q), -(a / (1 + q)), q * a / (1 + q),
      -(q * a / (1 + q))} : Set ℝ).Finite := by simp
  filter_upwards [compl_mem_ae_iff.2 (hc.measure_zero volume)] with χ hχ h
  apply hχ
  simp only [List.mem_cons, List.not_mem_nil, or_false] at h
  simp only [mem_insert_iff, mem_singleton_iff]
  rcases abs_choice χ with e | e
  · rw [e] at h; tauto
  · rw [e] at h
    rcases h with h | h | h
    · right; left; linarith
    · right; right; right; left; linarith
    · right; right; right; right; right; linarith

/-- **C93.** The values the function returns are the right prior: for every measurable `f ≥ 0`, averaging `f(χ_eff)` over the spin
magnitudes `a₁, a₂ ∈ (0, a)` and tilts `c₁, c₂ ∈ (-1, 1)`, all uniform, equals integrating `f` against the returned values `p`. -/
theorem C93_expectation (depth : ℕ) {q a : ℝ} (hq : 0 < q) (hq1 : q ≤ 1) (ha : 0 < a) (p : ℝ → ℝ)
    (hp : ∀ χ v, isotropicPrior dilog (depth + 1) χ q a = .ok (F.fin v) → p χ = v) {f : ℝ → ENNReal} (hf : Measurable f) :
    ∫⁻ a₁ in Ioo 0 a, ∫⁻ c₁ in Ioo (-1) 1, ∫⁻ a₂ in Ioo 0 a, ∫⁻ c₂ in Ioo (-1) 1, f ((a₁ * c₁ + q * (a₂ * c₂)) / (1 + q)) =
      ENNReal.ofReal (4 * a ^ 2) * ∫⁻ χ, ENNReal.ofReal (p χ) * f χ := by
  rw [iso_law hq hq1 ha hf]
  congr 1
  refine lintegral_congr_ae ?_
  filter_upwards [breaks_ae q a] with χ hχ
  rw [hp χ _ (C93_density depth hq hq1 ha hχ)]

theorem isoDensity_measurable (q a : ℝ) : Measurable fun χ => isoDensity χ q a := by
  have mza := zDensity_measurable a
  have mzb := zDensity_measurable (q * a)
  have h : StronglyMeasurable fun p : ℝ × ℝ => zDensity a p.2 * zDensity (q * a) ((1 + q) * p.1 - p.2) := by
    refine Measurable.stronglyMeasurable ?_
    fun_prop
  exact (StronglyMeasurable.integral_prod_right (f := fun x s => zDensity a s * zDensity (q * a) ((1 + q) * x - s)) h).measurable.const_mul _

/-- **C93.** The returned values integrate to one. -/
theorem C93_normalised (depth : ℕ) {q a : ℝ} (hq : 0 < q) (hq1 : q ≤ 1) (ha : 0 < a) (p : ℝ → ℝ)
    (hp : ∀ χ v, isotropicPrior dilog (depth + 1) χ q a = .ok (F.fin v) → p χ = v) : ∫ χ, p χ = 1 := by
  have hae : p =ᵐ[volume] fun χ => isoDensity χ q a := by
    filter_upwards [breaks_ae q a] with χ hχ
    exact hp χ _ (C93_density depth hq hq1 ha hχ)
  have hn : ∀ χ, 0 ≤ isoDensity χ q a := fun χ =>
    mul_nonneg (by linarith) (integral_nonneg fun s => mul_nonneg (zDensity_nonneg ha _) (zDensity_nonneg (by positivity) _))
  rw [integral_congr_ae hae, integral_eq_lintegral_of_nonneg_ae (Filter.Eventually.of_forall hn)
    (isoDensity_measurable q a).aestronglyMeasurable]
  have h := iso_law hq hq1 ha (g := fun _ => 1) measurable_const
  simp only [mul_one, lintegral_const, Measure.restrict_apply MeasurableSet.univ, univ_inter, Real.volume_Ioo, one_mul, sub_zero] at h
  have h4 : ENNReal.ofReal (1 - -1) * ENNReal.ofReal a * ENNReal.ofReal (1 - -1) * ENNReal.ofReal a = ENNReal.ofReal (4 * a ^ 2) := by
    rw [← ENNReal.ofReal_mul (by norm_num), ← ENNReal.ofReal_mul (by positivity), ← ENNReal.ofReal_mul (by positivity)]
    congr 1; ring
  rw [h4] at h
  have hne : ENNReal.ofReal (4 * a ^ 2) ≠ 0 := by rw [Ne, ENNReal.ofReal_eq_zero, not_le]; positivity
  have : ∫⁻ χ, ENNReal.ofReal (isoDensity χ q a) = 1 := by
    have h5 := h.symm
    rw [ENNReal.mul_eq_left hne ENNReal.ofReal_ne_top] at h5
    exact h5
  rw [this]; rfl

/-- The hypothesis of the three theorems is met: the specified density records the returned values. -/
example : isotropicPrior dilog 1 0.3 0.5 1 = .ok (F.fin (isoDensity 0.3 0.5 1)) :=
  C93_density 0 (by norm_num) (by norm_num) one_pos (by rw [abs_of_pos (by norm_num)]; norm_num)

example (p : ℝ → ℝ) (hp : ∀ χ v, isotropicPrior dilog 1 χ 0.5 1 = .ok (F.fin v) → p χ = v) : ∫ χ, p χ = 1 :=
  C93_normalised 0 (by norm_num) (by norm_num) one_pos p hp

/-! ## C60: the aligned prior as a law -/

/-- **C60.** For every measurable `f ≥ 0`, averaging `f(χ_eff)` over aligned spins `s₁, s₂ ∈ (-a, a)`, both uniform, equals integrating `f`
against the returned density. -/
theorem C60_expectation {q a : ℝ} (hq : 0 < q) (hq1 : q ≤ 1) (ha : 0 < a) {f : ℝ → ENNReal} (hf : Measurable f) :
    ∫⁻ s₁ in Ioo (-a) a, ∫⁻ s₂ in Ioo (-a) a, f ((s₁ + q * s₂) / (1 + q)) =
      ENNReal.ofReal (4 * a ^ 2) * ∫⁻ χ, ENNReal.ofReal (alignedPrior χ q a) * f χ := by
  have hk : 0 < 1 + q := by linarith
  have m1 : Measurable ((Ioo (-a) a).indicator (1 : ℝ → ENNReal)) := measurable_one.indicator measurableSet_Ioo
  have m2 : Measurable ((Ioo (-(q * a)) (q * a)).indicator (1 : ℝ → ENNReal)) := measurable_one.indicator measurableSet_Ioo
  have e1 : ∀ s₁, ∫⁻ s₂ in Ioo (-a) a, f ((s₁ + q * s₂) / (1 + q)) =
      ENNReal.ofReal (1 / q) * ∫⁻ t, (Ioo (-(q * a)) (q * a)).indicator (1 : ℝ → ENNReal) t * f ((s₁ + t) / (1 + q)) := by
    intro s₁
    rw [lintegral_scale hq.ne' (h := fun t => (Ioo (-(q * a)) (q * a)).indicator (1 : ℝ → ENNReal) t * f ((s₁ + t) / (1 + q))) (by fun_prop),
      ← mul_assoc, ← ENNReal.ofReal_mul (by positivity), abs_of_pos hq, one_div_mul_cancel hq.ne', ENNReal.ofReal_one, one_mul,
      ← lintegral_indicator measurableSet_Ioo]
    refine lintegral_congr fun s => ?_
    have e : s ∈ Ioo (-a) a ↔ q * s ∈ Ioo (-(q * a)) (q * a) := by
      simp only [mem_Ioo]
      constructor
      · intro h; constructor <;> nlinarith
      · intro h; constructor <;> nlinarith
    by_cases h : s ∈ Ioo (-a) a
    · rw [indicator_of_mem h, indicator_of_mem (e.1 h), Pi.one_apply, one_mul]
    · rw [indicator_of_notMem h, indicator_of_notMem (fun h' => h (e.2 h')), zero_mul]
  have e2 : ∫⁻ s₁ in Ioo (-a) a, ∫⁻ s₂ in Ioo (-a) a, f ((s₁ + q * s₂) / (1 + q)) =
      ENNReal.ofReal (1 / q) * ∫⁻ s, (Ioo (-a) a).indicator (1 : ℝ → ENNReal) s *
        ∫⁻ t, (Ioo (-(q * a)) (q * a)).indicator (1 : ℝ → ENNReal) t * f ((s + t) / (1 + q)) := by
    simp only [e1]
    rw [lintegral_const_mul' _ _ ENNReal.ofReal_ne_top, ← lintegral_indicator measurableSet_Ioo]
    congr 1
    refine lintegral_congr fun s => ?_
    by_cases h : s ∈ Ioo (-a) a
    · rw [indicator_of_mem h, indicator_of_mem h, Pi.one_apply, one_mul]
    · rw [indicator_of_notMem h, indicator_of_notMem h, zero_mul]
  rw [e2, lintegral_sum hk m1 m2 hf, ← lintegral_const_mul' _ _ ENNReal.ofReal_ne_top, ← lintegral_const_mul' _ _ ENNReal.ofReal_ne_top]
  refine lintegral_congr fun χ => ?_
  rw [← mul_assoc, ← mul_assoc, ← mul_assoc, ← ENNReal.ofReal_mul (by positivity), ← ENNReal.ofReal_mul (by positivity)]
  congr 1
  have hset : ∀ s, (Ioo (-a) a).indicator (1 : ℝ → ENNReal) s * (Ioo (-(q * a)) (q * a)).indicator (1 : ℝ → ENNReal) ((1 + q) * χ - s) =
      (Ioo (max (-a) ((1 + q) * χ - q * a)) (min a ((1 + q) * χ + q * a))).indicator (1 : ℝ → ENNReal) s := by
    intro s
    have e : s ∈ Ioo (max (-a) ((1 + q) * χ - q * a)) (min a ((1 + q) * χ + q * a)) ↔
        s ∈ Ioo (-a) a ∧ (1 + q) * χ - s ∈ Ioo (-(q * a)) (q * a) := by
      simp only [mem_Ioo, max_lt_iff, lt_min_iff]
      constructor
      · rintro ⟨⟨h1, h2⟩, h3, h4⟩; exact ⟨⟨h1, h3⟩, by linarith, by linarith⟩
      · rintro ⟨⟨h1, h2⟩, h3, h4⟩; exact ⟨⟨h1, by linarith⟩, h2, by linarith⟩
    by_cases h1 : s ∈ Ioo (-a) a
    · by_cases h2 : (1 + q) * χ - s ∈ Ioo (-(q * a)) (q * a)
      · rw [indicator_of_mem h1, indicator_of_mem h2, indicator_of_mem (e.2 ⟨h1, h2⟩)]; simp
      · rw [indicator_of_notMem h2, mul_zero, indicator_of_notMem fun h => h2 (e.1 h).2]
    · rw [indicator_of_notMem h1, zero_mul, indicator_of_notMem fun h => h1 (e.1 h).1]
  simp only [hset]
  rw [lintegral_indicator_one measurableSet_Ioo, Real.volume_Ioo, aligned_cases hq hq1 ha, overlap]
  have hov : ∀ d : ℝ, ENNReal.ofReal d = ENNReal.ofReal (max 0 d) := fun d => by
    rcases le_total 0 d with h | h
    · rw [max_eq_right h]
    · rw [max_eq_left h, ENNReal.ofReal_zero, ENNReal.ofReal_of_nonpos h]
  rw [hov (min a ((1 + q) * χ + q * a) - max (-a) ((1 + q) * χ - q * a)), ← ENNReal.ofReal_mul (by positivity)]
  congr 1
  field_simp

/-- the hypotheses are met -/
example : ∫⁻ s₁ in Ioo (-1 : ℝ) 1, ∫⁻ s₂ in Ioo (-1 : ℝ) 1, ENNReal.ofReal |(s₁ + 0.5 * s₂) / (1 + 0.5)| =
    ENNReal.ofReal (4 * 1 ^ 2) * ∫⁻ χ, ENNReal.ofReal (alignedPrior χ 0.5 1) * ENNReal.ofReal |χ| :=
  C60_expectation (by norm_num) (by norm_num) one_pos (f := fun χ => ENNReal.ofReal |χ|) (by fun_prop)

end GW
