import Mathlib.MeasureTheory.Measure.Lebesgue.Basic
import Mathlib.MeasureTheory.Measure.Prod
import Mathlib.MeasureTheory.Group.LIntegral
import Mathlib.MeasureTheory.Integral.IntervalIntegral.FundThmCalculus
import Mathlib.Analysis.SpecialFunctions.Integrals.Basic

/-! # Distribution of products and weighted sums, by Tonelli -/

open MeasureTheory Set
noncomputable section
namespace GW

theorem lintegral_scale {c : ℝ} (hc : c ≠ 0) {h : ℝ → ENNReal} (hm : Measurable h) :
    ∫⁻ x, h x = ENNReal.ofReal |c| * ∫⁻ x, h (c * x) := by
  conv_lhs => rw [← Real.smul_map_volume_mul_left hc]
  rw [lintegral_smul_measure, lintegral_map hm (by fun_prop), smul_eq_mul]

/-- `∫_{r}^{a} dm/m = log (a/r)` -/
theorem lintegral_inv {r a : ℝ} (hr : 0 < r) (hra : r < a) :
    ∫⁻ m in Ioo r a, ENNReal.ofReal (1 / m) = ENNReal.ofReal (Real.log (a / r)) := by
  have hi : IntervalIntegrable (fun m : ℝ => 1 / m) volume r a := by
    refine ContinuousOn.intervalIntegrable ?_
    refine ContinuousOn.div continuousOn_const continuousOn_id fun m hm => ?_
    rw [uIcc_of_le hra.le] at hm
    exact (hr.trans_le hm.1).ne'
  rw [← integral_one_div_of_pos hr (hr.trans hra), intervalIntegral.integral_of_le hra.le, integral_Ioc_eq_integral_Ioo,
    ofReal_integral_eq_lintegral_ofReal ((intervalIntegrable_iff_integrableOn_Ioo_of_le hra.le).1 hi)]
  refine (ae_restrict_iff' measurableSet_Ioo).2 (Filter.Eventually.of_forall fun m hm => ?_)
  exact (one_div_pos.2 (hr.trans hm.1)).le

/-- The law of `m c` for `m` uniform on `(0, a)` and `c` on `(-1, 1)`. -/
theorem lintegral_product {a : ℝ} {g : ℝ → ENNReal} (hg : Measurable g) :
    ∫⁻ m in Ioo 0 a, ∫⁻ c in Ioo (-1) 1, g (m * c) =
      ∫⁻ s, (if |s| < a then ENNReal.ofReal (Real.log (a / |s|)) else 0) * g s := by
  have inner : ∀ m ∈ Ioo (0 : ℝ) a, ∫⁻ c in Ioo (-1) 1, g (m * c) =
      ∫⁻ s, (Ioo (-m) m).indicator (fun s => ENNReal.ofReal (1 / m) * g s) s := by
    intro m hm
    have hm0 : (0 : ℝ) < m := hm.1
    have hmi : Measurable ((Ioo (-m) m).indicator (fun s => ENNReal.ofReal (1 / m) * g s)) :=
      Measurable.indicator (by fun_prop) measurableSet_Ioo
    rw [lintegral_scale hm0.ne' hmi, ← lintegral_indicator measurableSet_Ioo,
      ← lintegral_const_mul' _ _ ENNReal.ofReal_ne_top]
    refine lintegral_congr fun c => ?_
    have e : c ∈ Ioo (-1 : ℝ) 1 ↔ m * c ∈ Ioo (-m) m := by
      simp only [mem_Ioo]
      constructor
      · intro h; constructor <;> nlinarith
      · intro h; constructor <;> nlinarith
    by_cases h : c ∈ Ioo (-1 : ℝ) 1
    · rw [indicator_of_mem h, indicator_of_mem (e.1 h), ← mul_assoc, ← ENNReal.ofReal_mul (abs_nonneg m), abs_of_pos hm0,
        mul_one_div_cancel hm0.ne', ENNReal.ofReal_one, one_mul]
    · rw [indicator_of_notMem h, indicator_of_notMem (fun h' => h (e.2 h')), mul_zero]
  rw [setLIntegral_congr_fun measurableSet_Ioo inner, ← lintegral_indicator measurableSet_Ioo]
  have hS : MeasurableSet {p : ℝ × ℝ | |p.2| < p.1 ∧ p.1 < a} := by
    have m1 : Measurable fun p : ℝ × ℝ => |p.2| := by fun_prop
    have m2 : Measurable fun p : ℝ × ℝ => p.1 := by fun_prop
    exact (measurableSet_lt m1 m2).inter (measurableSet_lt m2 measurable_const)
  have e2 : ∀ m, (Ioo (0 : ℝ) a).indicator (fun m => ∫⁻ s, (Ioo (-m) m).indicator (fun s => ENNReal.ofReal (1 / m) * g s) s) m =
      ∫⁻ s, {p : ℝ × ℝ | |p.2| < p.1 ∧ p.1 < a}.indicator (fun p => ENNReal.ofReal (1 / p.1) * g p.2) (m, s) := by
    intro m
    by_cases h : m ∈ Ioo (0 : ℝ) a
    · rw [indicator_of_mem h]
      refine lintegral_congr fun s => ?_
      by_cases h2 : s ∈ Ioo (-m) m
      · rw [indicator_of_mem h2, indicator_of_mem (show (m, s) ∈ {p : ℝ × ℝ | |p.2| < p.1 ∧ p.1 < a} from ⟨abs_lt.2 h2, h.2⟩)]
      · rw [indicator_of_notMem h2, indicator_of_notMem (fun h3 : (m, s) ∈ {p : ℝ × ℝ | |p.2| < p.1 ∧ p.1 < a} => h2 (abs_lt.1 h3.1))]
    · rw [indicator_of_notMem h]
      symm
      rw [lintegral_eq_zero_iff']
      · refine Filter.Eventually.of_forall fun s => ?_
        show {p : ℝ × ℝ | |p.2| < p.1 ∧ p.1 < a}.indicator (fun p => ENNReal.ofReal (1 / p.1) * g p.2) (m, s) = 0
        rw [indicator_of_notMem (fun h3 : (m, s) ∈ {p : ℝ × ℝ | |p.2| < p.1 ∧ p.1 < a} =>
          h ⟨(abs_nonneg s).trans_lt h3.1, h3.2⟩)]
      · refine Measurable.aemeasurable ?_
        exact (Measurable.indicator (by fun_prop) hS).comp measurable_prodMk_left
  simp only [e2]
  have hM : Measurable ({p : ℝ × ℝ | |p.2| < p.1 ∧ p.1 < a}.indicator (fun p => ENNReal.ofReal (1 / p.1) * g p.2)) :=
    Measurable.indicator (by fun_prop) hS
  rw [lintegral_lintegral_swap (f := fun m s => {p : ℝ × ℝ | |p.2| < p.1 ∧ p.1 < a}.indicator
    (fun p => ENNReal.ofReal (1 / p.1) * g p.2) (m, s)) hM.aemeasurable]
  refine lintegral_congr_ae ?_
  filter_upwards [compl_mem_ae_iff.2 (measure_singleton (0 : ℝ))] with s hs
  have hs0 : 0 < |s| := abs_pos.2 hs
  have e3 : ∀ m, {p : ℝ × ℝ | |p.2| < p.1 ∧ p.1 < a}.indicator (fun p => ENNReal.ofReal (1 / p.1) * g p.2) (m, s) =
      (Ioo |s| a).indicator (fun m => ENNReal.ofReal (1 / m)) m * g s := by
    intro m
    by_cases h : m ∈ Ioo |s| a
    · rw [indicator_of_mem h, indicator_of_mem (show (m, s) ∈ {p : ℝ × ℝ | |p.2| < p.1 ∧ p.1 < a} from h)]
    · rw [indicator_of_notMem h, indicator_of_notMem (fun h' : (m, s) ∈ {p : ℝ × ℝ | |p.2| < p.1 ∧ p.1 < a} => h h'), zero_mul]
  simp only [e3]
  rw [lintegral_mul_const _ (Measurable.indicator (by fun_prop) measurableSet_Ioo), lintegral_indicator measurableSet_Ioo]
  by_cases h : |s| < a
  · rw [lintegral_inv hs0 h, if_pos h]
  · rw [if_neg h, Ioo_eq_empty h, Measure.restrict_empty, lintegral_zero_measure]

/-- The law of `(s + t)/k` for independent `s`, `t` with densities `p₁`, `p₂`. -/
theorem lintegral_sum {k : ℝ} (hk : 0 < k) {p₁ p₂ g : ℝ → ENNReal} (h₁ : Measurable p₁) (h₂ : Measurable p₂) (hg : Measurable g) :
    ∫⁻ s, p₁ s * ∫⁻ t, p₂ t * g ((s + t) / k) = ∫⁻ x, (ENNReal.ofReal k * ∫⁻ s, p₁ s * p₂ (k * x - s)) * g x := by
  have e1 : ∀ s, ∫⁻ t, p₂ t * g ((s + t) / k) = ENNReal.ofReal k * ∫⁻ x, p₂ (k * x - s) * g x := by
    intro s
    rw [← lintegral_sub_right_eq_self (fun t => p₂ t * g ((s + t) / k)) s, lintegral_scale hk.ne' (by fun_prop), abs_of_pos hk]
    congr 1
    refine lintegral_congr fun x => ?_
    congr 2
    field_simp
    ring
  simp only [e1]
  have e2 : ∀ s, p₁ s * (ENNReal.ofReal k * ∫⁻ x, p₂ (k * x - s) * g x) =
      ∫⁻ x, ENNReal.ofReal k * (p₁ s * p₂ (k * x - s)) * g x := by
    intro s
    rw [← lintegral_const_mul _ (by fun_prop), ← lintegral_const_mul _ (by fun_prop)]
    refine lintegral_congr fun x => ?_
    ring
  simp only [e2]
  rw [lintegral_lintegral_swap (by fun_prop)]
  refine lintegral_congr fun x => ?_
  rw [lintegral_mul_const _ (by fun_prop), lintegral_const_mul _ (by fun_prop)]

end GW
