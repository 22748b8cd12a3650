import Verif.Model.Conversions
import Verif.Props.Distributions

/-!
# C58, C59, C80: parameter conversions
-/

noncomputable section
open MeasureTheory
namespace GW
open F

/-! ## C58: effective spins -/

/-- physical inputs: mass ratio in `(0, 1]`, spin magnitudes in `[0, amax]`, cosines in `[-1, 1]` -/
structure Physical (amax q a1 a2 ct1 ct2 : ℝ) : Prop where
  q : 0 < q ∧ q ≤ 1
  a1 : 0 ≤ a1 ∧ a1 ≤ amax
  a2 : 0 ≤ a2 ∧ a2 ≤ amax
  ct1 : -1 ≤ ct1 ∧ ct1 ≤ 1
  ct2 : -1 ≤ ct2 ∧ ct2 ≤ 1

theorem coef_le_one {q : ℝ} (h0 : 0 < q) (h1 : q ≤ 1) : 0 < (3 + 4 * q) / (4 + 3 * q) * q ∧ (3 + 4 * q) / (4 + 3 * q) * q ≤ q := by
  have h : (3 + 4 * q) / (4 + 3 * q) ≤ 1 := by rw [div_le_one (by linarith)]; linarith
  exact ⟨by positivity, by nlinarith⟩

theorem sqrt_one_sub {c : ℝ} : 0 ≤ √(1 - c ^ 2) ∧ √(1 - c ^ 2) ≤ 1 := by
  refine ⟨Real.sqrt_nonneg _, ?_⟩
  exact Real.sqrt_le_one.2 (by nlinarith [sq_nonneg c])

/-- **C58.** The effective spin is a mean of the two projected spins: it lies between them (hence within `amax`). -/
theorem C58_chieff_between {amax q a1 a2 ct1 ct2 : ℝ} (h : Physical amax q a1 a2 ct1 ct2) :
    min (a1 * ct1) (a2 * ct2) ≤ chieff q a1 a2 ct1 ct2 ∧ chieff q a1 a2 ct1 ct2 ≤ max (a1 * ct1) (a2 * ct2) ∧
    |chieff q a1 a2 ct1 ct2| ≤ max |a1 * ct1| |a2 * ct2| ∧ |chieff q a1 a2 ct1 ct2| ≤ amax := by
  have hq := h.q.1
  have h1 : min (a1 * ct1) (a2 * ct2) ≤ chieff q a1 a2 ct1 ct2 := by
    unfold chieff
    rw [le_div_iff₀ (by linarith)]
    have := min_le_left (a1 * ct1) (a2 * ct2)
    have := min_le_right (a1 * ct1) (a2 * ct2)
    nlinarith
  have h2 : chieff q a1 a2 ct1 ct2 ≤ max (a1 * ct1) (a2 * ct2) := by
    unfold chieff
    rw [div_le_iff₀ (by linarith)]
    have := le_max_left (a1 * ct1) (a2 * ct2)
    have := le_max_right (a1 * ct1) (a2 * ct2)
    nlinarith
  have b1 : |a1 * ct1| ≤ amax := by
    rw [abs_mul, abs_of_nonneg h.a1.1]
    have := abs_le.2 h.ct1
    nlinarith [h.a1.1, h.a1.2, abs_nonneg ct1]
  have b2 : |a2 * ct2| ≤ amax := by
    rw [abs_mul, abs_of_nonneg h.a2.1]
    have := abs_le.2 h.ct2
    nlinarith [h.a2.1, h.a2.2, abs_nonneg ct2]
  have h3 : |chieff q a1 a2 ct1 ct2| ≤ max |a1 * ct1| |a2 * ct2| := by
    rw [abs_le]
    constructor
    · refine le_trans ?_ h1
      rw [le_min_iff]
      exact ⟨by linarith [neg_abs_le (a1 * ct1), le_max_left |a1 * ct1| |a2 * ct2|],
        by linarith [neg_abs_le (a2 * ct2), le_max_right |a1 * ct1| |a2 * ct2|]⟩
    · exact h2.trans (max_le_max (le_abs_self _) (le_abs_self _))
  exact ⟨h1, h2, h3, h3.trans (max_le b1 b2)⟩

/-- **C58.** The precessing spin is in `[0, amax]`. -/
theorem C58_chip_range {amax q a1 a2 ct1 ct2 : ℝ} (h : Physical amax q a1 a2 ct1 ct2) :
    0 ≤ chip q a1 a2 ct1 ct2 ∧ chip q a1 a2 ct1 ct2 ≤ amax := by
  obtain ⟨c0, c1⟩ := coef_le_one h.q.1 h.q.2
  have s1 := sqrt_one_sub (c := ct1)
  have s2 := sqrt_one_sub (c := ct2)
  have hq := h.q.2
  refine ⟨(mul_nonneg h.a1.1 s1.1).trans (le_max_left _ _), max_le ?_ ?_⟩
  · nlinarith [h.a1.1, h.a1.2]
  · have : (3 + 4 * q) / (4 + 3 * q) * q * a2 ≤ a2 := by nlinarith [h.a2.1]
    have h0 : 0 ≤ (3 + 4 * q) / (4 + 3 * q) * q * a2 := mul_nonneg c0.le h.a2.1
    nlinarith [h.a2.2]

/-- **C58.** For equal masses, exchanging the components changes neither. -/
theorem C58_exchange (a1 a2 ct1 ct2 : ℝ) :
    chieff 1 a1 a2 ct1 ct2 = chieff 1 a2 a1 ct2 ct1 ∧ chip 1 a1 a2 ct1 ct2 = chip 1 a2 a1 ct2 ct1 := by
  constructor
  · unfold chieff; ring
  · unfold chip
    have : (3 + 4 * (1 : ℝ)) / (4 + 3 * 1) = 1 := by norm_num
    simp only [this, one_mul]; rw [max_comm]

/-- **C58.** Flipping both tilts negates the effective spin and leaves the precessing spin unchanged; aligned spins do not
precess, and without spins both vanish. -/
theorem C58_special (q a1 a2 ct1 ct2 : ℝ) :
    chieff q a1 a2 (-ct1) (-ct2) = -chieff q a1 a2 ct1 ct2 ∧ chip q a1 a2 (-ct1) (-ct2) = chip q a1 a2 ct1 ct2 ∧
    chip q a1 a2 1 1 = 0 ∧ (0 < 1 + q → chieff q a1 a1 1 1 = a1) ∧ chieff q 0 0 ct1 ct2 = 0 ∧ chip q 0 0 ct1 ct2 = 0 := by
  refine ⟨by unfold chieff; ring, by unfold chip; simp, by unfold chip; simp, ?_, by unfold chieff; simp, by unfold chip; simp⟩
  intro h
  unfold chieff; field_simp

example : Physical 1 0.8 0.7 0.3 (-0.2) 0.9 := by constructor <;> norm_num

/-! ## C59: Beta parameters -/

/-- **C59.** From shapes to moments and back. -/
theorem C59_shapes_roundtrip {α β xmax : ℝ} (hα : 0 < α) (hβ : 0 < β) (hx : 0 < xmax) :
    let mv := muVar α β xmax
    alphaBeta mv.1 mv.2 xmax = (α, β) ∧ 0 < mv.1 ∧ mv.1 < xmax ∧ 0 < mv.2 ∧ mv.2 < mv.1 * (xmax - mv.1) := by
  intro mv
  have hs : 0 < α + β := by linarith
  have e1 : mv.1 = α / (α + β) * xmax := rfl
  have e2 : mv.2 = α * β / ((α + β) ^ 2 * (α + β + 1)) * xmax ^ 2 := rfl
  have hlt : α / (α + β) < 1 := by rw [div_lt_one hs]; linarith
  refine ⟨?_, by rw [e1]; positivity, by rw [e1]; nlinarith, by rw [e2]; positivity, ?_⟩
  · unfold alphaBeta
    have m : mv.1 / xmax = α / (α + β) := by rw [e1]; field_simp
    have v : mv.2 / xmax ^ 2 = α * β / ((α + β) ^ 2 * (α + β + 1)) := by rw [e2]; field_simp
    simp only [m, v]
    refine Prod.ext ?_ ?_
    · show (_ : ℝ) = α
      field_simp; ring
    · show (_ : ℝ) = β
      field_simp; ring
  · have : mv.1 * (xmax - mv.1) = α * β / (α + β) ^ 2 * xmax ^ 2 := by rw [e1]; field_simp; ring
    rw [this, e2]
    refine mul_lt_mul_of_pos_right ?_ (by positivity)
    refine div_lt_div_of_pos_left (by positivity) (by positivity) ?_
    have : 0 < (α + β) ^ 2 := by positivity
    nlinarith

/-- **C59.** From admissible moments to (positive) shapes and back. -/
theorem C59_moments_roundtrip {mu var xmax : ℝ} (hx : 0 < xmax) (h1 : 0 < mu) (h2 : mu < xmax) (h3 : 0 < var)
    (h4 : var < mu * (xmax - mu)) :
    let ab := alphaBeta mu var xmax
    muVar ab.1 ab.2 xmax = (mu, var) ∧ 0 < ab.1 ∧ 0 < ab.2 := by
  intro ab
  set m := mu / xmax with hm
  set v := var / xmax ^ 2 with hv
  have m0 : 0 < m := div_pos h1 hx
  have m1 : m < 1 := by rw [hm, div_lt_one hx]; exact h2
  have v0 : 0 < v := by rw [hv]; positivity
  have v1 : v < m * (1 - m) := by
    have : m * (1 - m) = mu * (xmax - mu) / xmax ^ 2 := by rw [hm]; field_simp
    rw [this, hv]; exact div_lt_div_of_pos_right h4 (by positivity)
  have ha : ab.1 = m * (m * (1 - m) - v) / v := by show (m ^ 2 * (1 - m) - m * v) / v = _; congr 1; ring
  have hb : ab.2 = (1 - m) * (m * (1 - m) - v) / v := by show (m * (1 - m) ^ 2 - (1 - m) * v) / v = _; congr 1; ring
  have w0 : 0 < m * (1 - m) - v := by linarith
  have hab : ab.1 + ab.2 = (m * (1 - m) - v) / v := by rw [ha, hb, ← add_div]; congr 1; ring
  have hab1 : ab.1 + ab.2 + 1 = m * (1 - m) / v := by rw [hab]; field_simp; ring
  have hm1 : 0 < 1 - m := by linarith
  refine ⟨?_, by rw [ha]; positivity, by rw [hb]; positivity⟩
  unfold muVar
  simp only [hab1, hab]
  refine Prod.ext ?_ ?_
  · show (_ : ℝ) = mu
    rw [ha, show m * (m * (1 - m) - v) / v / ((m * (1 - m) - v) / v) = m by field_simp, hm]; field_simp
  · show (_ : ℝ) = var
    rw [ha, hb]
    have : m * (m * (1 - m) - v) / v * ((1 - m) * (m * (1 - m) - v) / v) / (((m * (1 - m) - v) / v) ^ 2 * ((m * (1 - m) - v) / v + 1)) = v := by
      rw [show (m * (1 - m) - v) / v + 1 = m * (1 - m) / v by field_simp; ring]; field_simp
    show _ * xmax ^ 2 = var
    rw [this, hv]; field_simp

theorem beta_succ {α β : ℝ} (hα : 0 < α) (hβ : 0 < β) :
    ProbabilityTheory.beta (α + 1) β = α / (α + β) * ProbabilityTheory.beta α β := by
  unfold ProbabilityTheory.beta
  have h3 := Real.Gamma_pos_of_pos (add_pos hα hβ)
  rw [Real.Gamma_add_one hα.ne', show α + 1 + β = (α + β) + 1 by ring, Real.Gamma_add_one (add_pos hα hβ).ne']
  have := add_pos hα hβ
  field_simp

theorem mul_betaR {α β s x : ℝ} (hα : 0 < α) (hβ : 0 < β) (hs : 0 < s) (hx : 0 < x) :
    x * betaR α β s x = α / (α + β) * s * betaR (α + 1) β s x := by
  unfold betaR
  rw [beta_succ hα hβ]
  have hB := ProbabilityTheory.beta_pos hα hβ
  have hu : 0 < x / s := div_pos hx hs
  have : (x / s) ^ (α + 1 - 1) = (x / s) ^ (α - 1) * (x / s) := by
    rw [show α + 1 - 1 = (α - 1) + 1 by ring, Real.rpow_add hu, Real.rpow_one]
  rw [this]
  have := add_pos hα hβ
  field_simp

theorem integral_mul_betaR {α β s : ℝ} (hα : 0 < α) (hβ : 0 < β) (hs : 0 < s) :
    ∫ x in (0:ℝ)..s, x * betaR α β s x = α / (α + β) * s := by
  have : ∫ x in (0:ℝ)..s, x * betaR α β s x = ∫ x in (0:ℝ)..s, α / (α + β) * s * betaR (α + 1) β s x := by
    rw [intervalIntegral.integral_of_le hs.le, intervalIntegral.integral_of_le hs.le]
    exact setIntegral_congr_fun measurableSet_Ioc fun x hx => mul_betaR hα hβ hs hx.1
  rw [this, intervalIntegral.integral_const_mul, integral_betaR (by linarith) hβ hs, mul_one]

theorem integral_sq_betaR {α β s : ℝ} (hα : 0 < α) (hβ : 0 < β) (hs : 0 < s) :
    ∫ x in (0:ℝ)..s, x ^ 2 * betaR α β s x = α / (α + β) * s * ((α + 1) / (α + 1 + β) * s) := by
  have : ∫ x in (0:ℝ)..s, x ^ 2 * betaR α β s x = ∫ x in (0:ℝ)..s, α / (α + β) * s * (x * betaR (α + 1) β s x) := by
    rw [intervalIntegral.integral_of_le hs.le, intervalIntegral.integral_of_le hs.le]
    refine setIntegral_congr_fun measurableSet_Ioc fun x hx => ?_
    have := mul_betaR hα hβ hs hx.1
    show x ^ 2 * betaR α β s x = _
    rw [pow_two, mul_assoc, this]; ring
  rw [this, intervalIntegral.integral_const_mul, integral_mul_betaR (by linarith) hβ hs]

theorem betaR_integrable {α β s : ℝ} (hα : 0 < α) (hβ : 0 < β) (hs : 0 < s) :
    IntervalIntegrable (betaR α β s) volume 0 s := by
  by_contra hc
  have := integral_betaR hα hβ hs
  rw [intervalIntegral.integral_undef hc] at this
  exact zero_ne_one this

/-- **C59.** `mu_var_from_alpha_beta` returns the mean and the variance of the density that `betadist` evaluates with those
shapes and that upper end. -/
theorem C59_moments_of_betadist {α β s : ℝ} (fl : F) (hα : 0 < α) (hβ : 0 < β) (hs : 0 < s) :
    let f : ℝ → ℝ := fun x => (betadist (fin x) (fin α) (fin β) (fin s) fl).toReal
    let mv := muVar α β s
    (∫ x in (0:ℝ)..s, x * f x) = mv.1 ∧ (∫ x in (0:ℝ)..s, (x - mv.1) ^ 2 * f x) = mv.2 := by
  intro f mv
  have hf : ∀ g : ℝ → ℝ, (∫ x in (0:ℝ)..s, g x * f x) = ∫ x in (0:ℝ)..s, g x * betaR α β s x := by
    intro g
    rw [intervalIntegral.integral_of_le hs.le, intervalIntegral.integral_of_le hs.le, integral_Ioc_eq_integral_Ioo,
      integral_Ioc_eq_integral_Ioo]
    refine setIntegral_congr_fun measurableSet_Ioo fun x hx => ?_
    simp only [f, betadist_in hα hβ hx.1 hx.2, toReal_fin]
  rw [hf, hf, integral_mul_betaR hα hβ hs]
  refine ⟨rfl, ?_⟩
  have e : ∀ x, (x - mv.1) ^ 2 * betaR α β s x
      = x ^ 2 * betaR α β s x - 2 * mv.1 * (x * betaR α β s x) + mv.1 ^ 2 * betaR α β s x := fun x => by ring
  have i0 := betaR_integrable hα hβ hs
  have i1 : IntervalIntegrable (fun x => x * betaR α β s x) volume 0 s := i0.continuousOn_mul continuousOn_id
  have i2 : IntervalIntegrable (fun x => x ^ 2 * betaR α β s x) volume 0 s := i0.continuousOn_mul (by fun_prop)
  simp only [e]
  rw [intervalIntegral.integral_add (i2.sub (i1.const_mul _)) (i0.const_mul _),
    intervalIntegral.integral_sub i2 (i1.const_mul _), intervalIntegral.integral_const_mul,
    intervalIntegral.integral_const_mul, integral_betaR hα hβ hs, integral_mul_betaR hα hβ hs, integral_sq_betaR hα hβ hs]
  show _ = α * β / ((α + β) ^ 2 * (α + β + 1)) * s ^ 2
  have e1 : mv.1 = α / (α + β) * s := rfl
  rw [e1]
  have := add_pos hα hβ
  have : 0 < α + β + 1 := by linarith
  have h2 : α + 1 + β = α + β + 1 := by ring
  rw [h2]
  field_simp; ring

example : alphaBeta 0.4 0.02 1 = (4.4, 6.6) := by unfold alphaBeta; norm_num

/-! ## C80: the caller's arrays -/

/-- **C80 is false of the code.** With numpy arrays, `alpha_beta_from_mu_var` with an upper end other than 1 overwrites the
caller's means (so a second call on the same arrays converts different numbers). -/
theorem C80_caller_arrays_fails (mu var : List ℝ) (xmax : ℝ) (hx : 0 < xmax) (hx1 : xmax ≠ 1) (hm : ∃ m ∈ mu, m ≠ 0) :
    (alphaBetaCall true mu var xmax).2.1 ≠ mu := by
  obtain ⟨m, hm, h0⟩ := hm
  simp only [alphaBetaCall, if_true]
  intro hc
  have : ∀ m ∈ mu, m / xmax = m := by
    have h2 : mu.map (· / xmax) = mu.map id := by rw [hc]; simp
    exact fun m hm => List.map_inj_left.1 h2 m hm
  have := this m hm
  rw [div_eq_iff hx.ne'] at this
  exact hx1 (mul_left_cancel₀ h0 (by linarith))

/-- **C80 (partial).** The returned shapes are those of the caller's values before the call, elementwise; and with `xmax = 1`
or immutable inputs the caller's arrays are unchanged.  Missing: numpy arrays with another upper end. -/
theorem C80_values_partial (mutable : Bool) (mu var : List ℝ) (xmax : ℝ) :
    (alphaBetaCall mutable mu var xmax).1.1 = List.zipWith (fun m v => (alphaBeta m v xmax).1) mu var ∧
    (alphaBetaCall mutable mu var xmax).1.2 = List.zipWith (fun m v => (alphaBeta m v xmax).2) mu var ∧
    (mutable = false ∨ xmax = 1 → (alphaBetaCall mutable mu var xmax).2 = (mu, var)) := by
  refine ⟨by simp [alphaBetaCall, List.map_zipWith], by simp [alphaBetaCall, List.map_zipWith], ?_⟩
  rintro (rfl | rfl)
  · rfl
  · cases mutable <;> simp [alphaBetaCall]

example : (alphaBetaCall true [0.5] [0.1] 2).2.1 ≠ [0.5] :=
  C80_caller_arrays_fails _ _ 2 (by norm_num) (by norm_num) ⟨0.5, by simp, by norm_num⟩

end GW
end
