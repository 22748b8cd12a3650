import Verif.Lemmas.Powerlaw
import Mathlib.Probability.Distributions.Beta
import Mathlib.Analysis.SpecialFunctions.Trigonometric.Basic

/-! # Properties C17–C23: `gwinferno/distributions.py` -/

open MeasureTheory Set
noncomputable section
open Classical
namespace GW
open F

/-! ## C17, C18 — `powerlaw_pdf` -/

/-- **C17.** For `0 < low < high` and every slope (including `-1`), `powerlaw_pdf` is a probability density on
`[low, high]`; outside it equals the floor. -/
theorem C17_powerlaw_normalised (α low high : ℝ) (fl : F) (h0 : 0 < low) (h : low < high) :
    IsPdfOn (fun x => powerlaw_pdf (fin x) (fin α) (fin low) (fin high) fl) low high ∧
    ∀ x : ℝ, x < low ∨ high < x → powerlaw_pdf (fin x) (fin α) (fin low) (fin high) fl = fl := by
  constructor
  · refine isPdfOn_of h.le (fun x h1 h2 => powerlaw_pdf_in h0 h h1 h2) (continuousOn_powerlaw h0) ?_
      (integral_powerlaw h0 h)
    intro x h1 h2
    exact mul_nonneg (Real.rpow_nonneg (h0.trans_le h1).le _) (plNorm_pos h0 h).le
  · intro x hx
    exact powerlaw_pdf_out (by simpa using hx)

example : IsPdfOn (fun x => powerlaw_pdf (fin x) (fin (-1)) (fin 2) (fin 100) 0) 2 100 :=
  (C17_powerlaw_normalised (-1) 2 100 0 (by norm_num) (by norm_num)).1

/-- **C18.** On the closed interval the density is a positive finite number and the ratio of two values is
`(x/y)^α`. -/
theorem C18_powerlaw_shape (α low high : ℝ) (fl : F) (h0 : 0 < low) (h : low < high) (x y : ℝ)
    (hx : low ≤ x ∧ x ≤ high) (hy : low ≤ y ∧ y ≤ high) :
    ∃ p q : ℝ, 0 < p ∧ 0 < q ∧ powerlaw_pdf (fin x) (fin α) (fin low) (fin high) fl = fin p ∧
      powerlaw_pdf (fin y) (fin α) (fin low) (fin high) fl = fin q ∧ p / q = (x / y) ^ α := by
  have hx0 : 0 < x := h0.trans_le hx.1
  have hy0 : 0 < y := h0.trans_le hy.1
  have hN := plNorm_pos (α := α) h0 h
  refine ⟨_, _, mul_pos (Real.rpow_pos_of_pos hx0 α) hN, mul_pos (Real.rpow_pos_of_pos hy0 α) hN,
    powerlaw_pdf_in h0 h hx.1 hx.2, powerlaw_pdf_in h0 h hy.1 hy.2, ?_⟩
  rw [Real.div_rpow hx0.le hy0.le, mul_div_mul_right _ _ hN.ne']

/-- **C18.** With a finite floor the density is a finite number at every real `x` (also outside, at zero and at
negative `x`). -/
theorem C18_powerlaw_total (α low high fl : ℝ) (h0 : 0 < low) (h : low < high) (x : ℝ) :
    ∃ p : ℝ, powerlaw_pdf (fin x) (fin α) (fin low) (fin high) (fin fl) = fin p := by
  by_cases hx : low ≤ x ∧ x ≤ high
  · exact ⟨_, powerlaw_pdf_in h0 h hx.1 hx.2⟩
  · refine ⟨fl, powerlaw_pdf_out ?_⟩
    simp only [lt_fin, gt_fin]
    by_contra hc; push Not at hc; exact hx hc

/-! ## C19 — `smooth` -/

/-- the real exponent of the taper at `x = xmin + u` -/
def taperExp (dx u : ℝ) : ℝ := dx / u + dx / (u - dx)

theorem smooth_eq {dx x xmin : ℝ} (hdx : 0 < dx) (h1 : x ≠ xmin) (h2 : x ≠ xmin + dx) :
    smooth (fin dx) (fin x) (fin xmin) = fin (1 / (Real.exp (taperExp dx (x - xmin)) + 1)) := by
  have hu : x - xmin ≠ 0 := sub_ne_zero.2 h1
  have hv : x - xmin - dx ≠ 0 := fun hc => h2 (by linarith)
  have hcond : lt (fin x) (fin xmin + fin dx) ∨ ge (fin x) (fin xmin) := by
    simp only [add_fin, lt_fin, ge_fin]
    by_contra hc; push Not at hc; linarith
  have hpos : 0 < Real.exp (taperExp dx (x - xmin)) + 1 := by positivity
  simp only [smooth, if_pos hcond]
  rw [sub_fin, div_fin hu, sub_fin, div_fin hv, add_fin, exp_fin, one_def, add_fin]
  change pow (fin (Real.exp (taperExp dx (x - xmin)) + 1)) (-fin 1) = _
  rw [neg_fin, pow_fin_pos hpos, Real.rpow_neg_one, one_div]

/-- **C19 (part that holds).** Strictly inside the window the taper is strictly between 0 and 1, strictly
increasing, equals 1/2 at the centre and is point-symmetric about it; at the lower edge it is exactly 0. -/
theorem C19_taper_window_partial (dx xmin : ℝ) (hdx : 0 < dx) :
    ∃ g : ℝ → ℝ, (∀ x, xmin < x → x < xmin + dx → smooth (fin dx) (fin x) (fin xmin) = fin (g x) ∧
        0 < g x ∧ g x < 1 ∧ g x + g (2 * xmin + dx - x) = 1) ∧
      (∀ x y, xmin < x → x < y → y < xmin + dx → g x < g y) ∧
      g (xmin + dx / 2) = 1 / 2 ∧
      smooth (fin dx) (fin xmin) (fin xmin) = fin 0 := by
  refine ⟨fun x => 1 / (Real.exp (taperExp dx (x - xmin)) + 1), ?_, ?_, ?_, ?_⟩
  · intro x h1 h2
    have he := Real.exp_pos (taperExp dx (x - xmin))
    refine ⟨smooth_eq hdx h1.ne' h2.ne, by positivity, ?_, ?_⟩
    · rw [div_lt_one (by positivity)]; linarith
    · have : taperExp dx (2 * xmin + dx - x - xmin) = -taperExp dx (x - xmin) := by
        unfold taperExp
        have h3 : x - xmin ≠ 0 := by intro hc; linarith
        have h4 : x - xmin - dx ≠ 0 := by intro hc; linarith
        have h5 : 2 * xmin + dx - x - xmin = -(x - xmin - dx) := by ring
        have h6 : 2 * xmin + dx - x - xmin - dx = -(x - xmin) := by ring
        rw [h6, h5, div_neg, div_neg]; ring
      simp only [this, Real.exp_neg]
      field_simp
      ring
  · intro x y h1 h2 h3
    have hlt : taperExp dx (y - xmin) < taperExp dx (x - xmin) := by
      unfold taperExp
      have a1 : dx / (y - xmin) < dx / (x - xmin) :=
        div_lt_div_of_pos_left hdx (by linarith) (by linarith)
      have a2 : dx / (y - xmin - dx) < dx / (x - xmin - dx) := by
        rw [← neg_lt_neg_iff, ← div_neg, ← div_neg]
        exact div_lt_div_of_pos_left hdx (by linarith) (by linarith)
      linarith
    have := Real.exp_lt_exp.2 hlt
    have h4 := Real.exp_pos (taperExp dx (y - xmin))
    exact div_lt_div_of_pos_left one_pos (by positivity) (by linarith)
  · have : taperExp dx (xmin + dx / 2 - xmin) = 0 := by
      unfold taperExp; field_simp; ring
    simp only [this, Real.exp_zero]; norm_num
  · have hcond : lt (fin xmin) (fin xmin + fin dx) ∨ ge (fin xmin) (fin xmin) := by simp
    simp only [smooth, if_pos hcond]
    rw [sub_fin, sub_self, sub_fin, div_fin_zero, infOfSign_pos hdx, zero_sub, div_fin (by linarith : -dx ≠ 0),
      pinf_add_fin, exp_pinf, one_def, pinf_add_fin, neg_fin]
    simp [pow]

/-- **C19 fails** below the window: for every `x < xmin` the "taper" is larger than 1/2 instead of 0. -/
theorem C19_below_window_fails (dx xmin x : ℝ) (hdx : 0 < dx) (hx : x < xmin) :
    ∃ v : ℝ, 1 / 2 < v ∧ smooth (fin dx) (fin x) (fin xmin) = fin v := by
  refine ⟨_, ?_, smooth_eq hdx hx.ne (by linarith)⟩
  have hneg : taperExp dx (x - xmin) < 0 := by
    unfold taperExp
    have := div_neg_of_pos_of_neg hdx (by linarith : x - xmin < 0)
    have := div_neg_of_pos_of_neg hdx (by linarith : x - xmin - dx < 0)
    linarith
  have h1 : Real.exp (taperExp dx (x - xmin)) < 1 := by rw [← Real.exp_zero]; exact Real.exp_lt_exp.2 hneg
  have h2 := Real.exp_pos (taperExp dx (x - xmin))
  exact div_lt_div_of_pos_left one_pos (by positivity) (by linarith)

/-- **C19 fails** above the window: for every `x > xmin + dx` the "taper" is smaller than 1/2 instead of 1. -/
theorem C19_above_window_fails (dx xmin x : ℝ) (hdx : 0 < dx) (hx : xmin + dx < x) :
    ∃ v : ℝ, v < 1 / 2 ∧ smooth (fin dx) (fin x) (fin xmin) = fin v := by
  refine ⟨_, ?_, smooth_eq hdx (by intro h; linarith) hx.ne'⟩
  have hpos : 0 < taperExp dx (x - xmin) := by
    unfold taperExp
    have := div_pos hdx (by linarith : 0 < x - xmin)
    have := div_pos hdx (by linarith : 0 < x - xmin - dx)
    linarith
  have h1 := Real.one_lt_exp_iff.2 hpos
  exact div_lt_div_of_pos_left one_pos (by norm_num) (by linarith)

/-- **C19 fails** exactly at the upper edge: the value there is 0 instead of 1. -/
theorem C19_upper_edge_fails (dx xmin : ℝ) (hdx : 0 < dx) :
    smooth (fin dx) (fin (xmin + dx)) (fin xmin) = fin 0 := by
  have hcond : lt (fin (xmin + dx)) (fin xmin + fin dx) ∨ ge (fin (xmin + dx)) (fin xmin) := by simp [hdx.le]
  simp only [smooth, if_pos hcond]
  rw [sub_fin, sub_fin, show xmin + dx - xmin = dx by ring, div_fin hdx.ne', show dx - dx = 0 by ring,
    div_fin_zero, infOfSign_pos hdx, fin_add_pinf, exp_pinf, one_def, pinf_add_fin, neg_fin]
  simp [pow]

/-! ## C20, C21 — logistic soft truncation -/

/-- the real logistic unit -/
def sigm (s : ℝ) : ℝ := 1 / (1 + Real.exp s)

theorem logistic_unit_eq (x x0 sgn sc : ℝ) :
    logistic_unit (fin x) (fin x0) (fin sgn) (fin sc) = fin (1 / (1 + Real.exp (sgn * sc * (x - x0)))) := by
  have : (1 + Real.exp (sgn * sc * (x - x0))) ≠ 0 := by positivity
  simp only [logistic_unit, logistic_function, one_def, neg_fin, mul_fin, sub_fin, exp_fin, add_fin]
  rw [show (-(-1 * sgn * sc) * (x - x0)) = sgn * sc * (x - x0) by ring, div_fin this]

/-- **C20.** Bounded strictly between 0 and 1, 1/2 at the midpoint, left + right = 1, for all real arguments. -/
theorem C20_logistic_bounds (x x0 sgn sc : ℝ) :
    ∃ l r : ℝ, logistic_unit (fin x) (fin x0) (fin sgn) (fin sc) = fin l ∧
      logistic_unit (fin x) (fin x0) (fin (-sgn)) (fin sc) = fin r ∧
      0 < l ∧ l < 1 ∧ l + r = 1 ∧ (x = x0 → l = 1 / 2) := by
  refine ⟨_, _, logistic_unit_eq x x0 sgn sc, logistic_unit_eq x x0 (-sgn) sc, by positivity, ?_, ?_, ?_⟩
  · rw [div_lt_one (by positivity)]
    have := Real.exp_pos (sgn * sc * (x - x0)); linarith
  · rw [show -sgn * sc * (x - x0) = -(sgn * sc * (x - x0)) by ring, Real.exp_neg]
    have := Real.exp_pos (sgn * sc * (x - x0))
    field_simp
    ring
  · rintro rfl; norm_num

/-- **C20.** Strictly decreasing in `x` when `sgn*sc > 0`, strictly increasing when `sgn*sc < 0`. -/
theorem C20_logistic_monotone (x0 sgn sc : ℝ) :
    ∃ g : ℝ → ℝ, (∀ x, logistic_unit (fin x) (fin x0) (fin sgn) (fin sc) = fin (g x)) ∧
      (0 < sgn * sc → StrictAnti g) ∧ (sgn * sc < 0 → StrictMono g) := by
  refine ⟨_, fun x => logistic_unit_eq x x0 sgn sc, fun h x y hxy => ?_, fun h x y hxy => ?_⟩
  · have : sgn * sc * (x - x0) < sgn * sc * (y - x0) := mul_lt_mul_of_pos_left (by linarith) h
    have := Real.exp_lt_exp.2 this
    have h2 := Real.exp_pos (sgn * sc * (x - x0))
    exact div_lt_div_of_pos_left one_pos (by positivity) (by linarith)
  · have : sgn * sc * (y - x0) < sgn * sc * (x - x0) := mul_lt_mul_of_neg_left (by linarith) h
    have := Real.exp_lt_exp.2 this
    have h2 := Real.exp_pos (sgn * sc * (y - x0))
    exact div_lt_div_of_pos_left one_pos (by positivity) (by linarith)

/-- **C21.** `log_logistic_unit` is the logarithm of `logistic_unit`, on both of its branches, for all real
arguments. -/
theorem C21_log_logistic (x x0 sgn sc : ℝ) :
    log_logistic_unit (fin x) (fin x0) (fin sgn) (fin sc)
      = log (logistic_unit (fin x) (fin x0) (fin sgn) (fin sc)) := by
  simp only [log_logistic_unit]
  split_ifs with h
  · rfl
  · rw [neg_fin, logistic_unit_eq, logistic_unit_eq, log_fin (by positivity), log_fin (by positivity), sub_fin,
      mul_fin, mul_fin, add_fin, fin_inj, one_div, one_div, Real.log_inv, Real.log_inv]
    have e : (1 + Real.exp (-sgn * sc * (x - x0)))
        = Real.exp (-sgn * sc * (x - x0)) * (1 + Real.exp (sgn * sc * (x - x0))) := by
      rw [mul_add, mul_one, ← Real.exp_add]
      rw [show -sgn * sc * (x - x0) + sgn * sc * (x - x0) = 0 by ring, Real.exp_zero]; ring
    rw [e, Real.log_mul (Real.exp_pos _).ne' (by positivity), Real.log_exp]
    ring

/-- **C20.** `powerlaw_logit_pdf` (the soft-truncated power law) is a positive finite number at every positive `x`
and never exceeds the untruncated power law, whichever of the two truncations are requested. -/
theorem C20_powerlaw_logit_bounds (x α fl fh : ℝ) (low high : Option ℝ) (hx : 0 < x) :
    ∃ v : ℝ, powerlaw_logit_pdf (fin x) (fin α) (low.map fin) (high.map fin) (fin fl) (fin fh) = fin v ∧
      0 < v ∧ v ≤ x ^ α := by
  have hp : 0 < x ^ α := Real.rpow_pos_of_pos hx α
  have key : ∀ (x0 sgn sc v : ℝ), 0 < v → ∃ w, fin v * logistic_unit (fin x) (fin x0) (fin sgn) (fin sc) = fin w ∧
      0 < w ∧ w ≤ v := by
    intro x0 sgn sc v hv
    obtain ⟨l, r, h1, -, h2, h3, -⟩ := C20_logistic_bounds x x0 sgn sc
    refine ⟨v * l, by rw [h1, mul_fin], mul_pos hv h2, by nlinarith⟩
  unfold powerlaw_logit_pdf
  rw [pow_fin_pos hx]
  cases low with
  | none =>
    cases high with
    | none => exact ⟨_, rfl, hp, le_refl _⟩
    | some hi => exact key hi 1 fh _ hp
  | some lo =>
    obtain ⟨w, h1, h2, h3⟩ := key lo (-1) fl _ hp
    have h1' : fin (x ^ α) * logistic_unit (fin x) (fin lo) (-1) (fin fl) = fin w := h1
    cases high with
    | none => exact ⟨w, h1', h2, h3⟩
    | some hi =>
      obtain ⟨w', g1, g2, g3⟩ := key hi 1 fh w h2
      refine ⟨w', ?_, g2, g3.trans h3⟩
      simp only [Option.map_some]
      rw [h1']; exact g1

/-! ## C22 — `truncnorm_pdf` -/

/-- Gaussian cdf as computed by the code -/
def gcdf (mu sig v : ℝ) : ℝ := 1 / 2 * (1 + erf ((v - mu) / (sig * Real.sqrt 2)))

theorem gcdf_hasDerivAt {mu sig : ℝ} (hs : 0 < sig) (v : ℝ) :
    HasDerivAt (gcdf mu sig) (Real.exp (-((v - mu) * (v - mu)) / (2 * (sig * sig))) * (1 / (sig * Real.sqrt (2 * Real.pi)))) v := by
  have h2 : (0:ℝ) < Real.sqrt 2 := Real.sqrt_pos.2 (by norm_num)
  have hpi : (0:ℝ) < Real.sqrt Real.pi := Real.sqrt_pos.2 Real.pi_pos
  have hin : HasDerivAt (fun v => (v - mu) / (sig * Real.sqrt 2)) (1 / (sig * Real.sqrt 2)) v :=
    ((hasDerivAt_id v).sub_const mu).div_const _
  have h := (((erf_hasDerivAt ((v - mu) / (sig * Real.sqrt 2))).comp v hin).const_add 1).const_mul (1/2)
  refine h.congr_deriv ?_
  have e : -((v - mu) / (sig * Real.sqrt 2)) ^ 2 = -((v - mu) * (v - mu)) / (2 * (sig * sig)) := by
    rw [div_pow, mul_pow, Real.sq_sqrt (by norm_num : (0:ℝ) ≤ 2)]; ring
  rw [e, Real.sqrt_mul (by norm_num : (0:ℝ) ≤ 2)]
  field_simp

theorem gcdf_strictMono {mu sig : ℝ} (hs : 0 < sig) : StrictMono (gcdf mu sig) := by
  refine strictMono_of_deriv_pos fun v => ?_
  rw [(gcdf_hasDerivAt hs v).deriv]
  have := Real.pi_pos
  positivity

/-- the real density computed by the linear branch -/
def tnPdf (mu sig low high x : ℝ) : ℝ :=
  Real.exp (-((x - mu) * (x - mu)) / (2 * (sig * sig))) *
    (1 / (sig * Real.sqrt (2 * Real.pi)) / (gcdf mu sig high - gcdf mu sig low))

theorem sqrt_two_pos : (0:ℝ) < Real.sqrt 2 := Real.sqrt_pos.2 (by norm_num)
theorem sqrt_two_pi_pos : (0:ℝ) < Real.sqrt (2 * Real.pi) := Real.sqrt_pos.2 (by have := Real.pi_pos; positivity)

theorem gcdfF_eq {mu sig v : ℝ} (hs : 0 < sig) :
    fin (1/2) * (1 + erfF ((fin v - fin mu) / (fin sig * pow 2 (fin (1/2))))) = fin (gcdf mu sig v) := by
  have : (2 : F) = fin 2 := rfl
  rw [this, pow_half_fin (by norm_num), mul_fin, sub_fin, div_fin (mul_pos hs sqrt_two_pos).ne', erfF_fin, one_def,
    add_fin, mul_fin]
  rfl

theorem truncnorm_pdf_in {mu sig low high x : ℝ} (hs : 0 < sig) (h : low < high) (h1 : low ≤ x) (h2 : x ≤ high) :
    truncnorm_pdf (fin x) (fin mu) (fin sig) (fin low) (fin high) false = fin (tnPdf mu sig low high x) := by
  have hden : gcdf mu sig high - gcdf mu sig low ≠ 0 := (sub_pos.2 (gcdf_strictMono hs h)).ne'
  have hs2 : 2 * (sig * sig) ≠ 0 := by positivity
  simp only [truncnorm_pdf, Bool.false_eq_true, if_false]
  rw [if_neg (by simp [not_lt.2 h1, not_lt.2 h2]), gcdfF_eq hs, gcdfF_eq hs, sub_fin, sub_fin]
  have e2 : (2 : F) = fin 2 := rfl
  rw [e2, pow_two_fin, pow_two_fin, neg_fin, mul_fin, div_fin hs2, exp_fin, mul_fin,
    pow_half_fin (by have := Real.pi_pos; positivity), mul_fin, one_def, div_fin (mul_pos hs sqrt_two_pi_pos).ne',
    div_fin hden, mul_fin]
  rfl

theorem integral_tnPdf {mu sig low high : ℝ} (hs : 0 < sig) (h : low < high) :
    ∫ x in low..high, tnPdf mu sig low high x = 1 := by
  have hden : gcdf mu sig high - gcdf mu sig low ≠ 0 := (sub_pos.2 (gcdf_strictMono hs h)).ne'
  have hI : ∫ x in low..high, Real.exp (-((x - mu) * (x - mu)) / (2 * (sig * sig))) * (1 / (sig * Real.sqrt (2 * Real.pi)))
      = gcdf mu sig high - gcdf mu sig low := by
    apply intervalIntegral.integral_eq_sub_of_hasDerivAt
    · intro x _; exact gcdf_hasDerivAt hs x
    · apply Continuous.intervalIntegrable; fun_prop
  unfold tnPdf
  simp_rw [show ∀ a b c d : ℝ, a * (1 / b / (c - d)) = a * (1 / b) / (c - d) from fun a b c d => by ring]
  rw [intervalIntegral.integral_div, hI, div_self hden]

/-- **C22** (`log=False`). For `sigma > 0` and `low < high`, a probability density on `[low, high]`, positive
there, and exactly 0 outside. -/
theorem C22_truncnorm_normalised (mu sig low high : ℝ) (hs : 0 < sig) (h : low < high) :
    IsPdfOn (fun x => truncnorm_pdf (fin x) (fin mu) (fin sig) (fin low) (fin high) false) low high ∧
    (∀ x : ℝ, low ≤ x → x ≤ high → ∃ v : ℝ, 0 < v ∧
      truncnorm_pdf (fin x) (fin mu) (fin sig) (fin low) (fin high) false = fin v) ∧
    (∀ x : ℝ, x < low ∨ high < x →
      truncnorm_pdf (fin x) (fin mu) (fin sig) (fin low) (fin high) false = fin 0) := by
  have hden : 0 < gcdf mu sig high - gcdf mu sig low := sub_pos.2 (gcdf_strictMono hs h)
  have hpos : ∀ x, 0 < tnPdf mu sig low high x := fun x =>
    mul_pos (Real.exp_pos _) (div_pos (one_div_pos.2 (mul_pos hs sqrt_two_pi_pos)) hden)
  refine ⟨isPdfOn_of h.le (fun x h1 h2 => truncnorm_pdf_in hs h h1 h2) ?_ (fun x _ _ => (hpos x).le)
    (integral_tnPdf hs h), fun x h1 h2 => ⟨_, hpos x, truncnorm_pdf_in hs h h1 h2⟩, ?_⟩
  · unfold tnPdf; fun_prop
  · intro x hx
    have : gt (fin x) (fin high) ∨ lt (fin x) (fin low) := by simpa [or_comm] using hx
    simp only [truncnorm_pdf, if_pos this]; rfl

/-- the real density computed by the `log=True` branch -/
def lnPdf (mu sig low high x : ℝ) : ℝ :=
  Real.exp (-((Real.log x - mu) * (Real.log x - mu)) / (2 * (sig * sig))) *
    (1 / (x * sig * Real.sqrt (2 * Real.pi)) / (gcdf mu sig (Real.log high) - gcdf mu sig (Real.log low)))

theorem lognorm_pdf_in {mu sig low high x : ℝ} (hs : 0 < sig) (h0 : 0 < low) (h : low < high) (h1 : low ≤ x)
    (h2 : x ≤ high) :
    truncnorm_pdf (fin x) (fin mu) (fin sig) (fin low) (fin high) true = fin (lnPdf mu sig low high x) := by
  have hx : 0 < x := h0.trans_le h1
  have hh : 0 < high := h0.trans h
  have hden : gcdf mu sig (Real.log high) - gcdf mu sig (Real.log low) ≠ 0 :=
    (sub_pos.2 (gcdf_strictMono hs (Real.log_lt_log h0 h))).ne'
  have hs2 : 2 * (sig * sig) ≠ 0 := by positivity
  simp only [truncnorm_pdf, if_true]
  rw [if_neg (by simp [not_lt.2 h1, not_lt.2 h2]), log_fin hx, log_fin h0, log_fin hh, gcdfF_eq hs, gcdfF_eq hs,
    sub_fin, sub_fin]
  have e2 : (2 : F) = fin 2 := rfl
  rw [e2, pow_two_fin, pow_two_fin, neg_fin, mul_fin, div_fin hs2, exp_fin, mul_fin,
    mul_fin 2, pow_half_fin (by have := Real.pi_pos; positivity), mul_fin, one_def,
    div_fin (mul_pos (mul_pos hx hs) sqrt_two_pi_pos).ne', div_fin hden, mul_fin]
  rfl

/-- **C22** (`log=True`). For `sigma > 0` and `0 < low < high`, the truncated log-normal is a probability density on
`[low, high]`, positive there and exactly 0 outside. -/
theorem C22_lognormal_normalised (mu sig low high : ℝ) (hs : 0 < sig) (h0 : 0 < low) (h : low < high) :
    IsPdfOn (fun x => truncnorm_pdf (fin x) (fin mu) (fin sig) (fin low) (fin high) true) low high ∧
    (∀ x : ℝ, low ≤ x → x ≤ high → ∃ v : ℝ, 0 < v ∧
      truncnorm_pdf (fin x) (fin mu) (fin sig) (fin low) (fin high) true = fin v) ∧
    (∀ x : ℝ, x < low ∨ high < x →
      truncnorm_pdf (fin x) (fin mu) (fin sig) (fin low) (fin high) true = fin 0) := by
  have hden : 0 < gcdf mu sig (Real.log high) - gcdf mu sig (Real.log low) :=
    sub_pos.2 (gcdf_strictMono hs (Real.log_lt_log h0 h))
  have hpos : ∀ x, low ≤ x → 0 < lnPdf mu sig low high x := fun x hx =>
    mul_pos (Real.exp_pos _) (div_pos (one_div_pos.2 (mul_pos (mul_pos (h0.trans_le hx) hs) sqrt_two_pi_pos)) hden)
  have hne : ∀ x ∈ Icc low high, x ≠ 0 := fun x hx => (h0.trans_le hx.1).ne'
  have hcont0 : ContinuousOn (fun x => Real.exp (-((Real.log x - mu) * (Real.log x - mu)) / (2 * (sig * sig))) *
      (1 / (x * sig * Real.sqrt (2 * Real.pi)))) (Icc low high) := by
    have hl : ContinuousOn Real.log (Icc low high) := Real.continuousOn_log.mono fun x hx => hne x hx
    refine ContinuousOn.mul ?_ ?_
    · refine Real.continuous_exp.comp_continuousOn (ContinuousOn.div_const ?_ _)
      exact ((hl.sub continuousOn_const).mul (hl.sub continuousOn_const)).neg
    · refine ContinuousOn.div continuousOn_const (by fun_prop) fun x hx => ?_
      exact (mul_pos (mul_pos (h0.trans_le hx.1) hs) sqrt_two_pi_pos).ne'
  have hI : ∫ x in low..high, Real.exp (-((Real.log x - mu) * (Real.log x - mu)) / (2 * (sig * sig))) *
      (1 / (x * sig * Real.sqrt (2 * Real.pi))) = gcdf mu sig (Real.log high) - gcdf mu sig (Real.log low) := by
    apply intervalIntegral.integral_eq_sub_of_hasDerivAt (f := fun x => gcdf mu sig (Real.log x))
    · intro x hx
      rw [uIcc_of_le h.le] at hx
      have hx0 := hne x hx
      have := (gcdf_hasDerivAt (mu := mu) hs (Real.log x)).comp x (Real.hasDerivAt_log hx0)
      refine this.congr_deriv ?_
      field_simp
    · apply ContinuousOn.intervalIntegrable; rwa [uIcc_of_le h.le]
  refine ⟨isPdfOn_of h.le (fun x h1 h2 => lognorm_pdf_in hs h0 h h1 h2) ?_ (fun x h1 _ => (hpos x h1).le) ?_,
    fun x h1 h2 => ⟨_, hpos x h1, lognorm_pdf_in hs h0 h h1 h2⟩, ?_⟩
  · unfold lnPdf
    simp_rw [show ∀ a b c d : ℝ, a * (1 / b / (c - d)) = a * (1 / b) / (c - d) from fun a b c d => by ring]
    exact hcont0.div_const _
  · unfold lnPdf
    simp_rw [show ∀ a b c d : ℝ, a * (1 / b / (c - d)) = a * (1 / b) / (c - d) from fun a b c d => by ring]
    rw [intervalIntegral.integral_div, hI, div_self hden.ne']
  · intro x hx
    have : gt (fin x) (fin high) ∨ lt (fin x) (fin low) := by simpa [or_comm] using hx
    simp only [truncnorm_pdf, if_pos this]; rfl

example : IsPdfOn (fun x => truncnorm_pdf (fin x) (fin 35) (fin 3) (fin 5) (fin 100) false) 5 100 :=
  (C22_truncnorm_normalised 35 3 5 100 (by norm_num) (by norm_num)).1

/-! ## C23 — `betadist` -/

/-- real Beta density on `(0, s)` -/
def betaR (α β s x : ℝ) : ℝ :=
  1 / ProbabilityTheory.beta α β * (x / s) ^ (α - 1) * (1 - x / s) ^ (β - 1) / s

theorem betadist_in {α β s x : ℝ} {fl : F} (hα : 0 < α) (hβ : 0 < β) (h1 : 0 < x) (h2 : x < s) :
    betadist (fin x) (fin α) (fin β) (fin s) fl = fin (betaR α β s x) := by
  have hs : 0 < s := h1.trans h2
  have hsx : 0 < s - x := by linarith
  have hu : 0 < x / s := div_pos h1 hs
  have hv : 0 < 1 - x / s := by rw [sub_pos, div_lt_one hs]; exact h2
  simp only [betadist, one_def, zero_def]
  rw [if_pos (by simp [h2.le, h1.le]), log_fin h1, sub_fin, sub_fin, sub_fin, log_fin hsx, log_fin hs, betalnF,
    if_pos ⟨hα, hβ⟩]
  simp only [mul_fin, add_fin, sub_fin, exp_fin]
  congr 1
  have hG : gammaln α + gammaln β - gammaln (α + β) = Real.log (ProbabilityTheory.beta α β) := by
    unfold gammaln ProbabilityTheory.beta
    have g1 := Real.Gamma_pos_of_pos hα
    have g2 := Real.Gamma_pos_of_pos hβ
    have g3 := Real.Gamma_pos_of_pos (add_pos hα hβ)
    rw [Real.log_div (mul_pos g1 g2).ne' g3.ne', Real.log_mul g1.ne' g2.ne']
  have hB := ProbabilityTheory.beta_pos hα hβ
  rw [hG]
  have hsx' : Real.log (s - x) = Real.log s + Real.log (1 - x / s) := by
    rw [← Real.log_mul hs.ne' hv.ne']; congr 1; field_simp
  have hx' : Real.log x = Real.log s + Real.log (x / s) := by
    rw [← Real.log_mul hs.ne' hu.ne']; congr 1; field_simp
  rw [hsx', hx']
  have : (α - 1) * (Real.log s + Real.log (x / s)) + (β - 1) * (Real.log s + Real.log (1 - x / s))
      - (α + β - 1) * Real.log s - Real.log (ProbabilityTheory.beta α β)
      = -Real.log (ProbabilityTheory.beta α β) + Real.log (x / s) * (α - 1) + Real.log (1 - x / s) * (β - 1)
        - Real.log s := by ring
  rw [this, Real.exp_sub, Real.exp_add, Real.exp_add, Real.exp_neg, Real.exp_log hB, Real.exp_log hs,
    ← Real.rpow_def_of_pos hu, ← Real.rpow_def_of_pos hv, betaR, one_div]

theorem integral_beta01 {α β : ℝ} (hα : 0 < α) (hβ : 0 < β) :
    ∫ x in (0:ℝ)..1, 1 / ProbabilityTheory.beta α β * x ^ (α - 1) * (1 - x) ^ (β - 1) = 1 := by
  have h1 := ProbabilityTheory.lintegral_betaPDF_eq_one hα hβ
  rw [ProbabilityTheory.lintegral_betaPDF] at h1
  rw [intervalIntegral.integral_of_le zero_le_one, integral_Ioc_eq_integral_Ioo,
    integral_eq_lintegral_of_nonneg_ae, h1]
  · rfl
  · refine ae_restrict_of_forall_mem measurableSet_Ioo fun x hx => ?_
    have h2 : 0 ≤ 1 - x := by linarith [hx.2]
    have := ProbabilityTheory.beta_pos hα hβ
    exact mul_nonneg (mul_nonneg (by positivity) (Real.rpow_nonneg hx.1.le _)) (Real.rpow_nonneg h2 _)
  · exact Measurable.aestronglyMeasurable (by fun_prop)

theorem integral_betaR {α β s : ℝ} (hα : 0 < α) (hβ : 0 < β) (hs : 0 < s) : ∫ x in (0:ℝ)..s, betaR α β s x = 1 := by
  unfold betaR
  rw [intervalIntegral.integral_div]
  have := intervalIntegral.integral_comp_div (a := (0:ℝ)) (b := s)
    (fun u => 1 / ProbabilityTheory.beta α β * u ^ (α - 1) * (1 - u) ^ (β - 1)) hs.ne'
  rw [this, zero_div, div_self hs.ne', integral_beta01 hα hβ, smul_eq_mul, mul_one, div_self hs.ne']

/-- **C23.** For positive shapes and scale, `betadist` is a probability density on the open interval `(0, scale)`,
strictly positive there, and equals the floor outside `[0, scale]`. -/
theorem C23_betadist_normalised_partial (α β s : ℝ) (fl : F) (hα : 0 < α) (hβ : 0 < β) (hs : 0 < s) :
    IsPdfOnOpen (fun x => betadist (fin x) (fin α) (fin β) (fin s) fl) 0 s ∧
    (∀ x : ℝ, 0 < x → x < s → ∃ v : ℝ, 0 < v ∧ betadist (fin x) (fin α) (fin β) (fin s) fl = fin v) ∧
    (∀ x : ℝ, x < 0 ∨ s < x → betadist (fin x) (fin α) (fin β) (fin s) fl = fl) := by
  have hpos : ∀ x, 0 < x → x < s → 0 < betaR α β s x := by
    intro x h1 h2
    have hv : 0 < 1 - x / s := by rw [sub_pos, div_lt_one hs]; exact h2
    have := ProbabilityTheory.beta_pos hα hβ
    have h3 := Real.rpow_pos_of_pos (div_pos h1 hs) (α - 1)
    have h4 := Real.rpow_pos_of_pos hv (β - 1)
    unfold betaR; positivity
  have hint : ∫ x in (0:ℝ)..s, (betadist (fin x) (fin α) (fin β) (fin s) fl).toReal = 1 := by
    rw [← integral_betaR hα hβ hs, intervalIntegral.integral_of_le hs.le, intervalIntegral.integral_of_le hs.le,
      integral_Ioc_eq_integral_Ioo, integral_Ioc_eq_integral_Ioo]
    refine setIntegral_congr_fun measurableSet_Ioo fun x hx => ?_
    simp only [betadist_in hα hβ hx.1 hx.2, toReal_fin]
  refine ⟨⟨fun x h1 h2 => ⟨_, (hpos x h1 h2).le, betadist_in hα hβ h1 h2⟩, ?_, hint⟩,
    fun x h1 h2 => ⟨_, hpos x h1 h2, betadist_in hα hβ h1 h2⟩, ?_⟩
  · by_contra hc
    rw [intervalIntegral.integral_undef hc] at hint
    exact zero_ne_one hint
  · intro x hx
    have : ¬ (le (fin x) (fin s) ∧ ge (fin x) (0:F)) := by
      simp only [zero_def, le_fin, ge_fin, not_and_or, not_le]; exact hx.symm
    simp only [betadist, if_neg this]

example : IsPdfOnOpen (fun x => betadist (fin x) (fin 2) (fin 5) (fin 1) 0) 0 1 :=
  (C23_betadist_normalised_partial 2 5 1 0 (by norm_num) (by norm_num) (by norm_num)).1

/-- **C23 fails** at the lower end point when `alpha = 1` (a perfectly regular Beta density, e.g. the uniform one):
the value is NaN. -/
theorem C23_nan_at_zero_fails (β s : ℝ) (fl : F) (hs : 0 < s) :
    betadist (fin 0) (fin 1) (fin β) (fin s) fl = F.nan := by
  simp only [betadist, one_def, zero_def]
  rw [if_pos (by simp [hs.le]), log_zero, sub_fin, sub_self, fin_mul_ninf, neg_zero, infOfSign_zero]
  simp

/-- **C23 fails** at the upper end point when `beta = 1`. -/
theorem C23_nan_at_scale_fails (α s : ℝ) (fl : F) (hs : 0 < s) :
    betadist (fin s) (fin α) (fin 1) (fin s) fl = F.nan := by
  simp only [betadist, one_def, zero_def]
  rw [if_pos (by simp [hs.le]), sub_fin s s, sub_self, log_zero, sub_fin 1 1, sub_self, fin_mul_ninf, neg_zero,
    infOfSign_zero]
  simp

/-- **C23**, end point values in the remaining cases: at `x = 0` the density is `0` for `alpha > 1` and `+inf` for
`alpha < 1`. -/
theorem C23_endpoint_values (α β s : ℝ) (fl : F) (hα : 0 < α) (hβ : 0 < β) (hs : 0 < s) :
    (1 < α → betadist (fin 0) (fin α) (fin β) (fin s) fl = fin 0) ∧
    (α < 1 → betadist (fin 0) (fin α) (fin β) (fin s) fl = F.pinf) := by
  constructor
  · intro h
    simp only [betadist, one_def, zero_def]
    rw [if_pos (by simp [hs.le]), log_zero, sub_fin, sub_fin, sub_fin, sub_zero, fin_mul_ninf,
      infOfSign_neg (by linarith), log_fin hs, betalnF, if_pos ⟨hα, hβ⟩]
    simp
  · intro h
    simp only [betadist, one_def, zero_def]
    rw [if_pos (by simp [hs.le]), log_zero, sub_fin, sub_fin, sub_fin, sub_zero, fin_mul_ninf,
      infOfSign_pos (by linarith), log_fin hs, betalnF, if_pos ⟨hα, hβ⟩]
    simp

end GW
end
