import Verif.Props.Likelihood
import Verif.LintLaw
import Mathlib.Probability.Distributions.Gamma

/-!
# C107: the rate is drawn from its posterior, and the likelihood is the Poisson likelihood with the rate integrated out
-/

noncomputable section
open Classical MeasureTheory Set
namespace GW
open _root_.F

/-- the probability of `n` events when `lam` are expected -/
def poissonProb (lam : ℝ) (n : ℕ) : ℝ := Real.exp (-lam) * lam ^ n / n.factorial

theorem gamma_poisson {n : ℕ} (hn : 1 ≤ n) {c r : ℝ} (hr : 0 < r) :
    ProbabilityTheory.gammaPDFReal n c r = n * (poissonProb (c * r) n / r) := by
  obtain ⟨m, rfl⟩ : ∃ m, n = m + 1 := ⟨n - 1, by omega⟩
  unfold ProbabilityTheory.gammaPDFReal poissonProb
  rw [if_pos hr.le, Real.rpow_natCast, show (((m + 1 : ℕ) : ℝ) - 1) = (m : ℝ) by push_cast; ring, Real.rpow_natCast]
  have hG : Real.Gamma ((m + 1 : ℕ) : ℝ) = m.factorial := by
    push_cast
    exact Real.Gamma_nat_eq_factorial m
  rw [hG, Nat.factorial_succ]
  have : (m.factorial : ℝ) ≠ 0 := by exact_mod_cast m.factorial_ne_zero
  push_cast
  field_simp
  ring

/-- dividing a unit-rate Gamma variable by `c` gives a Gamma variable of rate `c` -/
theorem gamma_scale {a c : ℝ} (hc : 0 < c) :
    (ProbabilityTheory.gammaMeasure a 1).map (fun x => x / c) = ProbabilityTheory.gammaMeasure a c := by
  have mg : ∀ r, Measurable (ProbabilityTheory.gammaPDF a r) := fun r => (ProbabilityTheory.measurable_gammaPDFReal a r).ennreal_ofReal
  have hs : ∀ y, ENNReal.ofReal |c| * ProbabilityTheory.gammaPDF a 1 (c * y) = ProbabilityTheory.gammaPDF a c y := by
    intro y
    rw [abs_of_pos hc, ProbabilityTheory.gammaPDF, ProbabilityTheory.gammaPDF, ← ENNReal.ofReal_mul hc.le]
    congr 1
    unfold ProbabilityTheory.gammaPDFReal
    by_cases hy : 0 ≤ y
    · rw [if_pos hy, if_pos (by positivity), Real.one_rpow, Real.mul_rpow hc.le hy, Real.rpow_sub_one hc.ne']
      field_simp
    · rw [if_neg hy, if_neg (fun h => hy (nonneg_of_mul_nonneg_right h hc)), mul_zero]
  refine Measure.ext fun A hA => ?_
  have hm : Measurable fun x : ℝ => x / c := by fun_prop
  rw [Measure.map_apply hm hA]
  unfold ProbabilityTheory.gammaMeasure
  rw [withDensity_apply _ (hm hA), withDensity_apply _ hA, ← lintegral_indicator (hm hA), ← lintegral_indicator hA,
    lintegral_scale hc.ne' ((mg 1).indicator (hm hA)), ← lintegral_const_mul' _ _ ENNReal.ofReal_ne_top]
  refine lintegral_congr fun y => ?_
  have e : c * y / c = y := by field_simp
  by_cases hy : y ∈ A
  · rw [indicator_of_mem hy, indicator_of_mem (show c * y ∈ (fun x => x / c) ⁻¹' A from (show c * y / c ∈ A by rwa [e])), hs]
  · rw [indicator_of_notMem hy, indicator_of_notMem (show c * y ∉ (fun x => x / c) ⁻¹' A from (show ¬ c * y / c ∈ A by rwa [e])), mul_zero]

section law
variable {Ω : Type*} [MeasurableSpace Ω] {P : Measure Ω}

/-- **C107 (rate).** When the unscaled rate is drawn from its Gamma distribution (shape `Nobs`, unit rate), the returned rate `R` has the
density proportional to `(1/R) · Poisson(Nobs; R · efficiency · VT)`: the posterior of the rate for the log-uniform prior, given the number
of events, the efficiency and the surveyed time-volume. -/
theorem C107_rate_posterior {E N M : ℕ} (fl : Flags) (pe : PEWeights E N) (v : Fin M → ℝ) {n Nobs : ℕ} {T V : ℝ}
    (hfl : fl.ok) (hrate : fl.reconstruct_rate = true) (hv0 : ∀ i, 0 ≤ v i) (hvp : ∃ i, 0 < v i) (hMn : M ≤ n) (hN : 1 ≤ Nobs)
    (hT : 0 < T) (hV : 0 < V) {U : Ω → ℝ} (hU : Measurable U) (hlaw : P.map U = ProbabilityTheory.gammaMeasure Nobs 1) :
    let VT := V / 1e9 * T
    let eff := (∑ i, v i) / n
    ∃ R : Ω → ℝ, Measurable R ∧
      (∀ ω, (hierarchical_likelihood fl pe (fun i => encode fl.log (v i)) n Nobs (fin T) (some (fin V)) (fin (U ω))).2 = .ok (some (fin (R ω)))) ∧
      P.map R = volume.withDensity (fun r => ENNReal.ofReal (if 0 < r then Nobs * (poissonProb (r * eff * VT) Nobs / r) else 0)) ∧
      ∫⁻ r, ENNReal.ofReal (if 0 < r then Nobs * (poissonProb (r * eff * VT) Nobs / r) else 0) = 1 := by
  intro VT eff
  obtain ⟨hS, _⟩ := sum_pos_of hv0 hvp
  have hnr : (0 : ℝ) < n := by exact_mod_cast (card_pos_of hvp).trans_le hMn
  have heff : 0 < eff := div_pos hS hnr
  have hVT : 0 < VT := by positivity
  have hNr : (0 : ℝ) < Nobs := by exact_mod_cast hN
  have hd : (ProbabilityTheory.gammaMeasure Nobs (eff * VT)) =
      volume.withDensity (fun r => ENNReal.ofReal (if 0 < r then Nobs * (poissonProb (r * eff * VT) Nobs / r) else 0)) := by
    unfold ProbabilityTheory.gammaMeasure
    refine withDensity_congr_ae ?_
    have h0 : ∀ᵐ r : ℝ, r ≠ 0 := by
      have : ({0} : Set ℝ).Finite := finite_singleton 0
      filter_upwards [compl_mem_ae_iff.2 (this.measure_zero volume)] with r hr using hr
    filter_upwards [h0] with r hr
    rw [ProbabilityTheory.gammaPDF]
    rcases lt_or_gt_of_ne hr with h | h
    · rw [if_neg (not_lt.2 h.le), ProbabilityTheory.gammaPDFReal, if_neg (not_le.2 h)]
    · rw [if_pos h, gamma_poisson hN h]
      congr 4
      ring
  refine ⟨fun ω => U ω / (eff * VT), by fun_prop, fun ω => ?_, ?_, ?_⟩
  · obtain ⟨r, h1, -, h3⟩ := C48_rate fl pe v n Nobs T V (U ω) hfl hrate hv0 hvp hMn hT hV
    rw [h1]
    have : r = U ω / (eff * VT) := by
      rw [eq_div_iff (by positivity), ← h3]
      simp only [eff, VT]
      ring
    rw [this]
  · rw [← hd, ← gamma_scale (by positivity), ← hlaw, Measure.map_map (by fun_prop) hU]
    rfl
  · have := congrArg (fun μ : Measure ℝ => μ univ) hd
    beta_reduce at this
    rw [withDensity_apply _ MeasurableSet.univ, Measure.restrict_univ] at this
    rw [← this]
    have := ProbabilityTheory.isProbabilityMeasure_gammaMeasure hNr (mul_pos heff hVT)
    exact measure_univ

end law

/-- **C107 (likelihood).** When no cut fires, the exponential of what the model adds to the log density is the likelihood of the inhomogeneous
Poisson process — expected number `R · VT · efficiency`, and per event the rate `R · VT` times its mean weight — integrated over the rate with
the log-uniform prior `1/R`, up to the constant `(Nobs - 1)!`; the surveyed time-volume drops out. -/
theorem C107_marginal_likelihood {E N M : ℕ} (fl : Flags) (w : Fin E → Fin N → ℝ) (v : Fin M → ℝ) (n : ℕ)
    (Tobs : F) (hv : Option F) (unscaled : F) (ppc : Option (PPC E N M)) (hfl : fl.ok) (hmarg : fl.marginalize_selection = false)
    (hhv : fl.reconstruct_rate = true → hv ≠ none) (hE : 0 < E)
    (hw : ∀ e i, 0 ≤ w e i) (hwp : ∀ e, ∃ i, 0 < w e i) (hv0 : ∀ i, 0 ≤ v i) (hvp : ∃ i, 0 < v i) (hMn : M ≤ n)
    (hneff : fl.min_neff_cut = true → (∀ e, (E : ℝ) < kish (w e)) ∧ 4 * (E : ℝ) * relVar v n ≤ 1)
    (hvar : fl.max_variance_cut = true → (E : ℝ) ^ 2 * (relVar v n - 1 / n) + ∑ e, (1 / kish (w e) - 1 / N) ≤ 1)
    {VT : ℝ} (hVT : 0 < VT) :
    ∃ ℓ : ℝ, factors (hierarchical_likelihood fl (.single fun e i => encode fl.log (w e i)) (fun i => encode fl.log (v i)) n E
        Tobs hv unscaled ppc).1 = [fin ℓ] ∧
      ∫ R in Ioi (0 : ℝ), (1 / R) * (Real.exp (-(R * VT * ((∑ i, v i) / n))) * ∏ e, (R * VT * mean (w e))) = (E - 1).factorial * Real.exp ℓ := by
  obtain ⟨hS, _⟩ := sum_pos_of hv0 hvp
  have hnr : (0 : ℝ) < n := by exact_mod_cast (card_pos_of hvp).trans_le hMn
  have hmu : 0 < (∑ i, v i) / n := div_pos hS hnr
  have hm : ∀ e, 0 < mean (w e) := fun e => mean_pos (hw e) (hwp e)
  refine ⟨_, C47_value fl w v n E Tobs hv unscaled ppc hfl hhv hE hE hw hwp hv0 hvp hMn hneff hvar, ?_⟩
  rw [hmarg]
  simp only [Bool.false_eq_true, if_false, add_zero]
  set mu := (∑ i, v i) / (n : ℝ) with hmudef
  obtain ⟨m, rfl⟩ : ∃ m, E = m + 1 := ⟨E - 1, by omega⟩
  have e1 : ∀ R ∈ Ioi (0 : ℝ), (1 / R) * (Real.exp (-(R * VT * mu)) * ∏ e, (R * VT * mean (w e))) =
      (VT ^ (m + 1) * ∏ e, mean (w e)) * (R ^ (((m + 1 : ℕ) : ℝ) - 1) * Real.exp (-(VT * mu * R))) := by
    intro R hR
    have hR0 : R ≠ 0 := (mem_Ioi.1 hR).ne'
    rw [Finset.prod_mul_distrib, Finset.prod_const, Finset.card_univ, Fintype.card_fin, show (((m + 1 : ℕ) : ℝ) - 1) = (m : ℝ) by push_cast; ring,
      Real.rpow_natCast, mul_pow, show R * VT * mu = VT * mu * R by ring]
    field_simp
    ring
  rw [setIntegral_congr_fun measurableSet_Ioi e1, integral_const_mul,
    Real.integral_rpow_mul_exp_neg_mul_Ioi (by positivity) (by positivity), Real.rpow_natCast]
  have hG : Real.Gamma ((m + 1 : ℕ) : ℝ) = m.factorial := by
    push_cast
    exact Real.Gamma_nat_eq_factorial m
  rw [hG, Nat.add_sub_cancel, Real.exp_sub, Real.exp_sum, Finset.prod_congr rfl fun e _ => Real.exp_log (hm e), Real.exp_nat_mul, Real.exp_log hmu,
    div_pow, one_pow, mul_pow]
  field_simp

/-- the hypotheses are met: two events with equal weights, 5 equal injections found out of 6 -/
example : ∃ ℓ : ℝ, factors (hierarchical_likelihood {} (.single fun (_ : Fin 2) (_ : Fin 3) => encode false 1)
      (fun _ : Fin 5 => encode false 1) 6 2 (fin 1) (some (fin 1)) (fin 1)).1 = [fin ℓ] ∧
    ∫ R in Ioi (0 : ℝ), (1 / R) * (Real.exp (-(R * 7 * ((∑ _ : Fin 5, (1 : ℝ)) / (6 : ℕ)))) * ∏ _ : Fin 2, (R * 7 * mean fun _ : Fin 3 => (1 : ℝ))) =
      (2 - 1).factorial * Real.exp ℓ := by
  have hr : relVar (fun _ : Fin 5 => (1 : ℝ)) 6 = 1 / 30 := by norm_num [relVar]
  have hk : kish (fun _ : Fin 3 => (1 : ℝ)) = 3 := by norm_num [kish]
  exact C107_marginal_likelihood {} (fun (_ : Fin 2) (_ : Fin 3) => (1 : ℝ)) (fun _ : Fin 5 => (1 : ℝ)) 6 (fin 1) (some (fin 1))
    (fin 1) none (by simp [Flags.ok]) rfl (by simp) (by norm_num) (by simp) (fun _ => ⟨0, by simp⟩) (by simp)
    ⟨0, by simp⟩ (by norm_num) (fun _ => ⟨fun _ => by rw [hk]; norm_num, by rw [hr]; norm_num⟩)
    (by simp) (by norm_num)

/-- a unit-rate Gamma variable exists: the identity under its own law -/
example : (ProbabilityTheory.gammaMeasure 3 1).map (fun x => x) = ProbabilityTheory.gammaMeasure 3 1 := Measure.map_id

end GW
end
