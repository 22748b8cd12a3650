import Verif.Props.ErrorBars
import Verif.Props.ParamSmooth
import Mathlib.MeasureTheory.Integral.DominatedConvergence
import Mathlib.Topology.MetricSpace.Basic

/-!
# C131: the posterior of the hyper-parameters converges to the true one

The sampler draws the hyper-parameters from the density `prior × exp (terms added by the likelihood)`.  Those terms are computed from finitely many posterior
samples per event and finitely many injections.  Here: as both numbers grow, the distribution that is sampled converges in total variation, with probability one,
to the posterior of the exact population likelihood.
-/

noncomputable section
open Classical MeasureTheory Finset Filter Topology
namespace GW
open _root_.F

section ulln
variable {Ω α H : Type*} [MeasurableSpace Ω] [MeasurableSpace α] [PseudoMetricSpace H] {P : Measure Ω} [IsProbabilityMeasure P]

/-- the values at all hyper-parameters can be read off from those at countably many -/
structure ReadOff (S : Set H) (g : H → α → ℝ) : Prop where
  countable : S.Countable
  dense : ∀ h a, ∀ U ∈ 𝓝 h, g h a ∈ closure ((fun h' => g h' a) '' (S ∩ U))

/-- functions that are continuous in the hyper-parameters -/
theorem ReadOff.of_continuous {S : Set H} (hS : S.Countable) (hd : Dense S) {g : H → α → ℝ} (hg : ∀ a, Continuous fun h => g h a) : ReadOff S g := by
  refine ⟨hS, fun h a U hU => ?_⟩
  have h1 : h ∈ closure (S ∩ U) := by
    rw [mem_closure_iff_nhds]
    intro V hV
    obtain ⟨x, hx, hxS⟩ := mem_closure_iff_nhds.1 (hd h) (V ∩ U) (inter_mem hV hU)
    exact ⟨x, hx.1, hxS, hx.2⟩
  exact image_closure_subset_closure_image (hg a) ⟨h, h1, rfl⟩

/-- a function applied to the values -/
theorem ReadOff.comp {S : Set H} {g : H → α → ℝ} (h : ReadOff S g) {β : Type*} (x : β → α) (φ : β → ℝ → ℝ) (hφ : ∀ b, Continuous (φ b)) :
    ReadOff S fun h' b => φ b (g h' (x b)) := by
  refine ⟨h.countable, fun h' b U hU => ?_⟩
  have := image_closure_subset_closure_image (hφ b) ⟨_, h.dense h' (x b) U hU, rfl⟩
  rwa [Set.image_image] at this

/-- the largest change of a function within a distance `r` of `h` -/
def osc (S : Set H) (g : H → α → ℝ) (h : H) (r : ℝ) (a : α) : ENNReal := ⨆ h' ∈ S ∩ Metric.ball h r, ENNReal.ofReal |g h' a - g h a|

variable {S : Set H} {g : H → α → ℝ} {G : α → ℝ}

theorem osc_meas (hS : S.Countable) (hg : ∀ h, Measurable (g h)) (h : H) (r : ℝ) : Measurable (osc S g h r) :=
  Measurable.biSup _ (hS.mono Set.inter_subset_left) fun h' _ => (((hg h').sub (hg h)).abs).ennreal_ofReal

theorem osc_le (hG : ∀ h a, |g h a| ≤ G a) (h : H) (r : ℝ) (a : α) : osc S g h r a ≤ ENNReal.ofReal (2 * G a) :=
  iSup₂_le fun h' _ => ENNReal.ofReal_le_ofReal (by
    have h1 := abs_sub (g h' a) (g h a)
    have h2 := hG h' a
    have h3 := hG h a
    linarith)

theorem le_osc (hs : ReadOff S g) {h h' : H} {r : ℝ} (hh : h' ∈ Metric.ball h r) (a : α) : ENNReal.ofReal |g h' a - g h a| ≤ osc S g h r a := by
  have hc : IsClosed {y : ℝ | ENNReal.ofReal |y - g h a| ≤ osc S g h r a} :=
    isClosed_le (ENNReal.continuous_ofReal.comp (by fun_prop)) continuous_const
  refine closure_minimal ?_ hc (hs.dense h' a (Metric.ball h r) (Metric.isOpen_ball.mem_nhds hh))
  rintro _ ⟨x, hx, rfl⟩
  exact le_iSup₂ (f := fun h' (_ : h' ∈ S ∩ Metric.ball h r) => ENNReal.ofReal |g h' a - g h a|) x hx

theorem osc_tendsto {h : H} {a : α} (hc : ContinuousAt (fun h' => g h' a) h) : Tendsto (fun m : ℕ => osc S g h (1 / (m + 1)) a) atTop (𝓝 0) := by
  rw [ENNReal.tendsto_nhds_zero]
  intro ε hε
  rcases eq_or_ne ε ⊤ with rfl | hε'
  · exact Eventually.of_forall fun _ => le_top
  obtain ⟨r, hr, hb⟩ := Metric.continuousAt_iff.1 hc ε.toReal (ENNReal.toReal_pos hε.ne' hε')
  filter_upwards [tendsto_one_div_add_atTop_nhds_zero_nat.eventually (gt_mem_nhds hr)] with m hm
  refine iSup₂_le fun h' hh' => ?_
  have := hb (lt_trans (Metric.mem_ball.1 hh'.2) hm)
  rw [Real.dist_eq] at this
  exact ENNReal.ofReal_le_of_le_toReal this.le

/-- the strong law of large numbers -/
theorem slln {X : ℕ → Ω → α} (h : IIDSeq P X) {f : α → ℝ} (hf : Measurable f) (h1 : Integrable f (P.map (X 0))) :
    ∀ᵐ ω ∂P, Tendsto (fun n : ℕ => (∑ i ∈ range n, f (X i ω)) / n) atTop (𝓝 (∫ a, f a ∂P.map (X 0))) := by
  have hid : ∀ j, ProbabilityTheory.IdentDistrib (fun ω => f (X j ω)) (fun ω => f (X 0 ω)) P P := fun j =>
    (ProbabilityTheory.IdentDistrib.mk (h.meas j).aemeasurable (h.meas 0).aemeasurable (h.ident j)).comp hf
  have s1 := ProbabilityTheory.strong_law_ae_real (μ := P) (fun j ω => f (X j ω)) (h1.comp_measurable (h.meas 0)) (fun i j hij => (h.indep.indepFun hij).comp hf hf) hid
  rwa [integral_map (h.meas 0).aemeasurable hf.aestronglyMeasurable]

/-- The uniform law of large numbers: with probability one the averages converge to the expectations, uniformly in the hyper-parameters. -/
theorem ulln [CompactSpace H] {X : ℕ → Ω → α} (iid : IIDSeq P X) (hg : ∀ h, Measurable (g h)) (hG : ∀ h a, |g h a| ≤ G a)
    (iG : Integrable G (P.map (X 0))) (hc : ∀ h, ∀ᵐ a ∂P.map (X 0), ContinuousAt (fun h' => g h' a) h) (hs : ReadOff S g) :
    ∀ᵐ ω ∂P, Tendsto (fun q : ℕ × H => (∑ i ∈ range q.1, g q.2 (X i ω)) / q.1 - ∫ a, g q.2 a ∂P.map (X 0)) (atTop ×ˢ ⊤) (𝓝 0) := by
  have hp : IsProbabilityMeasure (P.map (X 0)) := Measure.isProbabilityMeasure_map (iid.meas 0).aemeasurable
  have ig : ∀ h, Integrable (g h) (P.map (X 0)) := fun h => iG.mono' (hg h).aestronglyMeasurable (Eventually.of_forall fun a => hG h a)
  have ofin : ∀ h r a, osc S g h r a ≠ ⊤ := fun h r a => ne_top_of_le_ne_top ENNReal.ofReal_ne_top (osc_le hG h r a)
  have om : ∀ h r, Measurable fun a => (osc S g h r a).toReal := fun h r => (osc_meas hs.countable hg h r).ennreal_toReal
  have G0 : ∀ (_ : H) a, 0 ≤ G a := fun h a => (abs_nonneg _).trans (hG h a)
  have ob : ∀ h r a, (osc S g h r a).toReal ≤ 2 * G a := fun h r a =>
    ENNReal.toReal_le_of_le_ofReal (mul_nonneg zero_le_two (G0 h a)) (osc_le hG h r a)
  have oi : ∀ h r, Integrable (fun a => (osc S g h r a).toReal) (P.map (X 0)) := fun h r =>
    (iG.const_mul 2).mono' (om h r).aestronglyMeasurable (Eventually.of_forall fun a => by
      rw [Real.norm_of_nonneg ENNReal.toReal_nonneg]; exact ob h r a)
  have od : ∀ {h h' : H} {r : ℝ}, h' ∈ Metric.ball h r → ∀ a, |g h' a - g h a| ≤ (osc S g h r a).toReal := fun hh a =>
    (ENNReal.ofReal_le_iff_le_toReal (ofin _ _ _)).1 (le_osc hs hh a)
  -- small neighbourhoods
  have small : ∀ (ε : ℝ), 0 < ε → ∀ h, ∃ r > 0, ∫ a, (osc S g h r a).toReal ∂P.map (X 0) < ε := by
    intro ε hε h
    have t : Tendsto (fun m : ℕ => ∫ a, (osc S g h (1 / (m + 1)) a).toReal ∂P.map (X 0)) atTop (𝓝 (∫ _, (0 : ℝ) ∂P.map (X 0))) := by
      refine tendsto_integral_of_dominated_convergence (fun a => 2 * G a) (fun m => (om h _).aestronglyMeasurable) (iG.const_mul 2) (fun m =>
        Eventually.of_forall fun a => by rw [Real.norm_of_nonneg ENNReal.toReal_nonneg]; exact ob h _ a) ?_
      filter_upwards [hc h] with a ha
      have := (ENNReal.tendsto_toReal ENNReal.zero_ne_top).comp (osc_tendsto (S := S) ha)
      rwa [ENNReal.toReal_zero] at this
    rw [integral_zero] at t
    obtain ⟨m, hm⟩ := (t.eventually (gt_mem_nhds hε)).exists
    exact ⟨1 / (m + 1), by positivity, hm⟩
  have step : ∀ j : ℕ, ∀ᵐ ω ∂P, ∀ᶠ n in atTop, ∀ h, |(∑ i ∈ range n, g h (X i ω)) / n - ∫ a, g h a ∂P.map (X 0)| ≤ 4 * (1 / ((j : ℝ) + 1)) := by
    intro j
    set ε : ℝ := 1 / ((j : ℝ) + 1) with hε
    have hε0 : 0 < ε := by positivity
    choose r hr0 hr using small ε hε0
    obtain ⟨t, -, ht⟩ := isCompact_univ.elim_nhds_subcover (fun h => Metric.ball h (r h)) fun h _ => Metric.ball_mem_nhds h (hr0 h)
    have a1 : ∀ᵐ ω ∂P, ∀ h ∈ (t : Set H), Tendsto (fun n : ℕ => (∑ i ∈ range n, g h (X i ω)) / n) atTop (𝓝 (∫ a, g h a ∂P.map (X 0))) ∧
        Tendsto (fun n : ℕ => (∑ i ∈ range n, (osc S g h (r h) (X i ω)).toReal) / n) atTop (𝓝 (∫ a, (osc S g h (r h) a).toReal ∂P.map (X 0))) := by
      rw [ae_ball_iff t.countable_toSet]
      intro h _
      filter_upwards [slln iid (hg h) (ig h), slln iid (om h (r h)) (oi h (r h))] with ω w1 w2
      exact ⟨w1, w2⟩
    filter_upwards [a1] with ω hω
    have ev : ∀ᶠ n in atTop, ∀ h ∈ t, |(∑ i ∈ range n, g h (X i ω)) / (n : ℝ) - ∫ a, g h a ∂P.map (X 0)| < ε ∧
        (∑ i ∈ range n, (osc S g h (r h) (X i ω)).toReal) / (n : ℝ) < ε := by
      rw [Filter.eventually_all_finset]
      intro h hh
      have w := hω h hh
      have e1 := (Metric.tendsto_nhds.1 w.1) ε hε0
      filter_upwards [e1, w.2.eventually (gt_mem_nhds (hr h))] with n n1 n2
      exact ⟨by rwa [Real.dist_eq] at n1, n2⟩
    filter_upwards [ev] with n hn h
    obtain ⟨h0, hh0, hball⟩ : ∃ h0 ∈ t, h ∈ Metric.ball h0 (r h0) := by
      have := ht (Set.mem_univ h)
      simpa using this
    obtain ⟨n1, n2⟩ := hn h0 hh0
    have b1 : |(∑ i ∈ range n, g h (X i ω)) / (n : ℝ) - (∑ i ∈ range n, g h0 (X i ω)) / n| ≤ (∑ i ∈ range n, (osc S g h0 (r h0) (X i ω)).toReal) / n := by
      rw [← sub_div, ← Finset.sum_sub_distrib, abs_div, abs_of_nonneg (Nat.cast_nonneg n : (0 : ℝ) ≤ n)]
      refine div_le_div_of_nonneg_right ((Finset.abs_sum_le_sum_abs _ _).trans (Finset.sum_le_sum fun i _ => od hball _)) (Nat.cast_nonneg n)
    have b2 : |∫ a, g h0 a ∂P.map (X 0) - ∫ a, g h a ∂P.map (X 0)| ≤ ε := by
      rw [abs_sub_comm, ← integral_sub (ig h) (ig h0)]
      refine (abs_integral_le_integral_abs).trans ((integral_mono ((ig h).sub (ig h0)).abs (oi h0 (r h0)) fun a => od hball a).trans (hr h0).le)
    have := abs_sub_le ((∑ i ∈ range n, g h (X i ω)) / (n : ℝ)) ((∑ i ∈ range n, g h0 (X i ω)) / n) (∫ a, g h a ∂P.map (X 0))
    have := abs_sub_le ((∑ i ∈ range n, g h0 (X i ω)) / (n : ℝ)) (∫ a, g h0 a ∂P.map (X 0)) (∫ a, g h a ∂P.map (X 0))
    linarith
  filter_upwards [ae_all_iff.2 step] with ω hω
  rw [Metric.tendsto_nhds]
  intro ε hε
  obtain ⟨j, hj⟩ := exists_nat_one_div_lt (div_pos hε (by norm_num : (0 : ℝ) < 4))
  rw [Filter.eventually_iff, Filter.mem_prod_top]
  filter_upwards [hω j] with n hn h
  have := hn h
  rw [Real.dist_eq, sub_zero]
  rw [lt_div_iff₀ (by norm_num)] at hj
  linarith

end ulln

/-! ## the Monte Carlo averages, uniformly in the hyper-parameters -/

section uniform
variable {Ω α H : Type*} [MeasurableSpace Ω] [MeasurableSpace α] [PseudoMetricSpace H] [CompactSpace H] {P : Measure Ω} [IsProbabilityMeasure P]
variable {S : Set H} {g : H → α → ℝ} {G : α → ℝ} {X : ℕ → Ω → α}

/-- weights that depend on hyper-parameters: for each of them weights as before, all dominated by one function with a finite variance, continuous in the
hyper-parameters at almost every sample -/
structure WeightsFamily (P : Measure Ω) (X : ℕ → Ω → α) (S : Set H) (g : H → α → ℝ) (G : α → ℝ) : Prop where
  each : ∀ h, Weights P X (g h)
  envelope : Weights P X G
  le : ∀ h a, g h a ≤ G a
  cont : ∀ h, ∀ᵐ a ∂P.map (X 0), ContinuousAt (fun h' => g h' a) h
  readOff : ReadOff S g

/-- the expected weight at given hyper-parameters -/
def WeightsFamily.B (_ : WeightsFamily P X S g G) (h : H) : ℝ := ∫ a, g h a ∂P.map (X 0)

theorem WeightsFamily.absle (w : WeightsFamily P X S g G) (h : H) (a : α) : |g h a| ≤ G a := by
  rw [abs_of_nonneg ((w.each h).nonneg a)]; exact w.le h a

theorem WeightsFamily.intG (w : WeightsFamily P X S g G) : Integrable G (P.map (X 0)) := by
  have hp : IsProbabilityMeasure (P.map (X 0)) := Measure.isProbabilityMeasure_map (w.envelope.iid.meas 0).aemeasurable
  exact w.envelope.memLp.integrable (by norm_num)

theorem WeightsFamily.continuous (w : WeightsFamily P X S g G) : Continuous w.B :=
  continuous_iff_continuousAt.2 fun h => continuousAt_of_dominated (Eventually.of_forall fun h' => (w.each h').meas.aestronglyMeasurable)
    (Eventually.of_forall fun h' => Eventually.of_forall fun a => w.absle h' a) w.intG (w.cont h)

/-- the expected weights are bounded away from 0 and from infinity -/
theorem WeightsFamily.bounds [Nonempty H] (w : WeightsFamily P X S g G) : ∃ b C : ℝ, 0 < b ∧ 0 < C ∧ ∀ h, b ≤ w.B h ∧ w.B h ≤ C := by
  obtain ⟨h0, -, h1⟩ := isCompact_univ.exists_isMinOn Set.univ_nonempty w.continuous.continuousOn
  obtain ⟨h2, -, h3⟩ := isCompact_univ.exists_isMaxOn Set.univ_nonempty w.continuous.continuousOn
  exact ⟨w.B h0, w.B h2, (w.each h0).pos, (w.each h2).pos, fun h => ⟨h1 (Set.mem_univ h), h3 (Set.mem_univ h)⟩⟩

/-- for almost all samples: the ratios of the averages to the expectations tend to 1, and the sums of squares over the squares of the sums to 0, uniformly in the
hyper-parameters -/
theorem WeightsFamily.uniform [Nonempty H] (w : WeightsFamily P X S g G) : ∀ᵐ ω ∂P,
    Tendsto (fun q : ℕ × H => avg X (g q.2) q.1 ω / w.B q.2) (atTop ×ˢ ⊤) (𝓝 1) ∧
    Tendsto (fun q : ℕ × H => (∑ i ∈ range q.1, g q.2 (X i ω) ^ 2) / (∑ i ∈ range q.1, g q.2 (X i ω)) ^ 2) (atTop ×ˢ ⊤) (𝓝 0) := by
  obtain ⟨b, C, hb, -, hbC⟩ := w.bounds
  filter_upwards [ulln w.envelope.iid (fun h => (w.each h).meas) w.absle w.intG w.cont w.readOff, w.envelope.averages] with ω h1 h2
  have r1 : Tendsto (fun q : ℕ × H => avg X (g q.2) q.1 ω / w.B q.2) (atTop ×ˢ ⊤) (𝓝 1) := by
    rw [tendsto_iff_norm_sub_tendsto_zero]
    have t : Tendsto (fun q : ℕ × H => |(∑ i ∈ range q.1, g q.2 (X i ω)) / q.1 - ∫ a, g q.2 a ∂P.map (X 0)| / b) (atTop ×ˢ ⊤) (𝓝 0) := by
      simpa using h1.abs.div_const b
    refine squeeze_zero (fun q => norm_nonneg _) (fun q => ?_) t
    have hB := hbC q.2
    have hB0 : 0 < w.B q.2 := lt_of_lt_of_le hb hB.1
    rw [Real.norm_eq_abs, div_sub_one hB0.ne', abs_div, abs_of_pos hB0]
    exact div_le_div_of_nonneg_left (abs_nonneg _) hb hB.1
  refine ⟨r1, ?_⟩
  have fst : Tendsto (fun q : ℕ × H => q.1) (atTop ×ˢ (⊤ : Filter H)) atTop := tendsto_fst
  have t : Tendsto (fun q : ℕ × H => (∑ i ∈ range q.1, G (X i ω) ^ 2) / q.1 * (1 / q.1) * (4 / b ^ 2)) (atTop ×ˢ ⊤) (𝓝 0) := by
    have := ((h2.second.comp fst).mul (tendsto_one_div_atTop_nhds_zero_nat.comp fst)).mul_const (4 / b ^ 2)
    simpa using this
  refine squeeze_zero' (Eventually.of_forall fun q => div_nonneg (Finset.sum_nonneg fun i _ => sq_nonneg _) (sq_nonneg _)) ?_ t
  filter_upwards [r1.eventually (lt_mem_nhds (by norm_num : (1 / 2 : ℝ) < 1)), fst.eventually (eventually_gt_atTop 0)] with q hq hq0
  have hB := hbC q.2
  have hB0 : 0 < w.B q.2 := lt_of_lt_of_le hb hB.1
  have hn : (0 : ℝ) < q.1 := by exact_mod_cast hq0
  rw [lt_div_iff₀ hB0, avg, lt_div_iff₀ hn] at hq
  have hlow : b / 2 * q.1 ≤ ∑ i ∈ range q.1, g q.2 (X i ω) := by
    have := mul_le_mul_of_nonneg_right hB.1 hn.le
    nlinarith
  have hlow0 : 0 < b / 2 * q.1 := by positivity
  have hnum : ∑ i ∈ range q.1, g q.2 (X i ω) ^ 2 ≤ ∑ i ∈ range q.1, G (X i ω) ^ 2 :=
    Finset.sum_le_sum fun i _ => pow_le_pow_left₀ ((w.each q.2).nonneg _) (w.le _ _) 2
  refine (div_le_div₀ (Finset.sum_nonneg fun i _ => sq_nonneg _) hnum (pow_pos hlow0 2) (pow_le_pow_left₀ hlow0.le hlow 2)).trans (le_of_eq ?_)
  field_simp
  ring

/-- the same at any sequence of sample sizes that grows -/
theorem WeightsFamily.uniform_at [Nonempty H] (w : WeightsFamily P X S g G) {n : ℕ → ℕ} (hn : Tendsto n atTop atTop) : ∀ᵐ ω ∂P,
    Tendsto (fun q : ℕ × H => (∑ i ∈ range (n q.1), g q.2 (X i ω)) / n q.1 / w.B q.2) (atTop ×ˢ ⊤) (𝓝 1) ∧
    Tendsto (fun q : ℕ × H => (∑ i ∈ range (n q.1), g q.2 (X i ω) ^ 2) / (∑ i ∈ range (n q.1), g q.2 (X i ω)) ^ 2) (atTop ×ˢ ⊤) (𝓝 0) := by
  have kn : Tendsto (fun q : ℕ × H => (n q.1, q.2)) (atTop ×ˢ ⊤) (atTop ×ˢ ⊤) := hn.prodMap tendsto_id
  filter_upwards [w.uniform] with ω h
  have h1 := h.1.comp kn
  have h2 := h.2.comp kn
  simp only [Function.comp_def, avg] at h1 h2
  exact ⟨h1, h2⟩

end uniform

/-! ## the posterior of the hyper-parameters -/

/-- the factor by which the terms added to the log density multiply the prior -/
def likelihoodOf : List F → ℝ
  | [fin l] => Real.exp l
  | _ => 0

/-- the probability of a set of hyper-parameters under the distribution whose density with respect to `ρ` is proportional to `w` -/
def posteriorProb {H : Type*} [MeasurableSpace H] (ρ : Measure H) (w : H → ℝ) (A : Set H) : ℝ := (∫ h in A, w h ∂ρ) / ∫ h, w h ∂ρ

theorem posteriorProb_close {H : Type*} [MeasurableSpace H] {ρ : Measure H} [IsProbabilityMeasure ρ] {w w0 : H → ℝ} (hw0 : ∀ h, 0 ≤ w h) (hi : Integrable w ρ)
    (hi0 : Integrable w0 ρ) (hpos : 0 < ∫ h, w h ∂ρ) (hpos0 : 0 < ∫ h, w0 h ∂ρ) {δ : ℝ} (hδ : ∀ h, |w h - w0 h| ≤ δ) (A : Set H) :
    |posteriorProb ρ w A - posteriorProb ρ w0 A| ≤ 2 * δ / ∫ h, w0 h ∂ρ := by
  have hδ0 : 0 ≤ δ := by
    obtain ⟨h⟩ := nonempty_of_isProbabilityMeasure ρ
    exact (abs_nonneg _).trans (hδ h)
  have close : ∀ B : Set H, |∫ h in B, w h ∂ρ - ∫ h in B, w0 h ∂ρ| ≤ δ := fun B => by
    rw [← integral_sub hi.integrableOn hi0.integrableOn]
    refine abs_integral_le_integral_abs.trans ?_
    refine (integral_mono (hi.sub hi0).abs.integrableOn (integrable_const δ) hδ).trans ?_
    rw [integral_const, smul_eq_mul]
    have : (ρ.restrict B).real Set.univ ≤ 1 := by
      rw [measureReal_restrict_apply_univ]; exact measureReal_le_one
    exact mul_le_of_le_one_left hδ0 this
  have c1 := close A
  have c2 := close Set.univ
  rw [setIntegral_univ, setIntegral_univ] at c2
  have hA : ∫ h in A, w h ∂ρ ≤ ∫ h, w h ∂ρ := setIntegral_le_integral hi (Eventually.of_forall hw0)
  have hA0 : 0 ≤ ∫ h in A, w h ∂ρ := integral_nonneg hw0
  unfold posteriorProb
  generalize (∫ h in A, w h ∂ρ) = a at *
  generalize (∫ h, w h ∂ρ) = z at *
  generalize (∫ h in A, w0 h ∂ρ) = a0 at *
  generalize (∫ h, w0 h ∂ρ) = z0 at *
  rw [div_sub_div _ _ hpos.ne' hpos0.ne', abs_div, abs_of_pos (mul_pos hpos hpos0), div_le_div_iff₀ (mul_pos hpos hpos0) hpos0]
  have e : a * z0 - z * a0 = a * (z0 - z) + z * (a - a0) := by ring
  have b1 : |a * z0 - z * a0| ≤ z * δ + z * δ := by
    rw [e]
    refine (abs_add_le _ _).trans (add_le_add ?_ ?_)
    · rw [abs_mul, abs_of_nonneg hA0, abs_sub_comm]
      exact mul_le_mul hA c2 (abs_nonneg _) hpos.le
    · rw [abs_mul, abs_of_pos hpos]
      exact mul_le_mul_of_nonneg_left c1 hpos.le
  nlinarith

section posterior
variable {Ω Θ H : Type*} [MeasurableSpace Ω] [MeasurableSpace Θ] [PseudoMetricSpace H] [CompactSpace H] [MeasurableSpace H] [OpensMeasurableSpace H]
  {P : Measure Ω} [IsProbabilityMeasure P] {ν : Measure Θ} {pop : H → Θ → ℝ} {G : Θ → ℝ} {S : Set H} {L π : Θ → ℝ} {Z : ℝ} {θ : ℕ → Ω → Θ}
  {d pdet : Θ → ℝ} {I : ℕ → Ω → Θ × Bool}

/-- A population model with a compact set of hyper-parameters: measurable and non-negative, dominated by one function `G`, continuous in the hyper-parameters at
almost every point, and determined by countably many of them. -/
structure Population (ν : Measure Θ) (pop : H → Θ → ℝ) (G : Θ → ℝ) (S : Set H) : Prop where
  meas : ∀ h, Measurable (pop h)
  measH : ∀ t, Measurable fun h => pop h t
  nonneg : ∀ h t, 0 ≤ pop h t
  measG : Measurable G
  le : ∀ h t, pop h t ≤ G t
  cont : ∀ h, ∀ᵐ t ∂ν, ContinuousAt (fun h' => pop h' t) h
  readOff : ReadOff S pop

theorem Population.nonnegG [Nonempty H] (p : Population ν pop G S) (t : Θ) : 0 ≤ G t := by
  obtain ⟨h⟩ := ‹Nonempty H›
  exact (p.nonneg h t).trans (p.le h t)

theorem Population.event (p : Population ν pop G S) (h : Event P ν G L π Z θ) (hpos : ∀ x, 0 < ∫ t, L t * pop x t ∂ν) (x : H) : Event P ν (pop x) L π Z θ := by
  have hle : ∀ t, pop x t / π t ≤ G t / π t := fun t => div_le_div_of_nonneg_right (p.le x t) (h.π0 t)
  refine ⟨h.iid, h.law, h.mL, h.mπ, h.L0, h.π0, h.Z0, fun t ht => ?_, ?_, hpos x⟩
  · have := h.support t ht
    have h1 := mul_le_mul_of_nonneg_left (p.le x t) (h.L0 t)
    have h2 := mul_nonneg (h.L0 t) (p.nonneg x t)
    linarith
  · refine h.square.mono' (((p.meas x).div h.mπ).pow_const 2).aestronglyMeasurable (Eventually.of_forall fun t => ?_)
    rw [Real.norm_of_nonneg (sq_nonneg _)]
    exact pow_le_pow_left₀ (div_nonneg (p.nonneg x t) (h.π0 t)) (hle t) 2

theorem Population.injections (p : Population ν pop G S) (h : Injections P ν G d pdet I) (hpos : ∀ x, 0 < ∫ t, pdet t * pop x t ∂ν) (x : H) :
    Injections P ν (pop x) d pdet I := by
  have hle : ∀ t, pop x t / d t ≤ G t / d t := fun t => div_le_div_of_nonneg_right (p.le x t) (h.d0 t)
  refine ⟨h.iid, h.law, h.md, h.mp, h.d0, h.p0, fun t ht => ?_, ?_, hpos x⟩
  · have := h.support t ht
    have h1 := mul_le_mul_of_nonneg_left (p.le x t) (h.p0 t)
    have h2 := mul_nonneg (h.p0 t) (p.nonneg x t)
    linarith
  · refine h.square.mono' (((p.meas x).div h.md).pow_const 2).aestronglyMeasurable (Eventually.of_forall fun t => ?_)
    rw [Real.norm_of_nonneg (sq_nonneg _)]
    exact pow_le_pow_left₀ (div_nonneg (p.nonneg x t) (h.d0 t)) (hle t) 2

theorem Population.eventFamily [Nonempty H] (p : Population ν pop G S) (h : Event P ν G L π Z θ) (hpos : ∀ x, 0 < ∫ t, L t * pop x t ∂ν) :
    WeightsFamily P θ S (fun x t => pop x t / π t) fun t => G t / π t := by
  refine ⟨fun x => (p.event h hpos x).weights (p.meas x) (p.nonneg x), h.weights p.measG p.nonnegG, fun x t => div_le_div_of_nonneg_right (p.le x t) (h.π0 t),
    fun x => ?_, p.readOff.comp (fun t => t) (fun t y => y / π t) fun t => by fun_prop⟩
  rw [h.law]
  have := (withDensity_absolutelyContinuous ν fun t => ENNReal.ofReal (L t * π t / Z)).ae_le (p.cont x)
  filter_upwards [this] with t ht
  exact ht.div_const _

theorem Population.injFamily [Nonempty H] (p : Population ν pop G S) (h : Injections P ν G d pdet I) (hpos : ∀ x, 0 < ∫ t, pdet t * pop x t ∂ν) :
    WeightsFamily P I S (fun x => injWeight (pop x) d) (injWeight G d) := by
  refine ⟨fun x => (p.injections h hpos x).weights (p.meas x) (p.nonneg x), h.weights p.measG p.nonnegG, fun x t => ?_, fun x => ?_, ?_⟩
  · unfold injWeight
    split_ifs
    · exact div_le_div_of_nonneg_right (p.le x _) (h.d0 _)
    · exact le_rfl
  · have h1 := (withDensity_absolutelyContinuous ν fun t => ENNReal.ofReal (d t * pdet t)).ae_le (p.cont x)
    change ∀ᵐ t ∂foundLaw ν d pdet, _ at h1
    rw [← h.law] at h1
    have h2 := ae_of_ae_map measurable_fst.aemeasurable h1
    rw [ae_restrict_iff' (measurable_snd (measurableSet_singleton true))] at h2
    filter_upwards [h2] with y hy
    unfold injWeight
    by_cases hy2 : y.2 = true
    · simp only [if_pos hy2]
      exact (hy hy2).div_const _
    · simp only [if_neg hy2]
      exact continuousAt_const
  · refine (p.readOff.comp (fun y : Θ × Bool => y.1) (fun y z => if y.2 then z / d y.1 else 0) fun y => ?_)
    by_cases hy2 : y.2 = true
    · simp only [if_pos hy2]; fun_prop
    · simp only [if_neg hy2]; fun_prop

/-- the population likelihood: the product of the Bayes factors over the power of the efficiency -/
def populationLikelihood {E : ℕ} (ν : Measure Θ) (pop : H → Θ → ℝ) (L : Fin E → Θ → ℝ) (Z : Fin E → ℝ) (pdet : Θ → ℝ) (h : H) : ℝ :=
  (∏ e, bayesFactor ν (pop h) (L e) (Z e)) / efficiency ν (pop h) pdet ^ E

/-- the likelihood as the code computes it, uniformly in the hyper-parameters -/
theorem likelihood_uniform [Nonempty H] {E : ℕ} (hE : 0 < E) {fl : Flags} (hfl : fl.ok) {hv : Option F} (hhv : fl.reconstruct_rate = true → hv ≠ none) (T u : F)
    (p : Population ν pop G S) {L π : Fin E → Θ → ℝ} {Z : Fin E → ℝ} {θ : Fin E → ℕ → Ω → Θ} (he : ∀ e, Event P ν G (L e) (π e) (Z e) (θ e))
    (hi : Injections P ν G d pdet I) (hpe : ∀ e h, 0 < ∫ t, L e t * pop h t ∂ν) (hpi : ∀ h, 0 < ∫ t, pdet t * pop h t ∂ν)
    {N n : ℕ → ℕ} (hN : Tendsto N atTop atTop) (hn : Tendsto n atTop atTop) :
    Continuous (populationLikelihood ν pop L Z pdet) ∧ (∀ h, 0 < populationLikelihood ν pop L Z pdet h) ∧
    ∀ᵐ ω ∂P, ∃ W : ℕ → H → ℝ, (∀ k, Measurable (W k)) ∧ (∀ k h, 0 < W k h) ∧
      (∀ᶠ k in atTop, ∀ h, likelihoodOf (likelihoodFactors fl (fun e j => pop h (θ e j ω) / π e (θ e j ω)) (fun j => pop h (I j ω).1 / d (I j ω).1) (fun j => (I j ω).2)
        T u hv (N k) (n k)) = W k h) ∧
      ∀ δ > 0, ∀ᶠ k in atTop, ∀ h, |W k h - populationLikelihood ν pop L Z pdet h| ≤ δ := by
  have hE1 : (0 : ℝ) < E := by exact_mod_cast hE
  have we := fun e => p.eventFamily (he e) (hpe e)
  have wi := p.injFamily hi hpi
  have hBe : ∀ e h, (we e).B h = bayesFactor ν (pop h) (L e) (Z e) := fun e h => (p.event (he e) (hpe e) h).mean
  have hBi : ∀ h, wi.B h = efficiency ν (pop h) pdet := fun h => (p.injections hi hpi h).mean (p.meas h)
  have hBe0 : ∀ e h, 0 < (we e).B h := fun e h => ((we e).each h).pos
  have hBi0 : ∀ h, 0 < wi.B h := fun h => (wi.each h).pos
  have epl : populationLikelihood ν pop L Z pdet = fun h => (∏ e, (we e).B h) / wi.B h ^ E := by
    funext h; simp only [populationLikelihood, hBe, hBi]
  have cpl : Continuous (populationLikelihood ν pop L Z pdet) := by
    rw [epl]
    exact (continuous_finsetProd _ fun e _ => (we e).continuous).div (wi.continuous.pow E) fun h => (pow_pos (hBi0 h) E).ne'
  have ppl : ∀ h, 0 < populationLikelihood ν pop L Z pdet h := fun h => by
    rw [epl]; exact div_pos (Finset.prod_pos fun e _ => hBe0 e h) (pow_pos (hBi0 h) E)
  refine ⟨cpl, ppl, ?_⟩
  obtain ⟨hm, -, hC⟩ := isCompact_univ.exists_isMaxOn Set.univ_nonempty cpl.continuousOn
  have h1 := ae_all_iff.2 fun e => (we e).uniform_at hN
  filter_upwards [h1, wi.uniform_at hn] with ω w1 w2
  let m : ℝ := if fl.marginalize_selection then (E : ℝ) * (3 + E) / 2 else 0
  let sI : ℕ × H → ℝ := fun q => (∑ j ∈ range (n q.1), injWeight (pop q.2) d (I j ω) ^ 2) / (∑ j ∈ range (n q.1), injWeight (pop q.2) d (I j ω)) ^ 2
  let sE : Fin E → ℕ × H → ℝ := fun e q => (∑ i ∈ range (N q.1), (pop q.2 (θ e i ω) / π e (θ e i ω)) ^ 2) / (∑ i ∈ range (N q.1), pop q.2 (θ e i ω) / π e (θ e i ω)) ^ 2
  let ℓ : ℕ × H → ℝ := fun q => ∑ e, Real.log ((∑ i ∈ range (N q.1), pop q.2 (θ e i ω) / π e (θ e i ω)) / N q.1) -
    E * Real.log ((∑ j ∈ range (n q.1), injWeight (pop q.2) d (I j ω)) / n q.1) + m * (sI q - 1 / n q.1)
  have fst : Tendsto (fun q : ℕ × H => q.1) (atTop ×ˢ (⊤ : Filter H)) atTop := tendsto_fst
  have rE : ∀ e, Tendsto (fun q : ℕ × H => (∑ i ∈ range (N q.1), pop q.2 (θ e i ω) / π e (θ e i ω)) / N q.1 / (we e).B q.2) (atTop ×ˢ ⊤) (𝓝 1) := fun e => (w1 e).1
  have rI : Tendsto (fun q : ℕ × H => (∑ j ∈ range (n q.1), injWeight (pop q.2) d (I j ω)) / n q.1 / wi.B q.2) (atTop ×ˢ ⊤) (𝓝 1) := w2.1
  have tE : ∀ e, Tendsto (sE e) (atTop ×ˢ ⊤) (𝓝 0) := fun e => (w1 e).2
  have tI : Tendsto sI (atTop ×ˢ ⊤) (𝓝 0) := w2.2
  have oN : Tendsto (fun q : ℕ × H => 1 / (N q.1 : ℝ)) (atTop ×ˢ ⊤) (𝓝 0) := (tendsto_one_div_atTop_nhds_zero_nat.comp hN).comp fst
  have on : Tendsto (fun q : ℕ × H => 1 / (n q.1 : ℝ)) (atTop ×ˢ ⊤) (𝓝 0) := (tendsto_one_div_atTop_nhds_zero_nat.comp hn).comp fst
  have posE : ∀ᶠ q : ℕ × H in atTop ×ˢ ⊤, ∀ e, 0 < (∑ i ∈ range (N q.1), pop q.2 (θ e i ω) / π e (θ e i ω)) / N q.1 := eventually_all.2 fun e => by
    filter_upwards [(rE e).eventually (lt_mem_nhds one_pos)] with q hq
    exact (div_pos_iff_of_pos_right (hBe0 e q.2)).1 hq
  have posI : ∀ᶠ q : ℕ × H in atTop ×ˢ ⊤, 0 < (∑ j ∈ range (n q.1), injWeight (pop q.2) d (I j ω)) / n q.1 := by
    filter_upwards [rI.eventually (lt_mem_nhds one_pos)] with q hq
    exact (div_pos_iff_of_pos_right (hBi0 q.2)).1 hq
  have sum_pos : ∀ {x : ℝ} {k : ℕ}, 0 < x / k → 0 < x := fun {x k} h => by
    rcases lt_or_ge 0 x with hx | hx
    · exact hx
    · exact absurd h (not_lt.2 (div_nonpos_of_nonpos_of_nonneg hx (Nat.cast_nonneg k)))
  -- the logarithm converges
  have tl : Tendsto (fun q : ℕ × H => ℓ q - Real.log (populationLikelihood ν pop L Z pdet q.2)) (atTop ×ˢ ⊤) (𝓝 0) := by
    have l1 : ∀ {r : ℕ × H → ℝ}, Tendsto r (atTop ×ˢ ⊤) (𝓝 1) → Tendsto (fun q => Real.log (r q)) (atTop ×ˢ ⊤) (𝓝 0) := fun h => by
      have := (Real.continuousAt_log one_ne_zero).tendsto.comp h
      rwa [Real.log_one] at this
    have := ((tendsto_finsetSum univ fun e _ => l1 (rE e)).sub ((l1 rI).const_mul (E : ℝ))).add ((tI.sub on).const_mul m)
    simp only [sum_const_zero, mul_zero, sub_zero, add_zero] at this
    refine this.congr' ?_
    filter_upwards [posE, posI] with q q1 q2
    have e1 : Real.log (populationLikelihood ν pop L Z pdet q.2) = ∑ e, Real.log ((we e).B q.2) - E * Real.log (wi.B q.2) := by
      rw [epl]
      simp only
      rw [Real.log_div (Finset.prod_pos fun e _ => hBe0 e _).ne' (pow_pos (hBi0 _) E).ne', Real.log_prod fun e _ => (hBe0 e _).ne', Real.log_pow]
    simp only [ℓ, e1]
    rw [Finset.sum_congr rfl fun e _ => Real.log_div (q1 e).ne' (hBe0 e q.2).ne', Real.log_div q2.ne' (hBi0 q.2).ne', Finset.sum_sub_distrib]
    ring
  refine ⟨fun k h => Real.exp (ℓ (k, h)), fun k => ?_, fun k h => Real.exp_pos _, ?_, fun δ hδ => ?_⟩
  · have mi : ∀ j, Measurable fun h => injWeight (pop h) d (I j ω) := fun j => by
      unfold injWeight
      by_cases hy : (I j ω).2 = true
      · simp only [if_pos hy]; exact (p.measH _).div_const _
      · simp only [if_neg hy]; exact measurable_const
    have me : ∀ e j, Measurable fun h => pop h (θ e j ω) / π e (θ e j ω) := fun e j => (p.measH _).div_const _
    have a1 : Measurable fun h => ∑ j ∈ range (n k), injWeight (pop h) d (I j ω) := Finset.measurable_fun_sum _ fun j _ => mi j
    have a2 : Measurable fun h => ∑ j ∈ range (n k), injWeight (pop h) d (I j ω) ^ 2 := Finset.measurable_fun_sum _ fun j _ => (mi j).pow_const 2
    have a3 : Measurable fun h => ∑ e, Real.log ((∑ i ∈ range (N k), pop h (θ e i ω) / π e (θ e i ω)) / N k) :=
      Finset.measurable_fun_sum _ fun e _ => Real.measurable_log.comp ((Finset.measurable_fun_sum _ fun j _ => me e j).div_const _)
    have a4 : Measurable fun h => E * Real.log ((∑ j ∈ range (n k), injWeight (pop h) d (I j ω)) / n k) :=
      (Real.measurable_log.comp (a1.div_const _)).const_mul _
    have a5 : Measurable fun h => m * ((∑ j ∈ range (n k), injWeight (pop h) d (I j ω) ^ 2) / (∑ j ∈ range (n k), injWeight (pop h) d (I j ω)) ^ 2 - 1 / n k) :=
      ((a2.div (a1.pow_const 2)).sub_const _).const_mul m
    exact Real.measurable_exp.comp ((a3.sub a4).add a5)
  · have c3 : ∀ᶠ q : ℕ × H in atTop ×ˢ ⊤, ∀ e, sE e q < 1 / E := eventually_all.2 fun e => (tE e).eventually (gt_mem_nhds (by positivity))
    have c4 : ∀ᶠ q : ℕ × H in atTop ×ˢ ⊤, 4 * E * (sI q - 1 / n q.1) < 1 := ((tI.sub on).const_mul (4 * (E : ℝ))).eventually (gt_mem_nhds (by simp))
    have c5 : ∀ᶠ q : ℕ × H in atTop ×ˢ ⊤, (E : ℝ) ^ 2 * (sI q - 1 / n q.1 - 1 / n q.1) + ∑ e, (sE e q - 1 / N q.1) < 1 :=
      ((((tI.sub on).sub on).const_mul ((E : ℝ) ^ 2)).add (tendsto_finsetSum univ fun e _ => (tE e).sub oN)).eventually (gt_mem_nhds (by simp))
    have all : ∀ᶠ q : ℕ × H in atTop ×ˢ ⊤, likelihoodOf (likelihoodFactors fl (fun e j => pop q.2 (θ e j ω) / π e (θ e j ω)) (fun j => pop q.2 (I j ω).1 / d (I j ω).1)
        (fun j => (I j ω).2) T u hv (N q.1) (n q.1)) = Real.exp (ℓ q) := by
      filter_upwards [posE, posI, c3, c4, c5] with q a1 a2 a3 a4 a5
      have hset : Settled (fun e j => pop q.2 (θ e j ω) / π e (θ e j ω)) (fun j => if (I j ω).2 then pop q.2 (I j ω).1 / d (I j ω).1 else 0) (N q.1) (n q.1) :=
        ⟨fun e => sum_pos (a1 e), sum_pos a2, a3, a4, a5⟩
      rw [settled_value hE hfl hhv T u (fun e j => div_nonneg (p.nonneg _ _) ((he e).π0 _)) (fun j => div_nonneg (p.nonneg _ _) (hi.d0 _)) hset]
      rfl
    rw [Filter.eventually_iff, Filter.mem_prod_top] at all
    exact all
  · have t : Tendsto (fun q : ℕ × H => populationLikelihood ν pop L Z pdet hm * |Real.exp (ℓ q - Real.log (populationLikelihood ν pop L Z pdet q.2)) - 1|) (atTop ×ˢ ⊤) (𝓝 0) := by
      have := (((Real.continuous_exp.tendsto 0).comp tl).sub_const 1).abs.const_mul (populationLikelihood ν pop L Z pdet hm)
      simpa using this
    have ev : ∀ᶠ q : ℕ × H in atTop ×ˢ ⊤, |Real.exp (ℓ q) - populationLikelihood ν pop L Z pdet q.2| ≤ δ := by
      filter_upwards [t.eventually (gt_mem_nhds hδ)] with q hq
      have e1 : Real.exp (ℓ q) = populationLikelihood ν pop L Z pdet q.2 * Real.exp (ℓ q - Real.log (populationLikelihood ν pop L Z pdet q.2)) := by
        rw [Real.exp_sub, Real.exp_log (ppl _), mul_div_cancel₀ _ (ppl _).ne']
      have e2 : Real.exp (ℓ q) - populationLikelihood ν pop L Z pdet q.2 =
          populationLikelihood ν pop L Z pdet q.2 * (Real.exp (ℓ q - Real.log (populationLikelihood ν pop L Z pdet q.2)) - 1) := by
        rw [mul_sub, ← e1, mul_one]
      rw [e2, abs_mul, abs_of_pos (ppl _)]
      exact (mul_le_mul_of_nonneg_right (hC (Set.mem_univ q.2)) (abs_nonneg _)).trans hq.le
    rw [Filter.eventually_iff, Filter.mem_prod_top] at ev
    exact ev

/-- **C131.**  With probability one, as the numbers of posterior samples per event and of injections grow (at any relative speed), the posterior distribution of the
hyper-parameters that belongs to the likelihood as computed converges in total variation to the posterior that belongs to the population likelihood
`∏ₑ ∫ Lₑ pop_h / Zₑ  /  (∫ pdet pop_h) ^ E`: for every prior on a compact set of hyper-parameters and every admissible combination of flags. -/
theorem C131_posterior {E : ℕ} (hE : 0 < E) {fl : Flags} (hfl : fl.ok) {hv : Option F} (hhv : fl.reconstruct_rate = true → hv ≠ none) (T u : F)
    (p : Population ν pop G S) {L π : Fin E → Θ → ℝ} {Z : Fin E → ℝ} {θ : Fin E → ℕ → Ω → Θ} (he : ∀ e, Event P ν G (L e) (π e) (Z e) (θ e))
    (hi : Injections P ν G d pdet I) (hpe : ∀ e h, 0 < ∫ t, L e t * pop h t ∂ν) (hpi : ∀ h, 0 < ∫ t, pdet t * pop h t ∂ν)
    {N n : ℕ → ℕ} (hN : Tendsto N atTop atTop) (hn : Tendsto n atTop atTop) (prior : Measure H) [IsProbabilityMeasure prior] :
    ∀ᵐ ω ∂P, ∀ ε > 0, ∀ᶠ k in atTop, ∀ A : Set H,
      |posteriorProb prior (fun h => likelihoodOf (likelihoodFactors fl (fun e j => pop h (θ e j ω) / π e (θ e j ω)) (fun j => pop h (I j ω).1 / d (I j ω).1)
          (fun j => (I j ω).2) T u hv (N k) (n k))) A - posteriorProb prior (populationLikelihood ν pop L Z pdet) A| < ε := by
  have : Nonempty H := nonempty_of_isProbabilityMeasure prior
  obtain ⟨cpl, ppl, h⟩ := likelihood_uniform hE hfl hhv T u p he hi hpe hpi hN hn
  obtain ⟨hm, -, hC⟩ := isCompact_univ.exists_isMaxOn Set.univ_nonempty cpl.continuousOn
  have i0 : Integrable (populationLikelihood ν pop L Z pdet) prior := Integrable.of_bound cpl.measurable.aestronglyMeasurable (populationLikelihood ν pop L Z pdet hm)
    (Eventually.of_forall fun h => by rw [Real.norm_of_nonneg (ppl h).le]; exact hC (Set.mem_univ h))
  have int_pos : ∀ {w : H → ℝ}, Integrable w prior → (∀ h, 0 < w h) → 0 < ∫ h, w h ∂prior := fun {w} hw hp => by
    rw [integral_pos_iff_support_of_nonneg (fun h => (hp h).le) hw]
    have : Function.support w = Set.univ := Set.eq_univ_of_forall fun h => (hp h).ne'
    rw [this, measure_univ]; exact one_pos
  have z0 := int_pos i0 ppl
  filter_upwards [h] with ω ⟨W, mW, pW, eW, cW⟩ ε hε
  set δ := ε * (∫ h, populationLikelihood ν pop L Z pdet h ∂prior) / 4 with hδ
  have hδ0 : 0 < δ := by positivity
  filter_upwards [eW, cW δ hδ0] with k k1 k2 A
  rw [funext k1]
  have iW : Integrable (W k) prior := by
    refine (i0.add (integrable_const δ)).mono' (mW k).aestronglyMeasurable (Eventually.of_forall fun h => ?_)
    rw [Real.norm_of_nonneg (pW k h).le]
    have := (abs_le.1 (k2 h)).2
    simp only [Pi.add_apply]
    linarith
  refine (posteriorProb_close (fun h => (pW k h).le) iW i0 (int_pos iW (pW k)) z0 k2 A).trans_lt ?_
  rw [div_lt_iff₀ z0, hδ]
  nlinarith [mul_pos hε z0]

end posterior

/-! ## the truncated power law as a population -/

/-- the rational numbers of an interval and its end points -/
def ratPoints (a b : ℝ) : Set (Set.Icc a b) := {x | (x : ℝ) ∈ Set.range ((↑) : ℚ → ℝ) ∪ {a, b}}

theorem ratPoints_countable (a b : ℝ) : (ratPoints a b).Countable :=
  Set.Countable.preimage_of_injOn ((Set.countable_range _).union (Set.toFinite _).countable) Subtype.val_injective.injOn

theorem ratPoints_below {a b : ℝ} (x : Set.Icc a b) : x ∈ closure (ratPoints a b ∩ Set.Iic x) := by
  rw [Metric.mem_closure_iff]
  intro ε hε
  rcases eq_or_lt_of_le x.2.1 with h | h
  · exact ⟨x, ⟨Or.inr (Or.inl h.symm), le_refl x⟩, by simpa using hε⟩
  · obtain ⟨q, h1, h2⟩ := exists_rat_btwn (max_lt h (sub_lt_self (x : ℝ) hε))
    rw [max_lt_iff] at h1
    refine ⟨⟨q, h1.1.le, h2.le.trans x.2.2⟩, ⟨Or.inl ⟨q, rfl⟩, h2.le⟩, ?_⟩
    rw [Subtype.dist_eq, Real.dist_eq, abs_of_pos (by simpa using h2)]
    have := h1.2
    change (x : ℝ) - (q : ℝ) < ε
    linarith

theorem ratPoints_above {a b : ℝ} (x : Set.Icc a b) : x ∈ closure (ratPoints a b ∩ Set.Ici x) := by
  rw [Metric.mem_closure_iff]
  intro ε hε
  rcases eq_or_lt_of_le x.2.2 with h | h
  · exact ⟨x, ⟨Or.inr (Or.inr h), le_refl x⟩, by simpa using hε⟩
  · obtain ⟨q, h1, h2⟩ := exists_rat_btwn (lt_min h (lt_add_of_pos_right (x : ℝ) hε))
    rw [lt_min_iff] at h2
    refine ⟨⟨q, x.2.1.trans h1.le, h2.1.le⟩, ⟨Or.inl ⟨q, rfl⟩, h1.le⟩, ?_⟩
    rw [Subtype.dist_eq, Real.dist_eq, abs_sub_comm, abs_of_pos (by simpa using h1)]
    have := h2.2
    change (q : ℝ) - (x : ℝ) < ε
    linarith

theorem ratPoints_dense {a b : ℝ} (x : Set.Icc a b) : x ∈ closure (ratPoints a b) := closure_mono Set.inter_subset_left (ratPoints_below x)

/-- slopes, lower and upper ends of a truncated power law -/
abbrev PLBox (a₁ a₂ l₁ l₂ u₁ u₂ : ℝ) := Set.Icc a₁ a₂ × Set.Icc l₁ l₂ × Set.Icc u₁ u₂

section pl
variable {a₁ a₂ l₁ l₂ u₁ u₂ : ℝ}

/-- the density of `powerlaw_pdf` at given slope and ends -/
def plPop (h : PLBox a₁ a₂ l₁ l₂ u₁ u₂) (t : ℝ) : ℝ := (powerlaw_pdf (fin t) (fin h.1) (fin h.2.1) (fin h.2.2)).toReal

/-- the formula inside the interval, continued continuously -/
def plIn (h : PLBox a₁ a₂ l₁ l₂ u₁ u₂) (t : ℝ) : ℝ := (max t l₁) ^ (h.1 : ℝ) * plNorm h.1 h.2.1 h.2.2

theorem plPop_eq (h0 : 0 < l₁) (hlu : l₂ < u₁) (h : PLBox a₁ a₂ l₁ l₂ u₁ u₂) (t : ℝ) :
    plPop h t = if (h.2.1 : ℝ) ≤ t ∧ t ≤ h.2.2 then plIn h t else 0 := by
  have p0 : 0 < (h.2.1 : ℝ) := h0.trans_le h.2.1.2.1
  have p1 : (h.2.1 : ℝ) < h.2.2 := h.2.1.2.2.trans_lt (hlu.trans_le h.2.2.2.1)
  unfold plPop
  split_ifs with c
  · rw [powerlaw_pdf_in p0 p1 c.1 c.2, toReal_fin, plIn, max_eq_left (h.2.1.2.1.trans c.1)]
  · rw [powerlaw_pdf_out]
    · rfl
    · rw [not_and_or, not_le, not_le] at c
      simpa using c

theorem plIn_continuous (h0 : 0 < l₁) (hlu : l₂ < u₁) : Continuous fun q : PLBox a₁ a₂ l₁ l₂ u₁ u₂ × ℝ => plIn q.1 q.2 := by
  have n : Continuous fun h : PLBox a₁ a₂ l₁ l₂ u₁ u₂ => plNorm h.1 h.2.1 h.2.2 := continuous_iff_continuousAt.2 fun h => by
    have p0 : 0 < (h.2.1 : ℝ) := h0.trans_le h.2.1.2.1
    have p1 : (h.2.1 : ℝ) < h.2.2 := h.2.1.2.2.trans_lt (hlu.trans_le h.2.2.2.1)
    have key : ContinuousAt (fun e : ℝ × ℝ × ℝ => plNorm e.1 e.2.1 e.2.2) ((h.1 : ℝ), (h.2.1 : ℝ), (h.2.2 : ℝ)) :=
      (plNorm_smooth (E := ℝ × ℝ × ℝ) (by fun_prop) (by fun_prop) (by fun_prop) p0 p1).continuousAt
    exact ContinuousAt.comp (g := fun e : ℝ × ℝ × ℝ => plNorm e.1 e.2.1 e.2.2) (f := fun h : PLBox a₁ a₂ l₁ l₂ u₁ u₂ => ((h.1 : ℝ), (h.2.1 : ℝ), (h.2.2 : ℝ)))
      key (by fun_prop)
  unfold plIn
  refine Continuous.mul (Continuous.rpow (by fun_prop) (by fun_prop) fun q => Or.inl ?_) (n.comp continuous_fst)
  exact (lt_max_of_lt_right h0).ne'

theorem plIn_pos (h0 : 0 < l₁) (hlu : l₂ < u₁) (h : PLBox a₁ a₂ l₁ l₂ u₁ u₂) (t : ℝ) : 0 < plIn h t :=
  mul_pos (Real.rpow_pos_of_pos (lt_max_of_lt_right h0) _)
    (plNorm_pos (h0.trans_le h.2.1.2.1) (h.2.1.2.2.trans_lt (hlu.trans_le h.2.2.2.1)))

theorem mem_closure_values {H : Type*} [TopologicalSpace H] {T U : Set H} {h : H} (hT : h ∈ closure T) (hU : U ∈ 𝓝 h) {g φ : H → ℝ} (hφ : Continuous φ)
    (e0 : g h = φ h) (e : ∀ x ∈ T, g x = φ x) {S : Set H} (hS : T ⊆ S) : g h ∈ closure (g '' (S ∩ U)) := by
  have h1 : h ∈ closure (T ∩ U) := by
    rw [mem_closure_iff_nhds]
    intro V hV
    obtain ⟨x, hx, hxT⟩ := mem_closure_iff_nhds.1 hT (V ∩ U) (inter_mem hV hU)
    exact ⟨x, hx.1, hxT, hx.2⟩
  rw [e0]
  refine closure_mono ?_ (image_closure_subset_closure_image hφ ⟨h, h1, rfl⟩)
  rintro _ ⟨x, hx, rfl⟩
  exact ⟨x, ⟨hS hx.1, hx.2⟩, e x hx.1⟩

/-- **C131.**  The density of `powerlaw_pdf`, for slopes in any interval (the slope −1 included) and ends that move in two separate intervals, is such a population
with respect to every measure without atoms: although it jumps at its ends. -/
theorem C131_powerlaw_population (h0 : 0 < l₁) (hlu : l₂ < u₁) (ν : Measure ℝ) [NullSingletonClass ν] [Nonempty (PLBox a₁ a₂ l₁ l₂ u₁ u₂)] :
    ∃ (M : ℝ) (S : Set (PLBox a₁ a₂ l₁ l₂ u₁ u₂)), Population ν plPop (fun t => if l₁ ≤ t ∧ t ≤ u₂ then M else 0) S := by
  have cont := plIn_continuous (a₁ := a₁) (a₂ := a₂) (l₂ := l₂) (u₁ := u₁) (u₂ := u₂) h0 hlu
  have hc : IsCompact ((Set.univ : Set (PLBox a₁ a₂ l₁ l₂ u₁ u₂)) ×ˢ Set.Icc l₁ u₂) := isCompact_univ.prod isCompact_Icc
  obtain ⟨M, hM⟩ := (hc.bddAbove_image cont.continuousOn)
  have hM' : ∀ (h : PLBox a₁ a₂ l₁ l₂ u₁ u₂) t, l₁ ≤ t → t ≤ u₂ → plIn h t ≤ M := fun h t b1 b2 => hM ⟨(h, t), ⟨Set.mem_univ _, b1, b2⟩, rfl⟩
  obtain ⟨hx⟩ := ‹Nonempty (PLBox a₁ a₂ l₁ l₂ u₁ u₂)›
  have hM0 : 0 ≤ M := (plIn_pos h0 hlu hx l₁).le.trans (hM' hx l₁ le_rfl (hx.2.1.2.1.trans (hx.2.1.2.2.trans (hlu.le.trans (hx.2.2.2.1.trans hx.2.2.2.2)))))
  have cH : ∀ t, Continuous fun h : PLBox a₁ a₂ l₁ l₂ u₁ u₂ => plIn h t := fun t => cont.comp (by fun_prop : Continuous fun h : PLBox a₁ a₂ l₁ l₂ u₁ u₂ => (h, t))
  have cT : ∀ h : PLBox a₁ a₂ l₁ l₂ u₁ u₂, Continuous fun t => plIn h t := fun h => cont.comp (by fun_prop : Continuous fun t : ℝ => (h, t))
  refine ⟨M, ratPoints a₁ a₂ ×ˢ ratPoints l₁ l₂ ×ˢ ratPoints u₁ u₂, fun h => ?_, fun t => ?_, fun h t => ?_, ?_, fun h t => ?_, fun h => ?_, ?_, fun h t U hU => ?_⟩
  · rw [funext (plPop_eq h0 hlu h)]
    exact Measurable.ite measurableSet_Icc (cT h).measurable measurable_const
  · rw [funext fun h => plPop_eq h0 hlu h t]
    refine Measurable.ite ?_ (cH t).measurable measurable_const
    have m1 : Measurable fun h : PLBox a₁ a₂ l₁ l₂ u₁ u₂ => (h.2.1 : ℝ) := by fun_prop
    have m2 : Measurable fun h : PLBox a₁ a₂ l₁ l₂ u₁ u₂ => (h.2.2 : ℝ) := by fun_prop
    exact (measurableSet_le m1 measurable_const).inter (measurableSet_le measurable_const m2)
  · rw [plPop_eq h0 hlu h t]
    split_ifs
    · exact (plIn_pos h0 hlu h t).le
    · exact le_rfl
  · exact Measurable.ite measurableSet_Icc measurable_const measurable_const
  · rw [plPop_eq h0 hlu h t]
    by_cases c : (h.2.1 : ℝ) ≤ t ∧ t ≤ h.2.2
    · have b : l₁ ≤ t ∧ t ≤ u₂ := ⟨h.2.1.2.1.trans c.1, c.2.trans h.2.2.2.2⟩
      rw [if_pos c, if_pos b]
      exact hM' h t b.1 b.2
    · rw [if_neg c]
      split_ifs
      · exact hM0
      · exact le_rfl
  · have hae : ∀ᵐ t ∂ν, t ≠ (h.2.1 : ℝ) ∧ t ≠ (h.2.2 : ℝ) := by
      have := (Set.toFinite {(h.2.1 : ℝ), (h.2.2 : ℝ)}).measure_zero ν
      filter_upwards [compl_mem_ae_iff.2 this] with t ht
      simpa using ht
    filter_upwards [hae] with t ⟨t1, t2⟩
    rw [funext fun h' : PLBox a₁ a₂ l₁ l₂ u₁ u₂ => plPop_eq h0 hlu h' t]
    have cl : ContinuousAt (fun h' : PLBox a₁ a₂ l₁ l₂ u₁ u₂ => (h'.2.1 : ℝ)) h := by fun_prop
    have cu : ContinuousAt (fun h' : PLBox a₁ a₂ l₁ l₂ u₁ u₂ => (h'.2.2 : ℝ)) h := by fun_prop
    rcases lt_or_gt_of_ne t1 with c | c
    · refine (continuousAt_const (y := (0 : ℝ))).congr ?_
      filter_upwards [cl.eventually (lt_mem_nhds c)] with h' hh
      rw [if_neg fun b => absurd b.1 (not_le.2 hh)]
    · rcases lt_or_gt_of_ne t2 with d | d
      · refine (cH t).continuousAt.congr ?_
        filter_upwards [cl.eventually (gt_mem_nhds c), cu.eventually (lt_mem_nhds d)] with h' hh hh'
        rw [if_pos ⟨hh.le, hh'.le⟩]
      · refine (continuousAt_const (y := (0 : ℝ))).congr ?_
        filter_upwards [cu.eventually (gt_mem_nhds d)] with h' hh
        rw [if_neg fun b => absurd b.2 (not_le.2 hh)]
  · exact (ratPoints_countable _ _).prod ((ratPoints_countable _ _).prod (ratPoints_countable _ _))
  · simp only [plPop_eq h0 hlu]
    by_cases c : (h.2.1 : ℝ) ≤ t ∧ t ≤ h.2.2
    · refine mem_closure_values (T := ratPoints a₁ a₂ ×ˢ (ratPoints l₁ l₂ ∩ Set.Iic h.2.1) ×ˢ (ratPoints u₁ u₂ ∩ Set.Ici h.2.2)) ?_ hU (cH t) (if_pos c) ?_ ?_
      · rw [closure_prod_eq, closure_prod_eq]
        exact ⟨ratPoints_dense _, ratPoints_below _, ratPoints_above _⟩
      · rintro x ⟨-, ⟨-, x1⟩, -, x2⟩
        exact if_pos ⟨(show (x.2.1 : ℝ) ≤ h.2.1 from x1).trans c.1, c.2.trans (show (h.2.2 : ℝ) ≤ x.2.2 from x2)⟩
      · rintro x ⟨x0, ⟨x1, -⟩, x2, -⟩
        exact ⟨x0, x1, x2⟩
    · refine mem_closure_values (T := ratPoints a₁ a₂ ×ˢ (ratPoints l₁ l₂ ∩ Set.Ici h.2.1) ×ˢ (ratPoints u₁ u₂ ∩ Set.Iic h.2.2)) ?_ hU (continuous_const (y := (0 : ℝ)))
        (if_neg c) ?_ ?_
      · rw [closure_prod_eq, closure_prod_eq]
        exact ⟨ratPoints_dense _, ratPoints_above _, ratPoints_below _⟩
      · rintro x ⟨-, ⟨-, x1⟩, -, x2⟩
        exact if_neg fun b => c ⟨(show (h.2.1 : ℝ) ≤ x.2.1 from x1).trans b.1, b.2.trans (show (x.2.2 : ℝ) ≤ h.2.2 from x2)⟩
      · rintro x ⟨x0, ⟨x1, -⟩, x2, -⟩
        exact ⟨x0, x1, x2⟩

/-- the integrals in the hypotheses are positive as soon as the weight is positive on the part of the range that all power laws share -/
theorem plPop_integral_pos (h0 : 0 < l₁) (hlu : l₂ < u₁) {f : ℝ → ℝ} (hf : Continuous f) (f0 : ∀ t, 0 ≤ f t) (f1 : ∀ t ∈ Set.Ioo l₂ u₁, 0 < f t) {A B : ℝ} (hA : A ≤ l₂)
    (hB : u₁ ≤ B) (h : PLBox a₁ a₂ l₁ l₂ u₁ u₂) : 0 < ∫ t, f t * plPop h t ∂volume.restrict (Set.Icc A B) := by
  have : Nonempty (PLBox a₁ a₂ l₁ l₂ u₁ u₂) := ⟨h⟩
  obtain ⟨M, S, p⟩ := C131_powerlaw_population (a₁ := a₁) (a₂ := a₂) (u₂ := u₂) h0 hlu (volume : Measure ℝ)
  have hi : Integrable (fun t => f t * plPop h t) (volume.restrict (Set.Icc A B)) := by
    obtain ⟨C, hC⟩ := (isCompact_Icc (a := A) (b := B)).bddAbove_image hf.continuousOn
    refine Integrable.of_bound (hf.measurable.mul (p.meas h)).aestronglyMeasurable (C * |M|) ?_
    filter_upwards [ae_restrict_mem measurableSet_Icc] with t ht
    rw [Real.norm_of_nonneg (mul_nonneg (f0 t) (p.nonneg h t))]
    refine mul_le_mul (hC ⟨t, ht, rfl⟩) ((p.le h t).trans ?_) (p.nonneg h t) ((f0 t).trans (hC ⟨t, ht, rfl⟩))
    split_ifs
    · exact le_abs_self M
    · exact abs_nonneg M
  rw [integral_pos_iff_support_of_nonneg (fun t => mul_nonneg (f0 t) (p.nonneg h t)) hi]
  have hsub : Set.Ioo l₂ u₁ ⊆ Function.support fun t => f t * plPop h t := fun t ht => by
    refine (mul_pos (f1 t ht) ?_).ne'
    rw [plPop_eq h0 hlu, if_pos ⟨h.2.1.2.2.trans ht.1.le, ht.2.le.trans h.2.2.2.1⟩]
    exact plIn_pos h0 hlu h t
  refine lt_of_lt_of_le ?_ (measure_mono hsub)
  have hin : Set.Ioo l₂ u₁ ∩ Set.Icc A B = Set.Ioo l₂ u₁ := Set.inter_eq_left.2 fun t ht => ⟨hA.trans ht.1.le, ht.2.le.trans hB⟩
  rw [Measure.restrict_apply measurableSet_Ioo, hin, Real.volume_Ioo, ENNReal.ofReal_pos]
  linarith

end pl

/-! ## a case -/

/-- independent draws from given laws, for finitely many events and for injections -/
theorem exists_sampling {Θ : Type} [MeasurableSpace Θ] {ν : Measure Θ} {E : ℕ} {L π : Fin E → Θ → ℝ} {Z : Fin E → ℝ} {d pdet : Θ → ℝ}
    (hp : ∀ e, IsProbabilityMeasure (posteriorLaw ν (L e) (π e) (Z e))) (hd : IsProbabilityMeasure (ν.withDensity fun t => ENNReal.ofReal (d t)))
    (md : Measurable d) (mp : Measurable pdet) (d0 : ∀ t, 0 ≤ d t) (p0 : ∀ t, 0 ≤ pdet t) (p1 : ∀ t, pdet t ≤ 1) :
    ∃ (Ω : Type) (_ : MeasurableSpace Ω) (P : Measure Ω) (θ : Fin E → ℕ → Ω → Θ) (I : ℕ → Ω → Θ × Bool), IsProbabilityMeasure P ∧
      (∀ e, IIDSeq P (θ e) ∧ P.map (θ e 0) = posteriorLaw ν (L e) (π e) (Z e)) ∧ IIDSeq P I ∧
      ((P.map (I 0)).restrict (Prod.snd ⁻¹' {true})).map Prod.fst = foundLaw ν d pdet := by
  let μt : Measure Θ := foundLaw ν d pdet
  let μf : Measure Θ := foundLaw ν d fun t => 1 - pdet t
  let μ : Measure (Θ × Bool) := μt.map (fun t => (t, true)) + μf.map (fun t => (t, false))
  have mt : ∀ b : Bool, Measurable fun t : Θ => (t, b) := fun b => by fun_prop
  have hμ : IsProbabilityMeasure μ := ⟨by
    rw [Measure.add_apply, Measure.map_apply (mt true) MeasurableSet.univ, Measure.map_apply (mt false) MeasurableSet.univ, Set.preimage_univ, Set.preimage_univ, ← hd.measure_univ]
    simp only [μt, μf, foundLaw, withDensity_apply _ MeasurableSet.univ]
    rw [← lintegral_add_left (by fun_prop)]
    refine lintegral_congr fun t => ?_
    rw [← ENNReal.ofReal_add (mul_nonneg (d0 t) (p0 t)) (mul_nonneg (d0 t) (sub_nonneg.2 (p1 t)))]
    congr 1
    ring⟩
  let Pe : Fin E → Measure (ℕ → Θ) := fun e => Measure.infinitePi fun _ => posteriorLaw ν (L e) (π e) (Z e)
  let Pa : Measure (Fin E → ℕ → Θ) := Measure.pi Pe
  let Pi : Measure (ℕ → Θ × Bool) := Measure.infinitePi fun _ => μ
  have lawa : (Pa.prod Pi).map Prod.fst = Pa := by rw [Measure.map_fst_prod, measure_univ, one_smul]
  have lawi : (Pa.prod Pi).map Prod.snd = Pi := by rw [Measure.map_snd_prod, measure_univ, one_smul]
  have lawe : ∀ e, (Pa.prod Pi).map (fun ω => ω.1 e) = Pe e := fun e => by
    have := Measure.map_map (μ := Pa.prod Pi) (measurable_pi_apply e) measurable_fst
    rw [lawa] at this
    exact this.symm.trans ((measurePreserving_eval Pe e).map_eq)
  have lawj : ∀ e j, (Pa.prod Pi).map (fun ω => ω.1 e j) = posteriorLaw ν (L e) (π e) (Z e) := fun e j => by
    have := Measure.map_map (μ := Pa.prod Pi) (measurable_pi_apply j) ((measurable_pi_apply e).comp measurable_fst)
    have l := lawe e
    simp only [Function.comp_def] at this
    rw [l] at this
    exact this.symm.trans (Measure.infinitePi_map_eval (fun _ : ℕ => posteriorLaw ν (L e) (π e) (Z e)) j)
  have lawij : ∀ j, (Pa.prod Pi).map (fun ω => ω.2 j) = μ := fun j => by
    have := Measure.map_map (μ := Pa.prod Pi) (measurable_pi_apply j) measurable_snd
    rw [lawi] at this
    exact this.symm.trans (Measure.infinitePi_map_eval (fun _ : ℕ => μ) j)
  refine ⟨(Fin E → ℕ → Θ) × (ℕ → Θ × Bool), inferInstance, Pa.prod Pi, fun e j ω => ω.1 e j, fun j ω => ω.2 j, inferInstance,
    fun e => ⟨⟨fun j => by fun_prop, ?_, fun j => by rw [lawj, lawj]⟩, lawj e 0⟩, ⟨fun j => by fun_prop, ?_, fun j => by rw [lawij, lawij]⟩, ?_⟩
  · rw [ProbabilityTheory.iIndepFun_iff_map_fun_eq_infinitePi_map fun j => by fun_prop]
    simp only [lawj]
    exact lawe e
  · rw [ProbabilityTheory.iIndepFun_iff_map_fun_eq_infinitePi_map fun j => by fun_prop]
    simp only [lawij]
    exact lawi
  · rw [lawij]
    refine Measure.ext fun A hA => ?_
    have hs : MeasurableSet (Prod.fst ⁻¹' A ∩ Prod.snd ⁻¹' {true} : Set (Θ × Bool)) := (measurable_fst hA).inter (measurable_snd (measurableSet_singleton true))
    rw [Measure.map_apply measurable_fst hA, Measure.restrict_apply (measurable_fst hA), Measure.add_apply, Measure.map_apply (mt true) hs,
      Measure.map_apply (mt false) hs]
    have e1 : (fun t : Θ => (t, true)) ⁻¹' (Prod.fst ⁻¹' A ∩ Prod.snd ⁻¹' {true}) = A := by ext t; simp
    have e2 : (fun t : Θ => (t, false)) ⁻¹' (Prod.fst ⁻¹' A ∩ Prod.snd ⁻¹' {true}) = ∅ := by ext t; simp
    rw [e1, e2, measure_empty, add_zero]

/-- power laws with slopes between −2 and 0 and ends in [1, 6/5] and [5/2, 3]; two events with the likelihood `t` and flat sampling priors; injections uniform on
[1, 3], found with a probability that grows from 0 to 1 -/
example : ∃ (Ω : Type) (_ : MeasurableSpace Ω) (P : Measure Ω) (θ : Fin 2 → ℕ → Ω → ℝ) (I : ℕ → Ω → ℝ × Bool) (G : ℝ → ℝ)
    (S : Set (PLBox (-2) 0 1 (6 / 5) (5 / 2) 3)), IsProbabilityMeasure P ∧ Population (volume.restrict (Set.Icc (1 : ℝ) 3)) plPop G S ∧
    (∀ e, Event P (volume.restrict (Set.Icc (1 : ℝ) 3)) G (fun t => |t|) (fun _ => 1) 4 (θ e)) ∧
    Injections P (volume.restrict (Set.Icc (1 : ℝ) 3)) G (fun _ => 1 / 2) (fun t => max 0 (min 1 ((t - 1) / 2))) I ∧
    (∀ h : PLBox (-2) 0 1 (6 / 5) (5 / 2) 3, 0 < ∫ t in Set.Icc (1 : ℝ) 3, |t| * plPop h t) ∧
    (∀ h : PLBox (-2) 0 1 (6 / 5) (5 / 2) 3, 0 < ∫ t in Set.Icc (1 : ℝ) 3, max 0 (min 1 ((t - 1) / 2)) * plPop h t) := by
  set ν : Measure ℝ := volume.restrict (Set.Icc (1 : ℝ) 3) with hν
  have hx : PLBox (-2) 0 1 (6 / 5) (5 / 2) 3 := ⟨⟨0, by norm_num⟩, ⟨1, by norm_num⟩, ⟨3, by norm_num⟩⟩
  have : Nonempty (PLBox (-2) 0 1 (6 / 5) (5 / 2) 3) := ⟨hx⟩
  obtain ⟨M, S, p⟩ := C131_powerlaw_population (a₁ := -2) (a₂ := 0) (l₁ := 1) (l₂ := 6 / 5) (u₁ := 5 / 2) (u₂ := 3) (by norm_num) (by norm_num) ν
  have total : ∫ t, |t| ∂ν = 4 := by
    rw [hν, integral_Icc_eq_integral_Ioc, ← intervalIntegral.integral_of_le (by norm_num)]
    rw [intervalIntegral.integral_congr (g := fun t => t) (fun t ht => by
      rw [Set.uIcc_of_le (by norm_num)] at ht
      exact abs_of_nonneg (by linarith [ht.1]))]
    rw [integral_id]
    norm_num
  have iabs : Integrable (fun t : ℝ => |t|) ν := (continuous_abs.continuousOn.integrableOn_compact isCompact_Icc)
  have hp : IsProbabilityMeasure (posteriorLaw ν (fun t => |t|) (fun _ => 1) 4) := ⟨by
    unfold posteriorLaw
    rw [withDensity_apply _ MeasurableSet.univ, Measure.restrict_univ, ← ofReal_integral_eq_lintegral_ofReal (by simpa using iabs.div_const 4)
      (Eventually.of_forall fun t => by positivity)]
    simp only [mul_one]
    rw [integral_div, total]
    norm_num⟩
  have hd : IsProbabilityMeasure (ν.withDensity fun _ => ENNReal.ofReal (1 / 2)) := ⟨by
    rw [withDensity_const, Measure.smul_apply, hν, Measure.restrict_apply_univ, Real.volume_Icc, smul_eq_mul, ← ENNReal.ofReal_mul (by norm_num)]
    norm_num⟩
  have cd : Continuous fun t : ℝ => max 0 (min 1 ((t - 1) / 2)) := by fun_prop
  obtain ⟨Ω, _, P, θ, I, hP, hθ, hI, lI⟩ := exists_sampling (E := 2) (ν := ν) (L := fun _ t => |t|) (π := fun _ _ => 1) (Z := fun _ => 4) (d := fun _ => 1 / 2)
    (pdet := fun t => max 0 (min 1 ((t - 1) / 2))) (fun _ => hp) hd measurable_const cd.measurable (fun _ => by norm_num) (fun t => le_max_left _ _)
    (fun t => max_le zero_le_one (min_le_left _ _))
  have b1 : ∀ h : PLBox (-2) 0 1 (6 / 5) (5 / 2) 3, 0 < ∫ t, |t| * plPop h t ∂ν :=
    plPop_integral_pos (by norm_num) (by norm_num) continuous_abs abs_nonneg (fun t ht => abs_pos.2 (by linarith [ht.1] : 0 < t).ne') (by norm_num) (by norm_num)
  have b2 : ∀ h : PLBox (-2) 0 1 (6 / 5) (5 / 2) 3, 0 < ∫ t, max 0 (min 1 ((t - 1) / 2)) * plPop h t ∂ν :=
    plPop_integral_pos (by norm_num) (by norm_num) cd (fun t => le_max_left _ _)
      (fun t ht => lt_max_of_lt_right (lt_min one_pos (by linarith [ht.1]))) (by norm_num) (by norm_num)
  have bG : ∀ t, |(if (1 : ℝ) ≤ t ∧ t ≤ 3 then M else 0)| ≤ |M| := fun t => by
    split_ifs
    · exact le_rfl
    · simp
  have mono : ∀ {f : ℝ → ℝ}, Continuous f → (∀ t, 0 ≤ f t) → (∀ t, f t ≤ max 1 |t|) → 0 < ∫ t, f t * plPop hx t ∂ν →
      0 < ∫ t, f t * (if (1 : ℝ) ≤ t ∧ t ≤ 3 then M else 0) ∂ν := fun {f} hf f0 f1 hpos => by
    have bnd : ∀ g : ℝ → ℝ, Measurable g → (∀ t, |g t| ≤ |M|) → Integrable (fun t => f t * g t) ν := fun g hg hb => by
      refine Integrable.of_bound (hf.measurable.mul hg).aestronglyMeasurable (3 * |M|) ?_
      rw [hν]
      filter_upwards [ae_restrict_mem measurableSet_Icc] with t ht
      rw [Real.norm_eq_abs, abs_mul, abs_of_nonneg (f0 t)]
      refine mul_le_mul ((f1 t).trans (max_le (by norm_num) ?_)) (hb t) (abs_nonneg _) (by norm_num)
      rw [abs_of_nonneg (by linarith [ht.1])]
      exact ht.2
    refine hpos.trans_le (integral_mono (bnd _ (p.meas hx) fun t => ?_) (bnd _ p.measG bG) fun t => mul_le_mul_of_nonneg_left (p.le hx t) (f0 t))
    rw [abs_of_nonneg (p.nonneg hx t)]
    exact (p.le hx t).trans ((le_abs_self _).trans (bG t))
  have sq : ∀ (c : ℝ) (μ : Measure ℝ) [IsFiniteMeasure μ], Integrable (fun t => ((if (1 : ℝ) ≤ t ∧ t ≤ 3 then M else 0) / c) ^ 2) μ := fun c μ _ => by
    refine Integrable.of_bound ((p.measG.div_const c).pow_const 2).aestronglyMeasurable ((|M| / |c|) ^ 2) (Eventually.of_forall fun t => ?_)
    rw [Real.norm_of_nonneg (sq_nonneg _), ← sq_abs, abs_div]
    exact pow_le_pow_left₀ (by positivity) (div_le_div_of_nonneg_right (bG t) (abs_nonneg c)) 2
  have hf : IsFiniteMeasure (foundLaw ν (fun _ => 1 / 2) fun t => max 0 (min 1 ((t - 1) / 2))) := by
    rw [← lI]
    infer_instance
  refine ⟨Ω, inferInstance, P, θ, I, _, S, hP, p, fun e => ⟨(hθ e).1, (hθ e).2, by fun_prop, measurable_const, fun t => abs_nonneg t, fun _ => zero_le_one, by norm_num,
    fun t h => absurd h one_ne_zero, sq 1 _, ?_⟩, ⟨hI, lI, measurable_const, cd.measurable, fun _ => by norm_num, fun t => le_max_left _ _, fun t h => absurd h (by norm_num),
    sq (1 / 2) _, ?_⟩, b1, b2⟩
  · exact mono continuous_abs abs_nonneg (fun t => le_max_right _ _) (b1 hx)
  · exact mono cd (fun t => le_max_left _ _) (fun t => (max_le zero_le_one (min_le_left _ _)).trans (le_max_left _ _)) (b2 hx)

end GW
end
