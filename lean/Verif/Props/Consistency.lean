import Verif.Props.Likelihood
import Mathlib.Probability.StrongLaw
import Mathlib.MeasureTheory.Function.L2Space
import Mathlib.Probability.Moments.Variance
import Mathlib.Probability.Independence.InfinitePi
import Mathlib.Analysis.SpecialFunctions.Integrals.Basic

/-!
# C106: with more and more samples and injections the likelihood tends to the population likelihood
-/

noncomputable section
open Classical MeasureTheory Finset Filter Topology
namespace GW
open _root_.F

/-! ## sequences of weights -/

/-- the averages of a sequence of non-negative numbers and of their squares converge -/
structure Averages (x : ℕ → ℝ) (B Q : ℝ) : Prop where
  nonneg : ∀ i, 0 ≤ x i
  first : Tendsto (fun n : ℕ => (∑ i ∈ range n, x i) / n) atTop (𝓝 B)
  second : Tendsto (fun n : ℕ => (∑ i ∈ range n, x i ^ 2) / n) atTop (𝓝 Q)

/-- the weights of the injections found among the first `n`, in order: what `detection_efficiency` is given -/
def foundWeights (v : ℕ → ℝ) (det : ℕ → Bool) (n : ℕ) : List ℝ := ((List.range n).filter det).map v

theorem found_sum (v : ℕ → ℝ) (det : ℕ → Bool) (n : ℕ) (f : ℝ → ℝ) :
    ∑ i : Fin (foundWeights v det n).length, f ((foundWeights v det n).get i) = ∑ j ∈ range n, if det j then f (v j) else 0 := by
  have h1 : ∀ l : List ℝ, ∑ i : Fin l.length, f (l.get i) = (l.map f).sum := by
    intro l
    rw [← List.sum_ofFn]
    congr 1
    exact List.ext_getElem (by simp) fun i h h' => by simp
  rw [h1]
  unfold foundWeights
  induction n with
  | zero => simp
  | succ n ih =>
    rw [List.range_succ, List.filter_append, List.map_append, List.map_append, List.sum_append, ih, Finset.sum_range_succ]
    by_cases h : det n <;> simp [h]

theorem found_length (v : ℕ → ℝ) (det : ℕ → Bool) (n : ℕ) : (foundWeights v det n).length ≤ n := by
  unfold foundWeights
  rw [List.length_map]
  exact (List.length_filter_le _ _).trans (by simp)

variable {x : ℕ → ℝ} {B Q : ℝ}

theorem Averages.sq_le (h : Averages x B Q) : B ^ 2 ≤ Q := by
  refine le_of_tendsto_of_tendsto (h.first.pow 2) h.second ?_
  filter_upwards [eventually_gt_atTop 0] with n hn
  have hn' : (0 : ℝ) < n := by exact_mod_cast hn
  rw [div_pow, div_le_div_iff₀ (by positivity) hn']
  have hcs := Finset.sum_mul_sq_le_sq_mul_sq (range n) x (fun _ => 1)
  simp only [mul_one, one_pow, sum_const, card_range, nsmul_eq_mul] at hcs
  nlinarith

/-- the Monte Carlo variance of the logarithm of the average, times the number of terms, tends to the relative variance -/
theorem Averages.relative (h : Averages x B Q) (hB : 0 < B) :
    Tendsto (fun n : ℕ => (n : ℝ) * ((∑ i ∈ range n, x i ^ 2) / (∑ i ∈ range n, x i) ^ 2)) atTop (𝓝 (Q / B ^ 2)) := by
  refine (h.second.div (h.first.pow 2) (by positivity)).congr' ?_
  filter_upwards [eventually_gt_atTop 0] with n hn
  have hn' : (n : ℝ) ≠ 0 := by exact_mod_cast hn.ne'
  simp only [Pi.div_apply]
  rcases eq_or_ne (∑ i ∈ range n, x i) 0 with h0 | h0
  · rw [h0]; simp
  · field_simp

theorem Averages.relative_zero (h : Averages x B Q) (hB : 0 < B) :
    Tendsto (fun n : ℕ => (∑ i ∈ range n, x i ^ 2) / (∑ i ∈ range n, x i) ^ 2) atTop (𝓝 0) := by
  have h1 := (h.relative hB).mul tendsto_inv_atTop_nhds_zero_nat
  rw [mul_zero] at h1
  refine h1.congr' ?_
  filter_upwards [eventually_gt_atTop 0] with n hn
  have hn' : (n : ℝ) ≠ 0 := by exact_mod_cast hn.ne'
  field_simp

theorem Averages.pos (h : Averages x B Q) (hB : 0 < B) : ∀ᶠ n : ℕ in atTop, ∃ i : Fin n, 0 < x i := by
  filter_upwards [h.first.eventually (lt_mem_nhds hB), eventually_gt_atTop 0] with n hn hn0
  by_contra hc
  push Not at hc
  have : ∑ i ∈ range n, x i ≤ 0 := Finset.sum_nonpos fun i hi => hc ⟨i, Finset.mem_range.1 hi⟩
  have h2 : (∑ i ∈ range n, x i) / n ≤ 0 := div_nonpos_of_nonpos_of_nonneg this (Nat.cast_nonneg n)
  linarith

/-! ## one event -/

/-- the estimates for one event from its first `N` samples: log Bayes factor and variance -/
def eventEstimate (lg : Bool) (x : ℕ → ℝ) (N : ℕ) : F × F :=
  let r := per_event_log_bayes_factors (fun (_ : Fin 1) (i : Fin N) => encode lg (x i)) lg
  (r.1 0, r.2.2 0)

theorem event_tendsto (lg : Bool) (h : Averages x B Q) (hB : 0 < B) :
    ∃ b v : ℕ → ℝ, (∀ᶠ N in atTop, eventEstimate lg x N = (fin (b N), fin (v N))) ∧ Tendsto b atTop (𝓝 (Real.log B)) ∧
      Tendsto (fun N : ℕ => N * v N) atTop (𝓝 ((Q - B ^ 2) / B ^ 2)) := by
  refine ⟨fun N => Real.log ((∑ i ∈ range N, x i) / N), fun N => (∑ i ∈ range N, x i ^ 2) / (∑ i ∈ range N, x i) ^ 2 - 1 / N, ?_,
    (Real.continuousAt_log hB.ne').tendsto.comp h.first, ?_⟩
  · filter_upwards [h.pos hB] with N hN
    unfold eventEstimate
    rw [C40_value (fun _ i => x i) (fun _ i => h.nonneg i) (fun _ => hN) lg]
    simp only [mean, kish, one_div_div]
    rw [Fin.sum_univ_eq_sum_range (fun i => x i) N, Fin.sum_univ_eq_sum_range (fun i => x i ^ 2) N]
  · have e : (Q - B ^ 2) / B ^ 2 = Q / B ^ 2 - 1 := by field_simp
    rw [e]
    refine ((h.relative hB).sub_const 1).congr' ?_
    filter_upwards [eventually_gt_atTop 0] with n hn
    have hn' : (n : ℝ) ≠ 0 := by exact_mod_cast hn.ne'
    rw [mul_sub, mul_one_div_cancel hn']

/-! ## the injections -/

variable {v : ℕ → ℝ} {det : ℕ → Bool} {μ S : ℝ}

/-- the estimates from the injections found among the first `n`: log efficiency, log effective number, reported variance -/
def injEstimate (lg : Bool) (v : ℕ → ℝ) (det : ℕ → Bool) (n : ℕ) : F × F × F :=
  detection_efficiency (fun i : Fin (foundWeights v det n).length => encode lg ((foundWeights v det n).get i)) n lg

theorem found_relVar (v : ℕ → ℝ) (det : ℕ → Bool) (n : ℕ) : relVar (foundWeights v det n).get n =
    (∑ j ∈ range n, (if det j then v j else 0) ^ 2) / (∑ j ∈ range n, if det j then v j else 0) ^ 2 - 1 / n := by
  unfold relVar
  have h1 := found_sum v det n (fun y => y)
  have h2 := found_sum v det n (fun y => y ^ 2)
  rw [h1, h2]
  congr 2
  refine Finset.sum_congr rfl fun j _ => ?_
  by_cases h : det j <;> simp [h]

theorem found_pos {n : ℕ} (h : ∃ i : Fin n, 0 < (if det i then v i else 0)) : ∃ i, 0 < (foundWeights v det n).get i := by
  obtain ⟨i, hi⟩ := h
  by_cases hd : det i
  · rw [if_pos hd] at hi
    have : v i ∈ foundWeights v det n := List.mem_map.2 ⟨i, List.mem_filter.2 ⟨List.mem_range.2 i.2, hd⟩, rfl⟩
    obtain ⟨k, hk⟩ := List.get_of_mem this
    exact ⟨k, by rw [hk]; exact hi⟩
  · rw [if_neg hd] at hi; exact absurd hi (lt_irrefl _)

theorem found_nonneg (hv : ∀ i, 0 ≤ v i) (n : ℕ) (i) : 0 ≤ (foundWeights v det n).get i := by
  have := List.get_mem (foundWeights v det n) i
  unfold foundWeights at this
  obtain ⟨k, -, hk⟩ := List.mem_map.1 this
  unfold foundWeights
  rw [← hk]
  exact hv k

theorem relVar_tendsto (h : Averages (fun j => if det j then v j else 0) μ S) (hμ : 0 < μ) :
    Tendsto (fun n : ℕ => (n : ℝ) * relVar (foundWeights v det n).get n) atTop (𝓝 ((S - μ ^ 2) / μ ^ 2)) ∧
    Tendsto (fun n : ℕ => relVar (foundWeights v det n).get n) atTop (𝓝 0) := by
  simp only [found_relVar]
  constructor
  · have e : (S - μ ^ 2) / μ ^ 2 = S / μ ^ 2 - 1 := by field_simp
    rw [e]
    refine ((h.relative hμ).sub_const 1).congr' ?_
    filter_upwards [eventually_gt_atTop 0] with n hn
    have hn' : (n : ℝ) ≠ 0 := by exact_mod_cast hn.ne'
    rw [mul_sub, mul_one_div_cancel hn']
  · have := (h.relative_zero hμ).sub tendsto_one_div_atTop_nhds_zero_nat
    rwa [sub_zero] at this

theorem inj_tendsto (lg : Bool) (hv : ∀ i, 0 ≤ v i) (h : Averages (fun j => if det j then v j else 0) μ S) (hμ : 0 < μ) :
    ∃ m w r : ℕ → ℝ, (∀ᶠ n in atTop, (injEstimate lg v det n).1 = fin (m n) ∧ 1 / exp (injEstimate lg v det n).2.1 = fin (w n) ∧
        (injEstimate lg v det n).2.2 = fin (r n)) ∧ Tendsto m atTop (𝓝 (Real.log μ)) ∧
      Tendsto (fun n : ℕ => n * w n) atTop (𝓝 ((S - μ ^ 2) / μ ^ 2)) ∧ Tendsto (fun n : ℕ => n * r n) atTop (𝓝 ((S - μ ^ 2) / μ ^ 2 - 1)) := by
  have hr := (relVar_tendsto h hμ).1
  refine ⟨fun n => Real.log ((∑ j ∈ range n, if det j then v j else 0) / n), fun n => relVar (foundWeights v det n).get n,
    fun n => relVar (foundWeights v det n).get n - 1 / n, ?_, (Real.continuousAt_log hμ.ne').tendsto.comp h.first, hr, ?_⟩
  · filter_upwards [h.pos hμ] with n hn
    have e := detection_efficiency_value (found_length v det n) (foundWeights v det n).get (found_nonneg hv n) (found_pos hn) lg
    have e2 := (C43_neff_partial (found_length v det n) (foundWeights v det n).get (found_nonneg hv n) (found_pos hn) lg).2.1
    refine ⟨?_, e2, ?_⟩
    · unfold injEstimate
      rw [e, found_sum v det n (fun y => y)]
    · unfold injEstimate
      rw [e]
  · refine (hr.sub_const 1).congr' ?_
    filter_upwards [eventually_gt_atTop 0] with n hn
    have hn' : (n : ℝ) ≠ 0 := by exact_mod_cast hn.ne'
    rw [mul_sub, mul_one_div_cancel hn']

/-! ## the likelihood -/

/-- the likelihood contribution from the first `N` samples of every event and the injections found among the first `n` -/
def likelihoodFactors {E : ℕ} (fl : Flags) (x : Fin E → ℕ → ℝ) (v : ℕ → ℝ) (det : ℕ → Bool) (T u : F) (hv : Option F) (N n : ℕ) : List F :=
  factors (hierarchical_likelihood fl (.single fun e (i : Fin N) => encode fl.log (x e i))
    (fun i : Fin (foundWeights v det n).length => encode fl.log ((foundWeights v det n).get i)) n E T hv u none).1

theorem likelihood_tendsto {E : ℕ} (hE : 0 < E) {fl : Flags} (hfl : fl.ok) {hv : Option F} (hhv : fl.reconstruct_rate = true → hv ≠ none) (T u : F)
    {x : Fin E → ℕ → ℝ} {B Q : Fin E → ℝ} (hx : ∀ e, Averages (x e) (B e) (Q e)) (hB : ∀ e, 0 < B e)
    (hv0 : ∀ i, 0 ≤ v i) (h : Averages (fun j => if det j then v j else 0) μ S) (hμ : 0 < μ)
    {N n : ℕ → ℕ} (hN : Tendsto N atTop atTop) (hn : Tendsto n atTop atTop) :
    ∃ ℓ : ℕ → ℝ, (∀ᶠ k in atTop, likelihoodFactors fl x v det T u hv (N k) (n k) = [fin (ℓ k)]) ∧
      Tendsto ℓ atTop (𝓝 (∑ e, Real.log (B e) - E * Real.log μ)) := by
  have hrv := (relVar_tendsto h hμ).2
  have hks : ∀ e, Tendsto (fun N : ℕ => 1 / kish fun i : Fin N => x e i) atTop (𝓝 0) := by
    intro e
    have e1 : (fun N : ℕ => 1 / kish fun i : Fin N => x e i) = fun N => (∑ i ∈ range N, x e i ^ 2) / (∑ i ∈ range N, x e i) ^ 2 := by
      funext N
      simp only [kish, one_div_div]
      rw [Fin.sum_univ_eq_sum_range (fun i => x e i) N, Fin.sum_univ_eq_sum_range (fun i => x e i ^ 2) N]
    rw [e1]
    exact (hx e).relative_zero (hB e)
  have hmean : ∀ e, Tendsto (fun N : ℕ => mean fun i : Fin N => x e i) atTop (𝓝 (B e)) := by
    intro e
    refine (hx e).first.congr fun N => ?_
    simp only [mean]
    rw [Fin.sum_univ_eq_sum_range (fun i => x e i) N]
  have hE1 : (0 : ℝ) < E := by exact_mod_cast hE
  refine ⟨fun k => ∑ e, Real.log (mean fun i : Fin (N k) => x e i) - E * Real.log ((∑ i, (foundWeights v det (n k)).get i) / n k) +
    (if fl.marginalize_selection then E * (3 + E) / 2 * relVar (foundWeights v det (n k)).get (n k) else 0), ?_, ?_⟩
  · have c1 : ∀ᶠ k in atTop, ∀ e, ∃ i : Fin (N k), 0 < x e i := eventually_all.2 fun e => hN.eventually ((hx e).pos (hB e))
    have c2 : ∀ᶠ k in atTop, ∃ i : Fin (n k), 0 < (if det i then v i else 0) := hn.eventually (h.pos hμ)
    have c3 : ∀ᶠ k in atTop, ∀ e, 1 / kish (fun i : Fin (N k) => x e i) < 1 / E :=
      eventually_all.2 fun e => hN.eventually ((hks e).eventually (gt_mem_nhds (by positivity)))
    have c4 : ∀ᶠ k in atTop, 4 * E * relVar (foundWeights v det (n k)).get (n k) < 1 := by
      have := (hrv.const_mul (4 * (E : ℝ))).eventually (gt_mem_nhds (show 4 * (E : ℝ) * 0 < 1 by norm_num))
      exact hn.eventually this
    have c5 : ∀ᶠ k in atTop, (E : ℝ) ^ 2 * (relVar (foundWeights v det (n k)).get (n k) - 1 / n k) +
        ∑ e, (1 / kish (fun i : Fin (N k) => x e i) - 1 / N k) < 1 := by
      have t1 : Tendsto (fun k => (E : ℝ) ^ 2 * (relVar (foundWeights v det (n k)).get (n k) - 1 / n k)) atTop (𝓝 ((E : ℝ) ^ 2 * (0 - 0))) :=
        ((hrv.comp hn).sub (tendsto_one_div_atTop_nhds_zero_nat.comp hn)).const_mul _
      have t2 : Tendsto (fun k => ∑ e, (1 / kish (fun i : Fin (N k) => x e i) - 1 / N k)) atTop (𝓝 (∑ _ : Fin E, ((0 : ℝ) - 0))) :=
        tendsto_finsetSum _ fun e _ => ((hks e).comp hN).sub (tendsto_one_div_atTop_nhds_zero_nat.comp hN)
      exact (t1.add t2).eventually (gt_mem_nhds (by simp))
    filter_upwards [c1, c2, c3, c4, c5] with k h1 h2 h3 h4 h5
    unfold likelihoodFactors
    refine C47_value fl (fun e (i : Fin (N k)) => x e i) (foundWeights v det (n k)).get (n k) E T hv u none hfl hhv hE hE
      (fun e i => (hx e).nonneg i) h1 (found_nonneg hv0 _) (found_pos h2) (found_length v det _) (fun _ => ⟨fun e => ?_, h4.le⟩) fun _ => h5.le
    have hk : 0 < kish (fun i : Fin (N k) => x e i) := by
      have := (kish_bounds (fun i : Fin (N k) => x e i) (fun i => (hx e).nonneg i) (h1 e)).1
      linarith
    exact (one_div_lt_one_div hk hE1).1 (h3 e)
  · have t1 : Tendsto (fun k => ∑ e, Real.log (mean fun i : Fin (N k) => x e i)) atTop (𝓝 (∑ e, Real.log (B e))) :=
      tendsto_finsetSum _ fun e _ => (Real.continuousAt_log (hB e).ne').tendsto.comp ((hmean e).comp hN)
    have t2 : Tendsto (fun k => Real.log ((∑ i, (foundWeights v det (n k)).get i) / n k)) atTop (𝓝 (Real.log μ)) := by
      have e2 : ∀ n : ℕ, (∑ i, (foundWeights v det n).get i) / (n : ℝ) = (∑ j ∈ range n, if det j then v j else 0) / n := fun n => by
        rw [found_sum v det n (fun y => y)]
      simp only [e2]
      exact (Real.continuousAt_log hμ.ne').tendsto.comp (h.first.comp hn)
    have t3 : Tendsto (fun k => if fl.marginalize_selection then (E : ℝ) * (3 + E) / 2 * relVar (foundWeights v det (n k)).get (n k) else 0)
        atTop (𝓝 0) := by
      by_cases hm : fl.marginalize_selection = true
      · simp only [if_pos hm]
        have := ((hrv.comp hn).const_mul ((E : ℝ) * (3 + E) / 2))
        rwa [mul_zero] at this
      · simp only [if_neg hm]; exact tendsto_const_nhds
    have := (t1.sub (t2.const_mul (E : ℝ))).add t3
    rwa [add_zero] at this

/-! ## random samples -/

/-- independent draws from one law -/
structure IIDSeq {Ω α : Type*} [MeasurableSpace Ω] [MeasurableSpace α] (P : Measure Ω) (X : ℕ → Ω → α) : Prop where
  meas : ∀ j, Measurable (X j)
  indep : ProbabilityTheory.iIndepFun X P
  ident : ∀ j, P.map (X j) = P.map (X 0)

section random
variable {Ω α Θ : Type*} [MeasurableSpace Ω] [MeasurableSpace α] [MeasurableSpace Θ] {P : Measure Ω} [IsProbabilityMeasure P]

theorem iid_averages {X : ℕ → Ω → α} (h : IIDSeq P X) {g : α → ℝ} (hg : Measurable g) (hg0 : ∀ a, 0 ≤ g a)
    (h2 : Integrable (fun a => g a ^ 2) (P.map (X 0))) :
    ∀ᵐ ω ∂P, Averages (fun j => g (X j ω)) (∫ a, g a ∂P.map (X 0)) (∫ a, g a ^ 2 ∂P.map (X 0)) := by
  have hp : IsProbabilityMeasure (P.map (X 0)) := Measure.isProbabilityMeasure_map (h.meas 0).aemeasurable
  have h1 : Integrable g (P.map (X 0)) := ((memLp_two_iff_integrable_sq hg.aestronglyMeasurable).2 h2).integrable (by norm_num)
  have hid : ∀ {f : α → ℝ}, Measurable f → ∀ j, ProbabilityTheory.IdentDistrib (fun ω => f (X j ω)) (fun ω => f (X 0 ω)) P P := fun hf j =>
    (ProbabilityTheory.IdentDistrib.mk (h.meas j).aemeasurable (h.meas 0).aemeasurable (h.ident j)).comp hf
  have hin : ∀ {f : α → ℝ}, Measurable f → Pairwise (Function.onFun (fun x1 x2 => ProbabilityTheory.IndepFun x1 x2 P) fun j ω => f (X j ω)) :=
    fun hf i j hij => (h.indep.indepFun hij).comp hf hf
  have hm : Measurable fun a => g a ^ 2 := hg.pow_const 2
  have s1 := ProbabilityTheory.strong_law_ae_real (μ := P) (fun j ω => g (X j ω)) (h1.comp_measurable (h.meas 0)) (hin hg) (hid hg)
  have s2 := ProbabilityTheory.strong_law_ae_real (μ := P) (fun j ω => g (X j ω) ^ 2) (h2.comp_measurable (h.meas 0)) (hin hm) (hid hm)
  rw [integral_map (h.meas 0).aemeasurable hg.aestronglyMeasurable, integral_map (h.meas 0).aemeasurable hm.aestronglyMeasurable]
  filter_upwards [s1, s2] with ω w1 w2
  exact ⟨fun j => hg0 _, w1, w2⟩

/-- the posterior of an event with likelihood `L`, sampling prior `π` and evidence `Z` -/
def posteriorLaw (ν : Measure Θ) (L π : Θ → ℝ) (Z : ℝ) : Measure Θ := ν.withDensity fun t => ENNReal.ofReal (L t * π t / Z)

/-- the law of the parameters of the found injections: drawn with density `d`, found with probability `pdet` -/
def foundLaw (ν : Measure Θ) (d pdet : Θ → ℝ) : Measure Θ := ν.withDensity fun t => ENNReal.ofReal (d t * pdet t)

theorem post_integral {ν : Measure Θ} {L π : Θ → ℝ} {Z : ℝ} (hL : Measurable L) (hπ : Measurable π) (hL0 : ∀ t, 0 ≤ L t) (hπ0 : ∀ t, 0 ≤ π t)
    (hZ : 0 < Z) (g : Θ → ℝ) : ∫ t, g t ∂posteriorLaw ν L π Z = (∫ t, L t * π t * g t ∂ν) / Z := by
  unfold posteriorLaw
  rw [integral_withDensity_eq_integral_toReal_smul (by fun_prop) (Eventually.of_forall fun _ => ENNReal.ofReal_lt_top), ← integral_div]
  refine integral_congr_ae (Eventually.of_forall fun t => ?_)
  simp only [smul_eq_mul]
  rw [ENNReal.toReal_ofReal (div_nonneg (mul_nonneg (hL0 t) (hπ0 t)) hZ.le)]
  ring

theorem found_integral {ν : Measure Θ} {d pdet : Θ → ℝ} (hd : Measurable d) (hp : Measurable pdet) (hd0 : ∀ t, 0 ≤ d t) (hp0 : ∀ t, 0 ≤ pdet t)
    (g : Θ → ℝ) : ∫ t, g t ∂foundLaw ν d pdet = ∫ t, d t * pdet t * g t ∂ν := by
  unfold foundLaw
  rw [integral_withDensity_eq_integral_toReal_smul (by fun_prop) (Eventually.of_forall fun _ => ENNReal.ofReal_lt_top)]
  refine integral_congr_ae (Eventually.of_forall fun t => ?_)
  simp only [smul_eq_mul]
  rw [ENNReal.toReal_ofReal (mul_nonneg (hd0 t) (hp0 t))]

/-- An event: samples `θ 0, θ 1, …` drawn independently from the posterior of likelihood `L` under the sampling prior `π`; the weights
`pop / π` of the population density `pop` are square integrable, and the prior vanishes only where the population or the likelihood does. -/
structure Event (P : Measure Ω) (ν : Measure Θ) (pop L π : Θ → ℝ) (Z : ℝ) (θ : ℕ → Ω → Θ) : Prop where
  iid : IIDSeq P θ
  law : P.map (θ 0) = posteriorLaw ν L π Z
  mL : Measurable L
  mπ : Measurable π
  L0 : ∀ t, 0 ≤ L t
  π0 : ∀ t, 0 ≤ π t
  Z0 : 0 < Z
  support : ∀ t, π t = 0 → L t * pop t = 0
  square : Integrable (fun t => (pop t / π t) ^ 2) (posteriorLaw ν L π Z)
  positive : 0 < ∫ t, L t * pop t ∂ν

/-- The injections: `(θ j, found j)` drawn independently, `θ` with density `d` and then found with probability `pdet θ`. -/
structure Injections (P : Measure Ω) (ν : Measure Θ) (pop d pdet : Θ → ℝ) (I : ℕ → Ω → Θ × Bool) : Prop where
  iid : IIDSeq P I
  law : ((P.map (I 0)).restrict (Prod.snd ⁻¹' {true})).map Prod.fst = foundLaw ν d pdet
  md : Measurable d
  mp : Measurable pdet
  d0 : ∀ t, 0 ≤ d t
  p0 : ∀ t, 0 ≤ pdet t
  support : ∀ t, d t = 0 → pdet t * pop t = 0
  square : Integrable (fun t => (pop t / d t) ^ 2) (foundLaw ν d pdet)
  positive : 0 < ∫ t, pdet t * pop t ∂ν

variable {ν : Measure Θ} {pop : Θ → ℝ} {L π : Θ → ℝ} {Z : ℝ} {θ : ℕ → Ω → Θ} {d pdet : Θ → ℝ} {I : ℕ → Ω → Θ × Bool}

/-- the Bayes factor of the population model over the sampling prior -/
def bayesFactor (ν : Measure Θ) (pop L : Θ → ℝ) (Z : ℝ) : ℝ := (∫ t, L t * pop t ∂ν) / Z
/-- the fraction of the population that is found -/
def efficiency (ν : Measure Θ) (pop pdet : Θ → ℝ) : ℝ := ∫ t, pdet t * pop t ∂ν

theorem Event.mean (h : Event P ν pop L π Z θ) : ∫ t, pop t / π t ∂P.map (θ 0) = bayesFactor ν pop L Z := by
  rw [h.law, post_integral h.mL h.mπ h.L0 h.π0 h.Z0, bayesFactor]
  congr 1
  refine integral_congr_ae (Eventually.of_forall fun t => ?_)
  by_cases h0 : π t = 0
  · simp only [h0, h.support t h0]; simp
  · simp only []; field_simp

theorem Event.averages (h : Event P ν pop L π Z θ) (hpop : Measurable pop) (hpop0 : ∀ t, 0 ≤ pop t) :
    ∀ᵐ ω ∂P, Averages (fun j => pop (θ j ω) / π (θ j ω)) (bayesFactor ν pop L Z) (∫ t, (pop t / π t) ^ 2 ∂posteriorLaw ν L π Z) := by
  have := iid_averages h.iid (g := fun t => pop t / π t) (hpop.div h.mπ) (fun t => div_nonneg (hpop0 t) (h.π0 t)) (by rw [h.law]; exact h.square)
  rwa [h.mean, h.law] at this

/-- the weight an injection contributes -/
def injWeight (pop d : Θ → ℝ) (x : Θ × Bool) : ℝ := if x.2 then pop x.1 / d x.1 else 0

theorem injWeight_measurable (hpop : Measurable pop) (hd : Measurable d) : Measurable (injWeight pop d) := by
  unfold injWeight
  refine Measurable.ite ?_ ((hpop.comp measurable_fst).div (hd.comp measurable_fst)) measurable_const
  exact measurable_snd (measurableSet_singleton true)

theorem Injections.found_of (h : Injections P ν pop d pdet I) (f : ℝ → ℝ) (hf0 : f 0 = 0) (hf : Measurable f) (hpop : Measurable pop) :
    ∫ x, f (injWeight pop d x) ∂P.map (I 0) = ∫ t, f (pop t / d t) ∂foundLaw ν d pdet ∧
    (Integrable (fun t => f (pop t / d t)) (foundLaw ν d pdet) → Integrable (fun x => f (injWeight pop d x)) (P.map (I 0))) := by
  have hs : MeasurableSet (Prod.snd ⁻¹' {true} : Set (Θ × Bool)) := measurable_snd (measurableSet_singleton true)
  have e : (fun x => f (injWeight pop d x)) = (Prod.snd ⁻¹' {true} : Set (Θ × Bool)).indicator fun x => f (pop x.1 / d x.1) := by
    funext x
    unfold injWeight
    by_cases hx : x.2 = true
    · rw [if_pos hx, Set.indicator_of_mem (by exact hx)]
    · rw [if_neg hx, Set.indicator_of_notMem (by exact hx), hf0]
  have hm : Measurable fun t => f (pop t / d t) := hf.comp (hpop.div h.md)
  constructor
  · rw [e, integral_indicator hs, ← h.law, integral_map measurable_fst.aemeasurable hm.aestronglyMeasurable]
  · intro hi
    rw [e, integrable_indicator_iff hs]
    rw [← h.law] at hi
    exact hi.comp_measurable measurable_fst

theorem Injections.mean (h : Injections P ν pop d pdet I) (hpop : Measurable pop) : ∫ x, injWeight pop d x ∂P.map (I 0) = efficiency ν pop pdet := by
  rw [(h.found_of (fun y => y) rfl measurable_id hpop).1, found_integral h.md h.mp h.d0 h.p0, efficiency]
  refine integral_congr_ae (Eventually.of_forall fun t => ?_)
  by_cases h0 : d t = 0
  · simp only [h0, h.support t h0]; simp
  · simp only []; field_simp

theorem Injections.averages (h : Injections P ν pop d pdet I) (hpop : Measurable pop) (hpop0 : ∀ t, 0 ≤ pop t) :
    ∀ᵐ ω ∂P, Averages (fun j => injWeight pop d (I j ω)) (efficiency ν pop pdet) (∫ t, (pop t / d t) ^ 2 ∂foundLaw ν d pdet) := by
  have hsq := h.found_of (fun y => y ^ 2) (by simp) (by fun_prop) hpop
  have := iid_averages h.iid (g := injWeight pop d) (injWeight_measurable hpop h.md)
    (fun x => by unfold injWeight; split_ifs; exacts [div_nonneg (hpop0 _) (h.d0 _), le_rfl]) (hsq.2 h.square)
  rwa [h.mean hpop, hsq.1] at this

/-- **C106 (Bayes factors).** With probability one, as the number of posterior samples grows the log Bayes factor returned for an event tends
to the logarithm of the true Bayes factor `∫ L pop / Z`, and the returned variance, times the number of samples, tends to the variance of a
single weight relative to the squared mean: the variance is the Monte Carlo variance of the logarithm. -/
theorem C106_bayes_factor (lg : Bool) (hpop : Measurable pop) (hpop0 : ∀ t, 0 ≤ pop t) (h : Event P ν pop L π Z θ) :
    ∀ᵐ ω ∂P, ∃ b v : ℕ → ℝ, (∀ᶠ N in atTop, eventEstimate lg (fun j => pop (θ j ω) / π (θ j ω)) N = (fin (b N), fin (v N))) ∧
      Tendsto b atTop (𝓝 (Real.log (bayesFactor ν pop L Z))) ∧
      Tendsto (fun N : ℕ => N * v N) atTop (𝓝 (ProbabilityTheory.variance (fun t => pop t / π t) (posteriorLaw ν L π Z) / bayesFactor ν pop L Z ^ 2)) := by
  have hp : IsProbabilityMeasure (posteriorLaw ν L π Z) := by
    rw [← h.law]; exact Measure.isProbabilityMeasure_map (h.iid.meas 0).aemeasurable
  have hm := h.mean
  rw [h.law] at hm
  have hv : ProbabilityTheory.variance (fun t => pop t / π t) (posteriorLaw ν L π Z) =
      ∫ t, (pop t / π t) ^ 2 ∂posteriorLaw ν L π Z - bayesFactor ν pop L Z ^ 2 := by
    have hL : MemLp (fun t => pop t / π t) 2 (posteriorLaw ν L π Z) :=
      (memLp_two_iff_integrable_sq (hpop.div h.mπ).aestronglyMeasurable).2 h.square
    rw [ProbabilityTheory.variance_eq_sub hL, hm]
    rfl
  filter_upwards [h.averages hpop hpop0] with ω hω
  rw [hv]
  exact event_tendsto lg hω (div_pos h.positive h.Z0)

/-- **C106 (selection).** With probability one, as the number of injections grows the log efficiency tends to the logarithm of the fraction
of the population that is found, and the reciprocal of the effective number, times the number of injections, to the relative variance.  Partial; missing: the reported variance: `C106_selection_variance_fails`. -/
theorem C106_selection_partial (lg : Bool) (hpop : Measurable pop) (hpop0 : ∀ t, 0 ≤ pop t) (h : Injections P ν pop d pdet I) :
    let σ := ProbabilityTheory.variance (injWeight pop d) (P.map (I 0)) / efficiency ν pop pdet ^ 2
    ∀ᵐ ω ∂P, ∃ m w : ℕ → ℝ, (∀ᶠ n in atTop,
        (injEstimate lg (fun j => pop (I j ω).1 / d (I j ω).1) (fun j => (I j ω).2) n).1 = fin (m n) ∧
        1 / exp (injEstimate lg (fun j => pop (I j ω).1 / d (I j ω).1) (fun j => (I j ω).2) n).2.1 = fin (w n)) ∧
      Tendsto m atTop (𝓝 (Real.log (efficiency ν pop pdet))) ∧ Tendsto (fun n : ℕ => n * w n) atTop (𝓝 σ) := by
  intro σ
  have hp : IsProbabilityMeasure (P.map (I 0)) := Measure.isProbabilityMeasure_map (h.iid.meas 0).aemeasurable
  have hsq := h.found_of (fun y => y ^ 2) (by simp) (by fun_prop) hpop
  have hv : ProbabilityTheory.variance (injWeight pop d) (P.map (I 0)) =
      ∫ t, (pop t / d t) ^ 2 ∂foundLaw ν d pdet - efficiency ν pop pdet ^ 2 := by
    rw [ProbabilityTheory.variance_eq_sub ((memLp_two_iff_integrable_sq (injWeight_measurable hpop h.md).aestronglyMeasurable).2 (hsq.2 h.square)), h.mean hpop,
      ← hsq.1]
    rfl
  filter_upwards [h.averages hpop hpop0] with ω hω
  obtain ⟨m, w, r, h1, h2, h3, -⟩ := inj_tendsto lg (v := fun j => pop (I j ω).1 / d (I j ω).1) (det := fun j => (I j ω).2)
    (fun j => div_nonneg (hpop0 _) (h.d0 _)) hω h.positive
  refine ⟨m, w, h1.mono fun n hn => ⟨hn.1, hn.2.1⟩, h2, ?_⟩
  simp only [σ, hv]
  exact h3

/-- **C106 is false of the code for the reported variance of the efficiency.** Times the number of injections it tends to the relative
variance minus one, never to the relative variance: it is too small by `1/Ninj` however many injections there are. -/
theorem C106_selection_variance_fails (lg : Bool) (hpop : Measurable pop) (hpop0 : ∀ t, 0 ≤ pop t) (h : Injections P ν pop d pdet I) :
    let σ := ProbabilityTheory.variance (injWeight pop d) (P.map (I 0)) / efficiency ν pop pdet ^ 2
    ∀ᵐ ω ∂P, ∃ r : ℕ → ℝ, (∀ᶠ n in atTop,
        (injEstimate lg (fun j => pop (I j ω).1 / d (I j ω).1) (fun j => (I j ω).2) n).2.2 = fin (r n)) ∧
      Tendsto (fun n : ℕ => n * r n) atTop (𝓝 (σ - 1)) ∧ ¬ Tendsto (fun n : ℕ => n * r n) atTop (𝓝 σ) := by
  intro σ
  have hp : IsProbabilityMeasure (P.map (I 0)) := Measure.isProbabilityMeasure_map (h.iid.meas 0).aemeasurable
  have hsq := h.found_of (fun y => y ^ 2) (by simp) (by fun_prop) hpop
  have hv : ProbabilityTheory.variance (injWeight pop d) (P.map (I 0)) =
      ∫ t, (pop t / d t) ^ 2 ∂foundLaw ν d pdet - efficiency ν pop pdet ^ 2 := by
    rw [ProbabilityTheory.variance_eq_sub ((memLp_two_iff_integrable_sq (injWeight_measurable hpop h.md).aestronglyMeasurable).2 (hsq.2 h.square)), h.mean hpop,
      ← hsq.1]
    rfl
  filter_upwards [h.averages hpop hpop0] with ω hω
  obtain ⟨m, w, r, h1, -, -, h4⟩ := inj_tendsto lg (v := fun j => pop (I j ω).1 / d (I j ω).1) (det := fun j => (I j ω).2)
    (fun j => div_nonneg (hpop0 _) (h.d0 _)) hω h.positive
  have h5 : Tendsto (fun n : ℕ => n * r n) atTop (𝓝 (σ - 1)) := by simp only [σ, hv]; exact h4
  exact ⟨r, h1.mono fun n hn => hn.2.2, h5, fun h6 => by have := tendsto_nhds_unique h5 h6; linarith⟩

/-- **C106 (likelihood).** For every admissible combination of flags, with probability one: as the numbers of posterior samples and of
injections grow (at any relative speed) no cut fires any more, and what the model adds to the log density tends to the population
log-likelihood `∑ₑ log(∫ Lₑ pop / Zₑ) - E log(∫ pdet pop)`. -/
theorem C106_likelihood {E : ℕ} (hE : 0 < E) {fl : Flags} (hfl : fl.ok) {hv : Option F} (hhv : fl.reconstruct_rate = true → hv ≠ none) (T u : F)
    (hpop : Measurable pop) (hpop0 : ∀ t, 0 ≤ pop t) {L π : Fin E → Θ → ℝ} {Z : Fin E → ℝ} {θ : Fin E → ℕ → Ω → Θ}
    (he : ∀ e, Event P ν pop (L e) (π e) (Z e) (θ e)) (hi : Injections P ν pop d pdet I)
    {N n : ℕ → ℕ} (hN : Tendsto N atTop atTop) (hn : Tendsto n atTop atTop) :
    ∀ᵐ ω ∂P, ∃ ℓ : ℕ → ℝ, (∀ᶠ k in atTop, likelihoodFactors fl (fun e j => pop (θ e j ω) / π e (θ e j ω))
        (fun j => pop (I j ω).1 / d (I j ω).1) (fun j => (I j ω).2) T u hv (N k) (n k) = [fin (ℓ k)]) ∧
      Tendsto ℓ atTop (𝓝 (∑ e, Real.log (bayesFactor ν pop (L e) (Z e)) - E * Real.log (efficiency ν pop pdet))) := by
  have h1 : ∀ᵐ ω ∂P, ∀ e, Averages (fun j => pop (θ e j ω) / π e (θ e j ω)) (bayesFactor ν pop (L e) (Z e))
      (∫ t, (pop t / π e t) ^ 2 ∂posteriorLaw ν (L e) (π e) (Z e)) := ae_all_iff.2 fun e => (he e).averages hpop hpop0
  filter_upwards [h1, hi.averages hpop hpop0] with ω w1 w2
  exact likelihood_tendsto hE hfl hhv T u w1 (fun e => div_pos (he e).positive (he e).Z0)
    (v := fun j => pop (I j ω).1 / d (I j ω).1) (det := fun j => (I j ω).2) (fun j => div_nonneg (hpop0 _) (hi.d0 _)) w2 hi.positive hN hn

theorem exp_estimate (lg : Bool) {N : ℕ} (hN : 0 < N) (w : Fin N → ℝ) (hw : ∀ i, 0 ≤ w i) :
    exp ((per_event_log_bayes_factors (fun (_ : Fin 1) i => encode lg (w i)) lg).1 0) = fin (mean w) := by
  have hNr : (0 : ℝ) < N := by exact_mod_cast hN
  have h0 : 0 ≤ mean w := div_nonneg (Finset.sum_nonneg fun i _ => hw i) hNr.le
  have e := perEventRow_encode hN w hw lg
  change exp (perEventRow (fun i => encode lg (w i)) lg).1 = _
  rw [e]
  simp only [perEventRow, Bool.false_eq_true, if_false, sum_fin]
  rw [div_fin hNr.ne']
  exact exp_log_nonneg h0

/-- **C106 (unbiased).** For every number of samples the estimated Bayes factor has the true Bayes factor as its expectation. -/
theorem C106_unbiased (lg : Bool) (hpop : Measurable pop) (hpop0 : ∀ t, 0 ≤ pop t) (h : Event P ν pop L π Z θ) {N : ℕ} (hN : 0 < N) :
    ∫ ω, (exp (eventEstimate lg (fun j => pop (θ j ω) / π (θ j ω)) N).1).toReal ∂P = bayesFactor ν pop L Z := by
  have hNr : (N : ℝ) ≠ 0 := by exact_mod_cast hN.ne'
  have hp : IsProbabilityMeasure (posteriorLaw ν L π Z) := by
    rw [← h.law]; exact Measure.isProbabilityMeasure_map (h.iid.meas 0).aemeasurable
  have mg : Measurable fun t => pop t / π t := hpop.div h.mπ
  have hi : Integrable (fun t => pop t / π t) (posteriorLaw ν L π Z) := ((memLp_two_iff_integrable_sq mg.aestronglyMeasurable).2 h.square).integrable (by norm_num)
  have e : ∀ ω, (exp (eventEstimate lg (fun j => pop (θ j ω) / π (θ j ω)) N).1).toReal = (∑ i : Fin N, pop (θ i ω) / π (θ i ω)) / N := fun ω => by
    unfold eventEstimate
    rw [exp_estimate lg hN (fun i : Fin N => pop (θ i ω) / π (θ i ω)) fun i => div_nonneg (hpop0 _) (h.π0 _)]
    rfl
  have hj : ∀ j, Integrable (fun ω => pop (θ j ω) / π (θ j ω)) P ∧ ∫ ω, pop (θ j ω) / π (θ j ω) ∂P = bayesFactor ν pop L Z := by
    intro j
    have hl : P.map (θ j) = posteriorLaw ν L π Z := (h.iid.ident j).trans h.law
    constructor
    · rw [← hl] at hi
      exact hi.comp_measurable (h.iid.meas j)
    · rw [← h.mean, h.law, ← hl, integral_map (h.iid.meas j).aemeasurable mg.aestronglyMeasurable]
  simp only [e]
  rw [integral_div, integral_finsetSum _ fun (i : Fin N) _ => (hj i).1]
  simp only [(hj _).2, sum_const, card_univ, Fintype.card_fin, nsmul_eq_mul]
  field_simp

/-- **C106 (unbiased).** For every number of injections the estimated efficiency has the true efficiency as its expectation. -/
theorem C106_unbiased_selection (lg : Bool) (hpop : Measurable pop) (hpop0 : ∀ t, 0 ≤ pop t) (h : Injections P ν pop d pdet I) {n : ℕ} (hn : 0 < n) :
    ∫ ω, (exp (injEstimate lg (fun j => pop (I j ω).1 / d (I j ω).1) (fun j => (I j ω).2) n).1).toReal ∂P = efficiency ν pop pdet := by
  have hNr : (0 : ℝ) < n := by exact_mod_cast hn
  have hp : IsProbabilityMeasure (P.map (I 0)) := Measure.isProbabilityMeasure_map (h.iid.meas 0).aemeasurable
  have mg := injWeight_measurable hpop h.md
  have hsq := h.found_of (fun y => y ^ 2) (by simp) (by fun_prop) hpop
  have hi : Integrable (injWeight pop d) (P.map (I 0)) :=
    ((memLp_two_iff_integrable_sq mg.aestronglyMeasurable).2 (hsq.2 h.square)).integrable (by norm_num)
  have e : ∀ ω, (exp (injEstimate lg (fun j => pop (I j ω).1 / d (I j ω).1) (fun j => (I j ω).2) n).1).toReal =
      (∑ j ∈ range n, injWeight pop d (I j ω)) / n := fun ω => by
    have hw := found_nonneg (v := fun j => pop (I j ω).1 / d (I j ω).1) (det := fun j => (I j ω).2) (fun j => div_nonneg (hpop0 _) (h.d0 _)) n
    unfold injEstimate
    rw [detection_efficiency_encode hn _ hw lg]
    simp only [detection_efficiency, Bool.false_eq_true, if_false, sum_fin]
    rw [div_fin hNr.ne', exp_log_nonneg (div_nonneg (Finset.sum_nonneg fun i _ => hw i) hNr.le), toReal_fin, found_sum _ _ n (fun y => y)]
    rfl
  have hj : ∀ j, Integrable (fun ω => injWeight pop d (I j ω)) P ∧ ∫ ω, injWeight pop d (I j ω) ∂P = efficiency ν pop pdet := by
    intro j
    have hl := h.iid.ident j
    constructor
    · rw [← hl] at hi
      exact hi.comp_measurable (h.iid.meas j)
    · rw [← h.mean hpop, ← hl, integral_map (h.iid.meas j).aemeasurable mg.aestronglyMeasurable]
  simp only [e]
  rw [integral_div, integral_finsetSum _ fun i _ => (hj i).1]
  simp only [(hj _).2, sum_const, card_range, nsmul_eq_mul]
  field_simp

end random

/-! ## the hypotheses are met -/

/-- samples uniform on `[0, 1]`, the population density `2 t`, half of the injections found -/
example : ∃ (Ω : Type) (_ : MeasurableSpace Ω) (P : Measure Ω) (θ : ℕ → Ω → ℝ) (I : ℕ → Ω → ℝ × Bool), IsProbabilityMeasure P ∧
    Event P (volume.restrict (Set.Icc (0 : ℝ) 1)) (fun t => |2 * t|) (fun _ => 1) (fun _ => 1) 1 θ ∧
    Injections P (volume.restrict (Set.Icc (0 : ℝ) 1)) (fun t => |2 * t|) (fun _ => 1) (fun _ => 1 / 2) I := by
  set ν : Measure ℝ := volume.restrict (Set.Icc (0 : ℝ) 1) with hν
  have hνp : IsProbabilityMeasure ν := ⟨by rw [hν, Measure.restrict_apply_univ, Real.volume_Icc]; norm_num⟩
  let b : Measure Bool := (ENNReal.ofReal (1 / 2)) • Measure.dirac true + (ENNReal.ofReal (1 / 2)) • Measure.dirac false
  have hb : IsProbabilityMeasure b := ⟨by
    simp only [b, Measure.add_apply, Measure.smul_apply, Measure.dirac_apply_of_mem (Set.mem_univ _), smul_eq_mul, mul_one]
    rw [← ENNReal.ofReal_add (by norm_num) (by norm_num)]; norm_num⟩
  have hbt : b {true} = ENNReal.ofReal (1 / 2) := by
    simp [b]
  let ρ : Measure (ℝ × ℝ × Bool) := ν.prod (ν.prod b)
  have hpost : posteriorLaw ν (fun _ => 1) (fun _ => 1) 1 = ν := by
    unfold posteriorLaw
    simp
  have hint : ∀ (μ : Measure ℝ) [IsFiniteMeasure μ], μ (Set.Icc 0 1)ᶜ = 0 → Integrable (fun t : ℝ => (|2 * t| / 1) ^ 2) μ := by
    intro μ _ hμ
    refine Integrable.of_bound (by fun_prop) 4 ?_
    filter_upwards [compl_mem_ae_iff.2 hμ] with t ht
    rw [_root_.compl_compl] at ht
    rw [div_one, sq_abs, Real.norm_of_nonneg (sq_nonneg _)]
    nlinarith [ht.1, ht.2]
  have hνc : ν (Set.Icc 0 1)ᶜ = 0 := by
    rw [hν, Measure.restrict_apply measurableSet_Icc.compl]; simp
  have hval : ∫ t, |2 * t| ∂ν = 1 := by
    rw [hν, integral_Icc_eq_integral_Ioc, ← intervalIntegral.integral_of_le zero_le_one]
    rw [intervalIntegral.integral_congr (g := fun t => 2 * t) (fun t ht => by
      rw [Set.uIcc_of_le zero_le_one] at ht
      exact abs_of_nonneg (by linarith [ht.1]))]
    rw [intervalIntegral.integral_const_mul, integral_id]
    norm_num
  have hfound : foundLaw ν (fun _ => 1) (fun _ => 1 / 2) = ENNReal.ofReal (1 / 2) • ν := by
    unfold foundLaw
    rw [show (fun t : ℝ => ENNReal.ofReal ((fun _ => (1 : ℝ)) t * (fun _ => (1 / 2 : ℝ)) t)) = fun _ => ENNReal.ofReal (1 / 2) by funext t; simp]
    exact withDensity_const _
  have lawe : ∀ j : ℕ, (Measure.infinitePi fun _ : ℕ => ρ).map (fun ω => ω j) = ρ := fun j => Measure.infinitePi_map_eval (fun _ : ℕ => ρ) j
  have lawf : ∀ j : ℕ, (Measure.infinitePi fun _ : ℕ => ρ).map (fun ω => (ω j).1) = ρ.map Prod.fst := fun j => by
    have := Measure.map_map (μ := Measure.infinitePi fun _ : ℕ => ρ) measurable_fst (measurable_pi_apply j)
    rw [lawe j] at this
    exact this.symm
  have laws : ∀ j : ℕ, (Measure.infinitePi fun _ : ℕ => ρ).map (fun ω => (ω j).2) = ρ.map Prod.snd := fun j => by
    have := Measure.map_map (μ := Measure.infinitePi fun _ : ℕ => ρ) measurable_snd (measurable_pi_apply j)
    rw [lawe j] at this
    exact this.symm
  refine ⟨ℕ → ℝ × ℝ × Bool, inferInstance, Measure.infinitePi fun _ => ρ, fun j ω => (ω j).1, fun j ω => (ω j).2, inferInstance, ?_, ?_⟩
  · refine ⟨⟨fun j => measurable_fst.comp (measurable_pi_apply j), ?_, fun j => ?_⟩, ?_, measurable_const, measurable_const,
      fun _ => zero_le_one, fun _ => zero_le_one, one_pos, fun t h => absurd h one_ne_zero, ?_, ?_⟩
    · exact ProbabilityTheory.iIndepFun_infinitePi (X := fun _ (x : ℝ × ℝ × Bool) => x.1) fun _ => measurable_fst
    · rw [lawf, lawf]
    · rw [lawf, hpost]
      exact Measure.map_fst_prod.trans (by simp)
    · rw [hpost]; exact hint ν hνc
    · simp only [one_mul]; rw [hval]; exact one_pos
  · refine ⟨⟨fun j => measurable_snd.comp (measurable_pi_apply j), ?_, fun j => ?_⟩, ?_, measurable_const, measurable_const,
      fun _ => zero_le_one, fun _ => by norm_num, fun t h => absurd h one_ne_zero, ?_, ?_⟩
    · exact ProbabilityTheory.iIndepFun_infinitePi (X := fun _ (x : ℝ × ℝ × Bool) => x.2) fun _ => measurable_snd
    · rw [laws, laws]
    · rw [laws, show ρ.map Prod.snd = ν.prod b from Measure.map_snd_prod.trans (by simp), hfound]
      refine Measure.ext fun A hA => ?_
      have hs : MeasurableSet (Prod.snd ⁻¹' {true} : Set (ℝ × Bool)) := measurable_snd (measurableSet_singleton true)
      rw [Measure.map_apply measurable_fst hA, Measure.restrict_apply (measurable_fst hA), Measure.smul_apply, smul_eq_mul]
      have : (Prod.fst ⁻¹' A ∩ Prod.snd ⁻¹' {true} : Set (ℝ × Bool)) = A ×ˢ {true} := by ext x; simp [Set.mem_prod]
      rw [this, Measure.prod_prod, hbt, mul_comm]
    · rw [hfound]
      exact (hint ν hνc).smul_measure ENNReal.ofReal_ne_top
    · rw [integral_const_mul, hval]; norm_num

end GW
end
