import Verif.Props.Consistency
import Mathlib.Probability.CentralLimitTheorem
import Mathlib.MeasureTheory.Measure.LevyConvergence
import Mathlib.Probability.Independence.CharacteristicFunction
import Mathlib.MeasureTheory.Integral.Indicator
import Mathlib.Analysis.Calculus.DSlope
import Mathlib.Analysis.SpecialFunctions.Log.Deriv

/-!
# C130: the reported errors of the estimates are the errors the estimates have
-/

noncomputable section
open Classical MeasureTheory Finset Filter Topology
namespace GW
open _root_.F

/-- the distribution function of the standard normal distribution -/
def stdNormalCdf (c : ℝ) : ℝ := (ProbabilityTheory.gaussianReal 0 1).real (Set.Iic c)

section general
variable {Ω Ω' α : Type*} [MeasurableSpace Ω] [MeasurableSpace Ω'] [MeasurableSpace α] {P : Measure Ω} [IsProbabilityMeasure P] {P' : Measure Ω'}
  [IsProbabilityMeasure P']

/-- convergence in distribution to a normal law with a positive variance is convergence of the distribution functions -/
theorem cdf_tendsto {T : ℕ → Ω → ℝ} {Z : Ω' → ℝ} {v : NNReal} (hv : v ≠ 0) (h : TendstoInDistribution T atTop Z (fun _ => P) P')
    (hZ : P'.map Z = ProbabilityTheory.gaussianReal 0 v) (c : ℝ) :
    Tendsto (fun n => P.real {ω | T n ω ≤ c}) atTop (𝓝 ((ProbabilityTheory.gaussianReal 0 v).real (Set.Iic c))) := by
  have h1 := ProbabilityMeasure.tendsto_measure_of_null_frontier_of_tendsto' h.tendsto (E := Set.Iic c) (by
    have := ProbabilityTheory.nullSingletonClass_gaussianReal (μ := 0) hv
    rw [ProbabilityMeasure.coe_mk, hZ, frontier_Iic]
    exact measure_singleton c)
  simp only [ProbabilityMeasure.coe_mk, hZ] at h1
  have h2 := (ENNReal.tendsto_toReal (measure_ne_top _ _)).comp h1
  refine h2.congr fun n => ?_
  simp only [Function.comp_apply, Measure.real]
  rw [Measure.map_apply_of_aemeasurable (h.forall_aemeasurable n) measurableSet_Iic]
  rfl

/-- events that agree except where something that happens eventually has not happened yet -/
theorem agree_tendsto {q S S' : ℕ → Set Ω} (hq : ∀ n, MeasurableSet (q n)) (he : ∀ᵐ ω ∂P, ∀ᶠ n in atTop, ω ∈ q n)
    (h : ∀ᶠ n in atTop, ∀ ω ∈ q n, (ω ∈ S n ↔ ω ∈ S' n)) {L : ℝ} (hS : Tendsto (fun n => P.real (S' n)) atTop (𝓝 L)) :
    Tendsto (fun n => P.real (S n)) atTop (𝓝 L) := by
  have h0 : Tendsto (fun n => P.real (q n)ᶜ) atTop (𝓝 0) := by
    have := tendsto_measure_of_ae_tendsto_indicator_of_isFiniteMeasure (μ := P) (L := atTop) (A := ∅) MeasurableSet.empty (As := fun n => (q n)ᶜ) (fun n => (hq n).compl)
      (by
        filter_upwards [he] with ω hω
        filter_upwards [hω] with n hn
        simp [hn])
    rw [measure_empty] at this
    have t := (ENNReal.tendsto_toReal (by simp)).comp this
    rw [ENNReal.toReal_zero] at t
    exact t
  have k1 : Tendsto (fun n => P.real (S' n) - P.real (q n)ᶜ) atTop (𝓝 L) := by simpa using hS.sub h0
  have k2 : Tendsto (fun n => P.real (S' n) + P.real (q n)ᶜ) atTop (𝓝 L) := by simpa using hS.add h0
  refine tendsto_of_tendsto_of_tendsto_of_le_of_le' k1 k2 ?_ ?_
  · filter_upwards [h] with n hn
    have : P.real (S' n) ≤ P.real (S n ∪ (q n)ᶜ) := measureReal_mono fun ω hω => by
      by_cases hc : ω ∈ q n
      · exact Or.inl ((hn ω hc).2 hω)
      · exact Or.inr hc
    linarith [measureReal_union_le (μ := P) (S n) (q n)ᶜ]
  · filter_upwards [h] with n hn
    have : P.real (S n) ≤ P.real (S' n ∪ (q n)ᶜ) := measureReal_mono fun ω hω => by
      by_cases hc : ω ∈ q n
      · exact Or.inl ((hn ω hc).1 hω)
      · exact Or.inr hc
    linarith [measureReal_union_le (μ := P) (S' n) (q n)ᶜ]

/-- weights with a positive mean and a finite variance, computed from independent draws -/
structure Weights (P : Measure Ω) (X : ℕ → Ω → α) (g : α → ℝ) : Prop where
  iid : IIDSeq P X
  meas : Measurable g
  nonneg : ∀ a, 0 ≤ g a
  square : Integrable (fun a => g a ^ 2) (P.map (X 0))
  pos : 0 < ∫ a, g a ∂P.map (X 0)

variable {X : ℕ → Ω → α} {g : α → ℝ}

/-- the mean weight -/
abbrev Weights.B (_ : Weights P X g) : ℝ := ∫ a, g a ∂P.map (X 0)
/-- the variance of a weight -/
abbrev Weights.V (_ : Weights P X g) : ℝ := ProbabilityTheory.variance g (P.map (X 0))

/-- the average of the first `n` weights -/
def avg (X : ℕ → Ω → α) (g : α → ℝ) (n : ℕ) (ω : Ω) : ℝ := (∑ i ∈ range n, g (X i ω)) / n

/-- `√n` times the error of the logarithm of the average -/
def logErr (X : ℕ → Ω → α) (g : α → ℝ) (B : ℝ) (n : ℕ) (ω : Ω) : ℝ := √n * (Real.log (avg X g n ω) - Real.log B)

/-- the estimated relative variance of the average -/
def relV (X : ℕ → Ω → α) (g : α → ℝ) (n : ℕ) (ω : Ω) : ℝ := (∑ i ∈ range n, g (X i ω) ^ 2) / (∑ i ∈ range n, g (X i ω)) ^ 2 - 1 / n

theorem Weights.avg_meas (h : Weights P X g) (n : ℕ) : Measurable (avg X g n) :=
  (Finset.measurable_fun_sum _ fun i _ => h.meas.comp (h.iid.meas i)).div_const _

theorem Weights.relV_meas (h : Weights P X g) (n : ℕ) : Measurable (relV X g n) :=
  ((Finset.measurable_fun_sum _ fun i _ => (h.meas.comp (h.iid.meas i)).pow_const 2).div
    ((Finset.measurable_fun_sum _ fun i _ => h.meas.comp (h.iid.meas i)).pow_const 2)).sub_const _

theorem Weights.logErr_meas (h : Weights P X g) (n : ℕ) : Measurable (logErr X g h.B n) :=
  ((Real.measurable_log.comp (h.avg_meas n)).sub_const _).const_mul _

theorem Weights.averages (h : Weights P X g) : ∀ᵐ ω ∂P, Averages (fun j => g (X j ω)) h.B (∫ a, g a ^ 2 ∂P.map (X 0)) :=
  iid_averages h.iid h.meas h.nonneg h.square

theorem Weights.memLp (h : Weights P X g) : MemLp g 2 (P.map (X 0)) := (memLp_two_iff_integrable_sq h.meas.aestronglyMeasurable).2 h.square

theorem Weights.V_eq (h : Weights P X g) : h.V = ∫ a, g a ^ 2 ∂P.map (X 0) - h.B ^ 2 := by
  have hp : IsProbabilityMeasure (P.map (X 0)) := Measure.isProbabilityMeasure_map (h.iid.meas 0).aemeasurable
  rw [Weights.V, ProbabilityTheory.variance_eq_sub h.memLp]
  rfl

/-- with probability one the estimated relative variance is consistent -/
theorem Weights.relV_tendsto (h : Weights P X g) : ∀ᵐ ω ∂P, Tendsto (fun n : ℕ => (n : ℝ) * relV X g n ω) atTop (𝓝 (h.V / h.B ^ 2)) := by
  filter_upwards [h.averages] with ω hω
  have hB : h.B ≠ 0 := h.pos.ne'
  have e : h.V / h.B ^ 2 = (∫ a, g a ^ 2 ∂P.map (X 0)) / h.B ^ 2 - 1 := by
    rw [h.V_eq]; field_simp
  rw [e]
  refine ((hω.relative h.pos).sub_const 1).congr' ?_
  filter_upwards [eventually_gt_atTop 0] with n hn
  have hn' : (n : ℝ) ≠ 0 := by exact_mod_cast hn.ne'
  rw [relV, mul_sub, mul_one_div_cancel hn']

theorem dslope_log_meas (B : ℝ) : Measurable (dslope Real.log B) := by
  have e : dslope Real.log B = fun x => if x = B then deriv Real.log B else (x - B)⁻¹ * (Real.log x - Real.log B) := by
    funext x
    split_ifs with hx
    · rw [hx, dslope_same]
    · rw [dslope_of_ne _ hx, slope_def_field, div_eq_inv_mul]
  rw [e]
  exact Measurable.ite (measurableSet_singleton B) measurable_const
    (((measurable_id.sub_const B).inv).mul (Real.measurable_log.sub_const _))

/-- the central limit theorem for the logarithm of the average -/
theorem Weights.clt (h : Weights P X g) : TendstoInDistribution (logErr X g h.B) atTop (fun z : ℝ => z * h.B⁻¹) (fun _ => P)
    (ProbabilityTheory.gaussianReal 0 h.V.toNNReal) := by
  have hB := h.pos
  have hid : ∀ j, ProbabilityTheory.IdentDistrib (fun ω => g (X j ω)) (fun ω => g (X 0 ω)) P P := fun j =>
    (ProbabilityTheory.IdentDistrib.mk (h.iid.meas j).aemeasurable (h.iid.meas 0).aemeasurable (h.iid.ident j)).comp h.meas
  have hB' : ∫ ω, g (X 0 ω) ∂P = h.B := (integral_map (h.iid.meas 0).aemeasurable h.meas.aestronglyMeasurable).symm
  have hV' : ProbabilityTheory.variance (fun ω => g (X 0 ω)) P = h.V := (ProbabilityTheory.variance_map h.meas.aemeasurable (h.iid.meas 0).aemeasurable).symm
  have clt := ProbabilityTheory.tendstoInDistribution_inv_sqrt_mul_sum_sub (P := P) (X := fun j ω => g (X j ω)) (Y := (id : ℝ → ℝ))
    (P' := ProbabilityTheory.gaussianReal 0 (ProbabilityTheory.variance (fun ω => g (X 0 ω)) P).toNNReal) ⟨aemeasurable_id, Measure.map_id⟩
    (h.memLp.comp_measurePreserving ⟨h.iid.meas 0, rfl⟩) (h.iid.indep.comp (fun _ => g) fun _ => h.meas) hid
  simp only [hB', hV'] at clt
  have hd : TendstoInMeasure P (fun n ω => dslope Real.log h.B (avg X g n ω)) atTop fun _ => h.B⁻¹ := by
    refine tendstoInMeasure_of_tendsto_ae (fun n => ((dslope_log_meas h.B).comp (h.avg_meas n)).aestronglyMeasurable) ?_
    filter_upwards [h.averages] with ω hω
    have hc := (continuousAt_dslope_same.2 (Real.differentiableAt_log hB.ne')).tendsto
    rw [dslope_same, Real.deriv_log] at hc
    exact hc.comp hω.first
  have := clt.continuous_comp_prodMk_of_tendstoInMeasure_const (g := fun p : ℝ × ℝ => p.1 * p.2) (by fun_prop) hd
    fun n => ((dslope_log_meas h.B).comp (h.avg_meas n)).aemeasurable
  refine this.congr (fun n => Eventually.of_forall fun ω => ?_) (Eventually.of_forall fun _ => rfl)
  dsimp only [logErr]
  rcases n.eq_zero_or_pos with rfl | hn
  · simp
  · have hn' : (0 : ℝ) < n := by exact_mod_cast hn
    have hs : √(n : ℝ) * √(n : ℝ) = n := Real.mul_self_sqrt hn'.le
    have hs0 : √(n : ℝ) ≠ 0 := (Real.sqrt_pos.2 hn').ne'
    have := sub_smul_dslope Real.log h.B (avg X g n ω)
    rw [smul_eq_mul] at this
    rw [← this, ← mul_assoc]
    congr 1
    rw [avg]
    field_simp
    rw [pow_two, hs]

/-- the probability that the logarithm of the average exceeds the truth by at most `c` reported standard deviations -/
theorem Weights.coverage (h : Weights P X g) (hV : 0 < h.V) {κ : ℕ → Ω → ℝ} (hκ : ∀ n, Measurable (κ n)) {κ0 : ℝ}
    (hκ0 : ∀ᵐ ω ∂P, Tendsto (fun n => κ n ω) atTop (𝓝 κ0)) (c : ℝ) :
    Tendsto (fun n : ℕ => P.real {ω | Real.log (avg X g n ω) - Real.log h.B ≤ c * (κ n ω / √n)}) atTop (𝓝 (stdNormalCdf (c * (κ0 * h.B / √h.V)))) := by
  have hB := h.pos
  have ht : TendstoInMeasure P (fun n ω => c * κ0 - c * κ n ω) atTop fun _ => 0 := by
    refine tendstoInMeasure_of_tendsto_ae (fun n => (((hκ n).const_mul c).const_sub (c * κ0)).aestronglyMeasurable) ?_
    filter_upwards [hκ0] with ω hω
    simpa using (hω.const_mul c).const_sub (c * κ0)
  have hd := h.clt.add_of_tendstoInMeasure_const ht fun n => (((hκ n).const_mul c).const_sub (c * κ0)).aemeasurable
  have hs : 0 < √h.V := Real.sqrt_pos.2 hV
  have hd' := hd.continuous_comp (g := fun x : ℝ => (h.B / √h.V) * x) (by fun_prop)
  have hZ : (ProbabilityTheory.gaussianReal 0 h.V.toNNReal).map ((fun x : ℝ => (h.B / √h.V) * x) ∘ fun z : ℝ => z * h.B⁻¹ + 0) =
      ProbabilityTheory.gaussianReal 0 1 := by
    have e : ((fun x : ℝ => (h.B / √h.V) * x) ∘ fun z : ℝ => z * h.B⁻¹ + 0) = fun z => (√h.V)⁻¹ * z := by
      funext z
      simp only [Function.comp_apply, add_zero]
      field_simp
    rw [e, ProbabilityTheory.gaussianReal_map_const_mul, mul_zero]
    congr 1
    rw [← NNReal.coe_inj]
    simp only [NNReal.coe_mul, NNReal.coe_mk, Real.coe_toNNReal _ hV.le, NNReal.coe_one, inv_pow, Real.sq_sqrt hV.le]
    exact inv_mul_cancel₀ hV.ne'
  have key := cdf_tendsto one_ne_zero hd' hZ (c * (κ0 * h.B / √h.V))
  refine key.congr' ?_
  filter_upwards [eventually_gt_atTop 0] with n hn
  have hn' : (0 : ℝ) < √n := Real.sqrt_pos.2 (by exact_mod_cast hn)
  congr 1
  ext ω
  simp only [Set.mem_ofPred_eq, Function.comp_apply, Pi.add_apply, logErr]
  rw [show c * (κ0 * h.B / √h.V) = h.B / √h.V * (c * κ0) by ring, mul_le_mul_iff_right₀ (div_pos hB hs), ← le_sub_iff_add_le, sub_sub_cancel, mul_comm (√(n : ℝ)),
    ← le_div_iff₀ hn', mul_div_assoc]

/-- the law of the limit of `Weights.clt` -/
theorem Weights.limit_law (h : Weights P X g) : (ProbabilityTheory.gaussianReal 0 h.V.toNNReal).map (fun z : ℝ => z * h.B⁻¹) =
    ProbabilityTheory.gaussianReal 0 (h.V / h.B ^ 2).toNNReal := by
  rw [ProbabilityTheory.gaussianReal_map_mul_const, mul_zero]
  congr 1
  rw [← NNReal.coe_inj, NNReal.coe_mul, NNReal.coe_mk, Real.coe_toNNReal _ (ProbabilityTheory.variance_nonneg _ _),
    Real.coe_toNNReal _ (div_nonneg (ProbabilityTheory.variance_nonneg _ _) (sq_nonneg _)), inv_pow, div_eq_inv_mul]

/-- convergence in distribution to a centred normal law, by characteristic functions -/
theorem normal_iff {T : ℕ → Ω → ℝ} (hT : ∀ k, AEMeasurable (T k) P) (v : NNReal) :
    TendstoInDistribution T atTop (id : ℝ → ℝ) (fun _ => P) (ProbabilityTheory.gaussianReal 0 v) ↔
      ∀ t : ℝ, Tendsto (fun k => charFun (P.map (T k)) t) atTop (𝓝 (Complex.exp (-(v * t ^ 2 / 2)))) := by
  have e : ∀ t : ℝ, charFun ((ProbabilityTheory.gaussianReal 0 v).map (id : ℝ → ℝ)) t = Complex.exp (-(v * t ^ 2 / 2)) := fun t => by
    rw [Measure.map_id, ProbabilityTheory.charFun_gaussianReal]
    simp
  constructor
  · intro h t
    have := ProbabilityMeasure.tendsto_iff_tendsto_charFun.1 h.tendsto t
    simp only [ProbabilityMeasure.coe_mk, e] at this
    exact this
  · intro h
    refine ⟨hT, aemeasurable_id, ProbabilityMeasure.tendsto_iff_tendsto_charFun.2 fun t => ?_⟩
    simp only [ProbabilityMeasure.coe_mk, e]
    exact h t

/-- a limit law is all that counts -/
theorem normal_of {T : ℕ → Ω → ℝ} {Z : Ω' → ℝ} {v : NNReal} (h : TendstoInDistribution T atTop Z (fun _ => P) P')
    (hZ : P'.map Z = ProbabilityTheory.gaussianReal 0 v) : TendstoInDistribution T atTop (id : ℝ → ℝ) (fun _ => P) (ProbabilityTheory.gaussianReal 0 v) := by
  refine (normal_iff h.forall_aemeasurable v).2 fun t => ?_
  have := ProbabilityMeasure.tendsto_iff_tendsto_charFun.1 h.tendsto t
  simp only [ProbabilityMeasure.coe_mk, hZ, ProbabilityTheory.charFun_gaussianReal] at this
  simpa using this

theorem Weights.normal (h : Weights P X g) : TendstoInDistribution (logErr X g h.B) atTop (id : ℝ → ℝ) (fun _ => P)
    (ProbabilityTheory.gaussianReal 0 (h.V / h.B ^ 2).toNNReal) := normal_of h.clt h.limit_law

/-- sums of independent sequences -/
theorem normal_sum {ι : Type*} [Fintype ι] {T : ι → ℕ → Ω → ℝ} {v : ι → NNReal}
    (h : ∀ i, TendstoInDistribution (T i) atTop (id : ℝ → ℝ) (fun _ => P) (ProbabilityTheory.gaussianReal 0 (v i)))
    (hi : ∀ k, ProbabilityTheory.iIndepFun (fun i => T i k) P) :
    TendstoInDistribution (fun k ω => ∑ i, T i k ω) atTop (id : ℝ → ℝ) (fun _ => P) (ProbabilityTheory.gaussianReal 0 (∑ i, v i)) := by
  refine (normal_iff (fun k => Finset.aemeasurable_fun_sum _ fun i _ => (h i).forall_aemeasurable k) _).2 fun t => ?_
  have e : ∀ k, charFun (P.map fun ω => ∑ i, T i k ω) t = ∏ i, charFun (P.map (T i k)) t := fun k => by
    rw [(hi k).charFun_map_fun_sum_eq_prod fun i => (h i).forall_aemeasurable k, Finset.prod_apply]
  simp only [e]
  have e2 : Complex.exp (-(((∑ i, v i : NNReal) : ℝ) * t ^ 2 / 2)) = ∏ i, Complex.exp (-((v i : ℝ) * t ^ 2 / 2)) := by
    rw [← Complex.exp_sum]
    congr 1
    push_cast
    rw [Finset.sum_neg_distrib, ← Finset.sum_div, ← Finset.sum_mul]
  have := tendsto_finsetProd (univ : Finset ι) fun i _ => (normal_iff (h i).forall_aemeasurable (v i)).1 (h i) t
  rw [← e2] at this
  exact this

/-- scaling by numbers that converge -/
theorem normal_scale {T : ℕ → Ω → ℝ} {v : NNReal} (h : TendstoInDistribution T atTop (id : ℝ → ℝ) (fun _ => P) (ProbabilityTheory.gaussianReal 0 v))
    {a : ℕ → ℝ} {a0 : ℝ} (ha : Tendsto a atTop (𝓝 a0)) :
    TendstoInDistribution (fun k ω => a k * T k ω) atTop (id : ℝ → ℝ) (fun _ => P) (ProbabilityTheory.gaussianReal 0 ((a0 ^ 2).toNNReal * v)) := by
  have ht : TendstoInMeasure P (fun k (_ : Ω) => a k) atTop fun _ => a0 :=
    tendstoInMeasure_of_tendsto_ae (fun k => aestronglyMeasurable_const) (Eventually.of_forall fun _ => ha)
  have := h.continuous_comp_prodMk_of_tendstoInMeasure_const (g := fun p : ℝ × ℝ => p.2 * p.1) (by fun_prop) ht fun k => aemeasurable_const
  refine normal_of this ?_
  change Measure.map (fun x : ℝ => a0 * x) _ = _
  rw [ProbabilityTheory.gaussianReal_map_const_mul, mul_zero]
  congr 2
  rw [← NNReal.coe_inj, Real.coe_toNNReal _ (sq_nonneg _), NNReal.coe_mk]

theorem normal_add {T U : ℕ → Ω → ℝ} {v u : NNReal} (h : TendstoInDistribution T atTop (id : ℝ → ℝ) (fun _ => P) (ProbabilityTheory.gaussianReal 0 v))
    (h' : TendstoInDistribution U atTop (id : ℝ → ℝ) (fun _ => P) (ProbabilityTheory.gaussianReal 0 u))
    (hi : ∀ k, ProbabilityTheory.IndepFun (T k) (U k) P) :
    TendstoInDistribution (fun k ω => T k ω + U k ω) atTop (id : ℝ → ℝ) (fun _ => P) (ProbabilityTheory.gaussianReal 0 (v + u)) := by
  refine (normal_iff (fun k => (h.forall_aemeasurable k).add (h'.forall_aemeasurable k)) _).2 fun t => ?_
  have e : ∀ k, charFun (P.map fun ω => T k ω + U k ω) t = charFun (P.map (T k)) t * charFun (P.map (U k)) t := fun k =>
    congrFun ((hi k).charFun_map_fun_add_eq_mul (h.forall_aemeasurable k) (h'.forall_aemeasurable k)) t
  have e2 : Complex.exp (-(((v + u : NNReal) : ℝ) * t ^ 2 / 2)) = Complex.exp (-((v : ℝ) * t ^ 2 / 2)) * Complex.exp (-((u : ℝ) * t ^ 2 / 2)) := by
    rw [← Complex.exp_add]
    congr 1
    push_cast
    ring
  rw [e2]
  exact (((normal_iff h.forall_aemeasurable v).1 h t).mul ((normal_iff h'.forall_aemeasurable u).1 h' t)).congr fun k => (e k).symm

/-- two independent errors, at rates that need not be related, over their joint standard deviation -/
theorem normal_pair {S U : ℕ → Ω → ℝ} {A D : ℝ} (hA : 0 < A) (hD : 0 < D)
    (hS : TendstoInDistribution S atTop (id : ℝ → ℝ) (fun _ => P) (ProbabilityTheory.gaussianReal 0 A.toNNReal))
    (hU : TendstoInDistribution U atTop (id : ℝ → ℝ) (fun _ => P) (ProbabilityTheory.gaussianReal 0 D.toNNReal))
    (hi : ∀ k, ProbabilityTheory.IndepFun (S k) (U k) P) {a b : ℕ → ℝ} (hab : ∀ᶠ k in atTop, a k ^ 2 * A + b k ^ 2 * D = 1) :
    TendstoInDistribution (fun k ω => a k * S k ω + b k * U k ω) atTop (id : ℝ → ℝ) (fun _ => P) (ProbabilityTheory.gaussianReal 0 1) := by
  have hm : ∀ k, AEMeasurable (fun ω => a k * S k ω + b k * U k ω) P := fun k => ((hS.forall_aemeasurable k).const_mul _).add ((hU.forall_aemeasurable k).const_mul _)
  refine (normal_iff hm 1).2 fun t => Filter.tendsto_of_subseq_tendsto fun ns hns => ?_
  have hab' := hns.eventually hab
  have hba : ∀ᶠ k in atTop, (a (ns k), b (ns k)) ∈ Set.Icc (-(√A)⁻¹) (√A)⁻¹ ×ˢ Set.Icc (-(√D)⁻¹) (√D)⁻¹ := by
    filter_upwards [hab'] with k hk
    have aux : ∀ {x C : ℝ}, 0 < C → x ^ 2 * C ≤ 1 → x ∈ Set.Icc (-(√C)⁻¹) (√C)⁻¹ := by
      intro x C hC hx
      have hs := Real.sqrt_pos.2 hC
      have : |x * √C| ≤ 1 := by
        rw [← sq_le_one_iff_abs_le_one, mul_pow, Real.sq_sqrt hC.le]; exact hx
      rw [abs_le] at this
      constructor
      · rw [show -(√C)⁻¹ = -1 / √C by ring, div_le_iff₀ hs]; exact this.1
      · rw [← one_div, le_div_iff₀ hs]; exact this.2
    exact ⟨aux hA (by nlinarith [mul_nonneg (sq_nonneg (b (ns k))) hD.le]), aux hD (by nlinarith [mul_nonneg (sq_nonneg (a (ns k))) hA.le])⟩
  obtain ⟨⟨a0, b0⟩, -, ms, hms, hlim⟩ := (isCompact_Icc.prod isCompact_Icc).tendsto_subseq' (x := fun k => (a (ns k), b (ns k))) hba.frequently
  refine ⟨ms, ?_⟩
  have la : Tendsto (fun k => a (ns (ms k))) atTop (𝓝 a0) := (continuous_fst.tendsto _).comp hlim
  have lb : Tendsto (fun k => b (ns (ms k))) atTop (𝓝 b0) := (continuous_snd.tendsto _).comp hlim
  have hone : a0 ^ 2 * A + b0 ^ 2 * D = 1 := by
    refine tendsto_nhds_unique (((la.pow 2).mul_const A).add ((lb.pow 2).mul_const D)) (tendsto_const_nhds.congr' ?_)
    filter_upwards [hms.tendsto_atTop.eventually hab'] with k hk
    exact hk.symm
  have sub : ∀ {T : ℕ → Ω → ℝ} {v : NNReal}, TendstoInDistribution T atTop (id : ℝ → ℝ) (fun _ => P) (ProbabilityTheory.gaussianReal 0 v) →
      TendstoInDistribution (fun k => T (ns (ms k))) atTop (id : ℝ → ℝ) (fun _ => P) (ProbabilityTheory.gaussianReal 0 v) := fun hT =>
    ⟨fun k => hT.forall_aemeasurable _, aemeasurable_id, hT.tendsto.comp (hns.comp hms.tendsto_atTop)⟩
  have := normal_add (normal_scale (sub hS) la) (normal_scale (sub hU) lb) fun k =>
    (hi (ns (ms k))).comp (φ := fun x => a (ns (ms k)) * x) (ψ := fun x => b (ns (ms k)) * x) (by fun_prop) (by fun_prop)
  have hv : (a0 ^ 2).toNNReal * A.toNNReal + (b0 ^ 2).toNNReal * D.toNNReal = 1 := by
    rw [← NNReal.coe_inj]
    push_cast
    rw [Real.coe_toNNReal _ (sq_nonneg _), Real.coe_toNNReal _ (sq_nonneg _), Real.coe_toNNReal _ hA.le, Real.coe_toNNReal _ hD.le, hone]
  rw [hv] at this
  exact (normal_iff this.forall_aemeasurable 1).1 this t

end general

/-! ## the estimates of the code -/

section estimates
variable {Ω Θ : Type*} [MeasurableSpace Ω] [MeasurableSpace Θ] {P : Measure Ω} [IsProbabilityMeasure P]
variable {ν : Measure Θ} {pop : Θ → ℝ} {L π : Θ → ℝ} {Z : ℝ} {θ : ℕ → Ω → Θ} {d pdet : Θ → ℝ} {I : ℕ → Ω → Θ × Bool}

/-- the weights of the samples of an event -/
theorem Event.weights (h : Event P ν pop L π Z θ) (hpop : Measurable pop) (hpop0 : ∀ t, 0 ≤ pop t) : Weights P θ fun t => pop t / π t :=
  ⟨h.iid, hpop.div h.mπ, fun t => div_nonneg (hpop0 t) (h.π0 t), by rw [h.law]; exact h.square, by
    rw [h.mean]; exact div_pos h.positive h.Z0⟩

/-- the weights of all the injections, those that are not found counting 0 -/
theorem Injections.weights (h : Injections P ν pop d pdet I) (hpop : Measurable pop) (hpop0 : ∀ t, 0 ≤ pop t) : Weights P I (injWeight pop d) :=
  ⟨h.iid, injWeight_measurable hpop h.md, fun x => by unfold injWeight; split_ifs; exacts [div_nonneg (hpop0 _) (h.d0 _), le_rfl],
    (h.found_of (fun y => y ^ 2) (by simp) (by fun_prop) hpop).2 h.square, by rw [h.mean hpop]; exact h.positive⟩

theorem pos_of_sum {x : ℕ → ℝ} {N : ℕ} (h : 0 < ∑ i ∈ range N, x i) : ∃ i : Fin N, 0 < x i := by
  by_contra hc
  push Not at hc
  exact absurd h (not_lt.2 (Finset.sum_nonpos fun i hi => hc ⟨i, Finset.mem_range.1 hi⟩))

/-- the estimates for one event, as numbers -/
theorem event_value (lg : Bool) {x : ℕ → ℝ} (h0 : ∀ i, 0 ≤ x i) {N : ℕ} (h : 0 < ∑ i ∈ range N, x i) :
    eventEstimate lg x N = (fin (Real.log ((∑ i ∈ range N, x i) / N)), fin ((∑ i ∈ range N, x i ^ 2) / (∑ i ∈ range N, x i) ^ 2 - 1 / N)) := by
  unfold eventEstimate
  rw [C40_value (fun _ i => x i) (fun _ i => h0 i) (fun _ => pos_of_sum h) lg]
  simp only [mean, kish, one_div_div]
  rw [Fin.sum_univ_eq_sum_range (fun i => x i) N, Fin.sum_univ_eq_sum_range (fun i => x i ^ 2) N]

/-- the estimates from the injections, as numbers -/
theorem inj_value (lg : Bool) {v : ℕ → ℝ} {det : ℕ → Bool} (h0 : ∀ i, 0 ≤ v i) {n : ℕ} (h : 0 < ∑ j ∈ range n, if det j then v j else 0) :
    (injEstimate lg v det n).1 = fin (Real.log ((∑ j ∈ range n, if det j then v j else 0) / n)) ∧
    1 / exp (injEstimate lg v det n).2.1 = fin (relVar (foundWeights v det n).get n) ∧
    (injEstimate lg v det n).2.2 = fin (relVar (foundWeights v det n).get n - 1 / n) := by
  have hn := found_pos (pos_of_sum (x := fun j => if det j then v j else 0) h)
  have e := detection_efficiency_value (found_length v det n) (foundWeights v det n).get (found_nonneg h0 n) hn lg
  have e2 := (C43_neff_partial (found_length v det n) (foundWeights v det n).get (found_nonneg h0 n) hn lg).2.1
  refine ⟨?_, e2, ?_⟩
  · unfold injEstimate
    rw [e, found_sum v det n (fun y => y)]
  · unfold injEstimate
    rw [e]

/-- the sum of the weights is eventually positive -/
theorem Weights.eventually_pos {α : Type*} [MeasurableSpace α] {X : ℕ → Ω → α} {g : α → ℝ} (h : Weights P X g) :
    ∀ᵐ ω ∂P, ∀ᶠ n in atTop, ω ∈ {ω | 0 < ∑ i ∈ range n, g (X i ω)} := by
  filter_upwards [h.averages] with ω hω
  filter_upwards [hω.first.eventually (lt_mem_nhds h.pos), eventually_gt_atTop 0] with n hn hn0
  have hn' : (0 : ℝ) < n := by exact_mod_cast hn0
  exact (div_pos_iff_of_pos_right hn').1 hn

theorem Weights.sum_meas {α : Type*} [MeasurableSpace α] {X : ℕ → Ω → α} {g : α → ℝ} (h : Weights P X g) (n : ℕ) :
    MeasurableSet {ω | 0 < ∑ i ∈ range n, g (X i ω)} :=
  measurableSet_lt measurable_const (Finset.measurable_fun_sum _ fun i _ => h.meas.comp (h.iid.meas i))

theorem sqrt_div_self {n : ℕ} (hn : 0 < n) (r : ℝ) : √(n * r) / √n = √r := by
  have hn' : (0 : ℝ) < n := by exact_mod_cast hn
  rw [Real.sqrt_mul hn'.le, mul_div_cancel_left₀ _ (Real.sqrt_pos.2 hn').ne']

/-- **C130 (Bayes factors).**  As the number of posterior samples of an event grows, the probability that the log Bayes factor exceeds the true one by at most
`c` times the square root of the variance returned with it tends to the probability that a standard normal variable is at most `c`.  The samples are
independent draws from the posterior; the weights are not constant. -/
theorem C130_bayes_factor (lg : Bool) (hpop : Measurable pop) (hpop0 : ∀ t, 0 ≤ pop t) (h : Event P ν pop L π Z θ)
    (hV : 0 < ProbabilityTheory.variance (fun t => pop t / π t) (posteriorLaw ν L π Z)) (c : ℝ) :
    Tendsto (fun N => P.real {ω | ∃ b v : ℝ, eventEstimate lg (fun j => pop (θ j ω) / π (θ j ω)) N = (fin b, fin v) ∧
      b - Real.log (bayesFactor ν pop L Z) ≤ c * √v}) atTop (𝓝 (stdNormalCdf c)) := by
  have w := h.weights hpop hpop0
  have hB : w.B = bayesFactor ν pop L Z := h.mean
  have hV' : 0 < w.V := by rw [Weights.V, h.law]; exact hV
  have hs := Real.sqrt_pos.2 hV'
  have key := w.coverage hV' (κ := fun n ω => √(n * relV θ (fun t => pop t / π t) n ω)) (κ0 := √(w.V / w.B ^ 2))
    (fun n => ((w.relV_meas n).const_mul _).sqrt) (by
      filter_upwards [w.relV_tendsto] with ω hω
      exact (Real.continuous_sqrt.tendsto _).comp hω) c
  have e : √(w.V / w.B ^ 2) * w.B / √w.V = 1 := by
    rw [Real.sqrt_div' _ (sq_nonneg _), Real.sqrt_sq w.pos.le, div_mul_cancel₀ _ w.pos.ne', div_self hs.ne']
  rw [e, mul_one] at key
  refine agree_tendsto (fun n => w.sum_meas n) w.eventually_pos ?_ key
  filter_upwards [eventually_gt_atTop 0] with n hn ω hω
  change (∃ b v : ℝ, _ = _ ∧ _) ↔ Real.log (avg θ (fun t => pop t / π t) n ω) - _ ≤ _
  rw [event_value lg (x := fun j => pop (θ j ω) / π (θ j ω)) (fun j => div_nonneg (hpop0 _) (h.π0 _)) hω, ← hB, sqrt_div_self hn]
  constructor
  · rintro ⟨b, v, hbv, hle⟩
    simp only [Prod.mk.injEq, fin.injEq] at hbv
    rw [← hbv.1, ← hbv.2] at hle
    exact hle
  · intro hle
    exact ⟨_, _, rfl, hle⟩

/-- the injections, with any of the two variances that are reported -/
theorem selection_coverage (lg : Bool) (hpop : Measurable pop) (hpop0 : ∀ t, 0 ≤ pop t) (h : Injections P ν pop d pdet I)
    (hV : 0 < ProbabilityTheory.variance (injWeight pop d) (P.map (I 0))) (c : ℝ) (sub : ℝ) (est : F × F × F → F)
    (hest : ∀ (v : ℕ → ℝ) (det : ℕ → Bool), (∀ i, 0 ≤ v i) → ∀ n : ℕ, (0 < ∑ j ∈ range n, if det j then v j else 0) →
      est (injEstimate lg v det n) = fin (relVar (foundWeights v det n).get n - sub / n)) :
    let σ := ProbabilityTheory.variance (injWeight pop d) (P.map (I 0)) / efficiency ν pop pdet ^ 2
    Tendsto (fun n => P.real {ω | ∃ m r : ℝ, (injEstimate lg (fun j => pop (I j ω).1 / d (I j ω).1) (fun j => (I j ω).2) n).1 = fin m ∧
      est (injEstimate lg (fun j => pop (I j ω).1 / d (I j ω).1) (fun j => (I j ω).2) n) = fin r ∧
      m - Real.log (efficiency ν pop pdet) ≤ c * √r}) atTop (𝓝 (stdNormalCdf (c * √((σ - sub) / σ)))) := by
  intro σ
  have w := h.weights hpop hpop0
  have hB : w.B = efficiency ν pop pdet := h.mean hpop
  have hV' : 0 < w.V := hV
  have hσ : σ = w.V / w.B ^ 2 := by rw [hB]
  have hσ0 : 0 < σ := by rw [hσ]; exact div_pos hV' (pow_pos w.pos 2)
  have key := w.coverage hV' (κ := fun n ω => √(n * relV I (injWeight pop d) n ω - sub)) (κ0 := √(σ - sub))
    (fun n => (((w.relV_meas n).const_mul _).sub_const _).sqrt) (by
      filter_upwards [w.relV_tendsto] with ω hω
      rw [hσ]
      exact (Real.continuous_sqrt.tendsto _).comp (hω.sub_const sub)) c
  have e : √(σ - sub) * w.B / √w.V = √((σ - sub) / σ) := by
    rw [Real.sqrt_div' _ hσ0.le, hσ, Real.sqrt_div' w.V (sq_nonneg _), Real.sqrt_sq w.pos.le]
    field_simp
  rw [e] at key
  refine agree_tendsto (fun n => w.sum_meas n) w.eventually_pos ?_ key
  filter_upwards [eventually_gt_atTop 0] with n hn ω hω
  have hn' : (n : ℝ) ≠ 0 := by exact_mod_cast hn.ne'
  have e3 : relV I (injWeight pop d) n ω = relVar (foundWeights (fun j => pop (I j ω).1 / d (I j ω).1) (fun j => (I j ω).2) n).get n := by
    rw [found_relVar]; rfl
  have e4 : √(n * relV I (injWeight pop d) n ω - sub) / √(n : ℝ) = √(relV I (injWeight pop d) n ω - sub / n) := by
    rw [← sqrt_div_self hn (relV I (injWeight pop d) n ω - sub / n)]
    congr 2
    field_simp
  have hp : 0 < ∑ j ∈ range n, if (I j ω).2 then pop (I j ω).1 / d (I j ω).1 else 0 := hω
  have h0 : ∀ j, 0 ≤ pop (I j ω).1 / d (I j ω).1 := fun j => div_nonneg (hpop0 _) (h.d0 _)
  change (∃ m r : ℝ, _ = _ ∧ _ = _ ∧ _) ↔ Real.log (avg I (injWeight pop d) n ω) - _ ≤ _
  rw [e4, e3, hest _ _ h0 n hp, (inj_value lg h0 hp).1, ← hB]
  constructor
  · rintro ⟨m, r, hm, hr, hle⟩
    simp only [fin.injEq] at hm hr
    rw [← hm, ← hr] at hle
    exact hle
  · intro hle
    exact ⟨_, _, rfl, rfl, hle⟩

/-- **C130 (selection), partial.**  The log efficiency over the square root of one over the effective number returned with it.  Missing: the returned variance,
see `C130_selection_variance_fails`. -/
theorem C130_selection_partial (lg : Bool) (hpop : Measurable pop) (hpop0 : ∀ t, 0 ≤ pop t) (h : Injections P ν pop d pdet I)
    (hV : 0 < ProbabilityTheory.variance (injWeight pop d) (P.map (I 0))) (c : ℝ) :
    Tendsto (fun n => P.real {ω | ∃ m r : ℝ, (injEstimate lg (fun j => pop (I j ω).1 / d (I j ω).1) (fun j => (I j ω).2) n).1 = fin m ∧
      1 / exp (injEstimate lg (fun j => pop (I j ω).1 / d (I j ω).1) (fun j => (I j ω).2) n).2.1 = fin r ∧
      m - Real.log (efficiency ν pop pdet) ≤ c * √r}) atTop (𝓝 (stdNormalCdf c)) := by
  have := selection_coverage lg hpop hpop0 h hV c 0 (fun r => 1 / exp r.2.1) fun v det h0 n hn => by
    rw [(inj_value lg h0 hn).2.1, zero_div, sub_zero]
  have hσ : ProbabilityTheory.variance (injWeight pop d) (P.map (I 0)) / efficiency ν pop pdet ^ 2 ≠ 0 := div_ne_zero hV.ne' (pow_pos h.positive 2).ne'
  simp only [sub_zero, div_self hσ, Real.sqrt_one, mul_one] at this
  exact this

theorem stdNormalCdf_strictMono : StrictMono stdNormalCdf := by
  intro a b hab
  have h1 : (ProbabilityTheory.gaussianReal 0 1).real (Set.Ioc a b) ≠ 0 := by
    rw [Measure.real, ENNReal.toReal_ne_zero]
    refine ⟨fun h0 => ?_, measure_ne_top _ _⟩
    have := ProbabilityTheory.gaussianReal_absolutelyContinuous' 0 (one_ne_zero (α := NNReal)) h0
    rw [Real.volume_Ioc, ENNReal.ofReal_eq_zero] at this
    linarith
  have h2 : stdNormalCdf b = stdNormalCdf a + (ProbabilityTheory.gaussianReal 0 1).real (Set.Ioc a b) := by
    unfold stdNormalCdf
    have hd : Disjoint (Set.Iic a) (Set.Ioc a b) := Set.disjoint_left.2 fun x hx hx' => not_lt.2 hx hx'.1
    rw [← measureReal_union hd measurableSet_Ioc, Set.Iic_union_Ioc_eq_Iic hab.le]
  have := measureReal_nonneg (μ := ProbabilityTheory.gaussianReal 0 1) (s := Set.Ioc a b)
  rw [h2]
  exact lt_add_of_pos_right _ (lt_of_le_of_ne this h1.symm)

/-- **C130 is false of the variance that `detection_efficiency` returns:** it leaves out `1/n` twice, so that the error bars are too short by the factor
`√((σ - 1) / σ)` however many injections there are (`σ` is the relative variance of the weights; with `σ ≤ 1` the error bars have length 0 in the limit).  The
probability tends to another value than that of the normal distribution, for every `c` other than 0. -/
theorem C130_selection_variance_fails (lg : Bool) (hpop : Measurable pop) (hpop0 : ∀ t, 0 ≤ pop t) (h : Injections P ν pop d pdet I)
    (hV : 0 < ProbabilityTheory.variance (injWeight pop d) (P.map (I 0))) (c : ℝ) (hc : c ≠ 0) :
    let σ := ProbabilityTheory.variance (injWeight pop d) (P.map (I 0)) / efficiency ν pop pdet ^ 2
    let prob := fun n => P.real {ω | ∃ m r : ℝ, (injEstimate lg (fun j => pop (I j ω).1 / d (I j ω).1) (fun j => (I j ω).2) n).1 = fin m ∧
      (injEstimate lg (fun j => pop (I j ω).1 / d (I j ω).1) (fun j => (I j ω).2) n).2.2 = fin r ∧ m - Real.log (efficiency ν pop pdet) ≤ c * √r}
    Tendsto prob atTop (𝓝 (stdNormalCdf (c * √((σ - 1) / σ)))) ∧ ¬ Tendsto prob atTop (𝓝 (stdNormalCdf c)) := by
  intro σ prob
  have h1 : Tendsto prob atTop (𝓝 (stdNormalCdf (c * √((σ - 1) / σ)))) :=
    selection_coverage lg hpop hpop0 h hV c 1 (fun r => r.2.2) fun v det h0 n hn => (inj_value lg h0 hn).2.2
  refine ⟨h1, fun h2 => ?_⟩
  have hσ : 0 < σ := div_pos hV (pow_pos h.positive 2)
  have e := stdNormalCdf_strictMono.injective (tendsto_nhds_unique h1 h2)
  have : √((σ - 1) / σ) = 1 := mul_left_cancel₀ hc (by rw [e, mul_one])
  rw [Real.sqrt_eq_one, div_eq_one_iff_eq hσ.ne'] at this
  linarith

/-- the logarithm of an average of independent weights, at any sequence of sample sizes that grows -/
theorem Weights.normal_at {α : Type*} [MeasurableSpace α] {X : ℕ → Ω → α} {g : α → ℝ} (h : Weights P X g) {n : ℕ → ℕ} (hn : Tendsto n atTop atTop) :
    TendstoInDistribution (fun k => logErr X g h.B (n k)) atTop (id : ℝ → ℝ) (fun _ => P) (ProbabilityTheory.gaussianReal 0 (h.V / h.B ^ 2).toNNReal) :=
  ⟨fun k => h.normal.forall_aemeasurable _, aemeasurable_id, h.normal.tendsto.comp hn⟩

/-- the reported variance over the variance of the limit: the sampling noise of both parts is negligible whichever part dominates -/
theorem ratio_tendsto {ι : Type*} [Fintype ι] {N n : ℕ → ℕ} (hN : Tendsto N atTop atTop) (hn : Tendsto n atTop atTop) {σ : ι → ℝ} {D c : ℝ} (hA : 0 < ∑ e, σ e)
    (hD : 0 < D) (hc : 0 < c) {v : ι → ℕ → ℝ} {w : ℕ → ℝ} (hv : ∀ e, Tendsto (fun k => N k * v e k) atTop (𝓝 (σ e)))
    (hw : Tendsto (fun k => n k * w k) atTop (𝓝 D)) :
    Tendsto (fun k => (∑ e, v e k + c ^ 2 * w k) / ((∑ e, σ e) / N k + c ^ 2 * (D / n k))) atTop (𝓝 1) ∧
    Tendsto (fun k => w k / √((∑ e, σ e) / N k + c ^ 2 * (D / n k))) atTop (𝓝 0) := by
  have hN0 : ∀ᶠ k in atTop, (0 : ℝ) < N k := (hN.eventually (eventually_gt_atTop 0)).mono fun k hk => by exact_mod_cast hk
  have hn0 : ∀ᶠ k in atTop, (0 : ℝ) < n k := (hn.eventually (eventually_gt_atTop 0)).mono fun k hk => by exact_mod_cast hk
  set A := ∑ e, σ e with hAd
  constructor
  · have t : Tendsto (fun k => |∑ e, (N k * v e k) - A| / A + |n k * w k - D| / D) atTop (𝓝 0) := by
      have t1 := (((tendsto_finsetSum univ fun e _ => hv e).sub_const A).abs.div_const A).add ((hw.sub_const D).abs.div_const D)
      rw [← hAd] at t1
      simpa using t1
    rw [tendsto_iff_norm_sub_tendsto_zero]
    refine squeeze_zero' (Eventually.of_forall fun k => norm_nonneg _) ?_ t
    filter_upwards [hN0, hn0] with k h1 h2
    set s := A / N k + c ^ 2 * (D / n k) with hs
    have hs1 : 0 < A / N k := div_pos hA h1
    have hs2 : 0 < c ^ 2 * (D / n k) := mul_pos (pow_pos hc 2) (div_pos hD h2)
    have hs0 : 0 < s := add_pos hs1 hs2
    have e : (∑ e, v e k + c ^ 2 * w k) / s - 1 = (∑ e, (N k * v e k) - A) / (N k * s) + c ^ 2 * (n k * w k - D) / (n k * s) := by
      rw [← Finset.mul_sum, hs]
      have hs0' : A / N k + c ^ 2 * (D / n k) ≠ 0 := hs0.ne'
      have hx : A / N k + c ^ 2 * (D / n k) = (A * n k + c ^ 2 * D * N k) / (N k * n k) := by field_simp
      have hy : A * n k + c ^ 2 * D * N k ≠ 0 := by
        intro h0
        rw [hx, h0, zero_div] at hs0'
        exact hs0' rfl
      rw [hx]
      field_simp
      ring
    rw [e, Real.norm_eq_abs]
    refine (abs_add_le _ _).trans (add_le_add ?_ ?_)
    · rw [abs_div, abs_of_pos (mul_pos h1 hs0)]
      refine div_le_div_of_nonneg_left (abs_nonneg _) hA ?_
      have : N k * s = A + N k * (c ^ 2 * (D / n k)) := by rw [hs, mul_add, mul_div_cancel₀ _ h1.ne']
      rw [this]
      have := mul_pos h1 hs2
      linarith
    · rw [abs_div, abs_of_pos (mul_pos h2 hs0), abs_mul, abs_of_pos (pow_pos hc 2), div_le_div_iff₀ (mul_pos h2 hs0) hD]
      have : n k * s = c ^ 2 * D + n k * (A / N k) := by rw [hs]; field_simp; ring
      rw [this]
      have h3 := mul_pos h2 hs1
      have h4 := abs_nonneg (n k * w k - D)
      nlinarith [mul_nonneg h4 h3.le]
  · have t : Tendsto (fun k => |n k * w k| * (1 / (c * √D)) * (1 / √(n k : ℝ))) atTop (𝓝 0) := by
      have t2 : Tendsto (fun k => 1 / √(n k : ℝ)) atTop (𝓝 0) := by
        simp only [one_div]
        exact tendsto_inv_atTop_zero.comp (Real.tendsto_sqrt_atTop.comp (tendsto_natCast_atTop_atTop.comp hn))
      have := (hw.abs.mul_const (1 / (c * √D))).mul t2
      simpa using this
    refine squeeze_zero_norm' ?_ t
    filter_upwards [hN0, hn0] with k h1 h2
    have hs1 : 0 < A / N k := div_pos hA h1
    have hsn := Real.sqrt_pos.2 h2
    have hq : √(n k : ℝ) * √(n k : ℝ) = n k := Real.mul_self_sqrt h2.le
    have hb : c * √D / √(n k : ℝ) ≤ √(A / N k + c ^ 2 * (D / n k)) := by
      refine Real.le_sqrt_of_sq_le ?_
      rw [div_pow, mul_pow, Real.sq_sqrt hD.le, Real.sq_sqrt h2.le, mul_div_assoc]
      linarith
    have hpos : 0 < c * √D / √(n k : ℝ) := div_pos (mul_pos hc (Real.sqrt_pos.2 hD)) hsn
    rw [Real.norm_eq_abs, abs_div, abs_of_pos (hpos.trans_le hb)]
    refine (div_le_div_of_nonneg_left (abs_nonneg _) hpos hb).trans (le_of_eq ?_)
    rw [abs_mul, abs_of_pos h2]
    have hD' := Real.sqrt_pos.2 hD
    rw [← hq]
    field_simp
    rw [Real.sqrt_sq hsn.le]

theorem relV_zero {x : ℝ} {n : ℕ → ℕ} (hn : Tendsto n atTop atTop) {r : ℕ → ℝ} (h : Tendsto (fun k => n k * r k) atTop (𝓝 x)) : Tendsto r atTop (𝓝 0) := by
  have := h.mul (tendsto_inv_atTop_zero.comp (tendsto_natCast_atTop_atTop.comp hn : Tendsto (fun k => (n k : ℝ)) atTop atTop))
  rw [mul_zero] at this
  refine this.congr' ?_
  filter_upwards [hn.eventually (eventually_gt_atTop 0)] with k hk
  have : (n k : ℝ) ≠ 0 := by exact_mod_cast hk.ne'
  simp only [Function.comp_apply]
  field_simp

theorem error_algebra {m1 m2 t c c0 r a b a' b' E x : ℝ} (h1 : 0 < m1) (h2 : 0 < m2) (ht : 0 < t) :
    (a - E * a' + x - (b - E * b') ≤ c * r) ↔ 1 / (m1 * t) * (m1 * (a - b)) + -E / (m2 * t) * (m2 * (a' - b')) + (x / t + (c0 - c * (r / t))) ≤ c0 := by
  rw [← sub_nonneg, ← sub_nonneg (a := c0)]
  have : c0 - (1 / (m1 * t) * (m1 * (a - b)) + -E / (m2 * t) * (m2 * (a' - b')) + (x / t + (c0 - c * (r / t)))) = (c * r - (a - E * a' + x - (b - E * b'))) / t := by
    field_simp
    ring
  rw [this]
  constructor
  · intro h; exact div_nonneg h ht.le
  · intro h; rw [← div_mul_cancel₀ (c * r - _) ht.ne']; exact mul_nonneg h ht.le

section combined
variable {α β ι : Type*} [MeasurableSpace α] [MeasurableSpace β] [Fintype ι] {X : ι → ℕ → Ω → α} {g : ι → α → ℝ} {Y : ℕ → Ω → β} {f : β → ℝ}

/-- the relative variance of an average, to be divided by the number of samples -/
abbrev Weights.σ {X : ℕ → Ω → α} {g : α → ℝ} (h : Weights P X g) : ℝ := h.V / h.B ^ 2

theorem Weights.σ_nonneg {X : ℕ → Ω → α} {g : α → ℝ} (h : Weights P X g) : 0 ≤ h.σ := div_nonneg (ProbabilityTheory.variance_nonneg _ _) (sq_nonneg _)

/-- the error as a function of the draws -/
def logErrFn (g : α → ℝ) (B : ℝ) (n : ℕ) (t : ℕ → α) : ℝ := √(n : ℝ) * (Real.log ((∑ i ∈ range n, g (t i)) / n) - Real.log B)

theorem logErrFn_meas {g : α → ℝ} (hg : Measurable g) (B : ℝ) (n : ℕ) : Measurable (logErrFn g B n) :=
  (Measurable.sub_const (Real.measurable_log.comp (Measurable.div_const (Finset.measurable_fun_sum _ fun i _ => hg.comp (measurable_pi_apply i)) _)) _).const_mul _

theorem logErr_eq (X : ℕ → Ω → α) (g : α → ℝ) (B : ℝ) (n : ℕ) : logErr X g B n = logErrFn g B n ∘ fun ω j => X j ω := rfl

theorem combined_normal (we : ∀ e, Weights P (X e) (g e)) (wi : Weights P Y f) (hind : ProbabilityTheory.iIndepFun (fun e ω j => X e j ω) P)
    (hsel : ProbabilityTheory.IndepFun (fun ω e j => X e j ω) (fun ω j => Y j ω) P) (hA : 0 < ∑ e, (we e).σ) (hD : 0 < wi.σ)
    {N n : ℕ → ℕ} (hN : Tendsto N atTop atTop) (hn : Tendsto n atTop atTop) {c : ℝ} (hc : 0 < c) :
    TendstoInDistribution (fun k ω => 1 / (√(N k : ℝ) * √((∑ e, (we e).σ) / N k + c ^ 2 * (wi.σ / n k))) * (∑ e, logErr (X e) (g e) (we e).B (N k) ω) +
      -c / (√(n k : ℝ) * √((∑ e, (we e).σ) / N k + c ^ 2 * (wi.σ / n k))) * logErr Y f wi.B (n k) ω) atTop (id : ℝ → ℝ) (fun _ => P)
      (ProbabilityTheory.gaussianReal 0 1) := by
  have hS : TendstoInDistribution (fun k ω => ∑ e, logErr (X e) (g e) (we e).B (N k) ω) atTop (id : ℝ → ℝ) (fun _ => P)
      (ProbabilityTheory.gaussianReal 0 (∑ e, (we e).σ).toNNReal) := by
    rw [Real.toNNReal_sum_of_nonneg fun e _ => (we e).σ_nonneg]
    refine normal_sum (fun e => (we e).normal_at hN) fun k => ?_
    simp only [logErr_eq]
    exact hind.comp (fun e => logErrFn (g e) (we e).B (N k)) fun e => logErrFn_meas (we e).meas (we e).B (N k)
  have hSU : ∀ k, ProbabilityTheory.IndepFun (fun ω => ∑ e, logErr (X e) (g e) (we e).B (N k) ω) (logErr Y f wi.B (n k)) P := fun k => by
    have m : Measurable fun t : ι → ℕ → α => ∑ e, logErrFn (g e) (we e).B (N k) (t e) :=
      Finset.measurable_fun_sum _ fun e _ => (logErrFn_meas (we e).meas (we e).B (N k)).comp (measurable_pi_apply e)
    simp only [logErr_eq]
    exact hsel.comp m (logErrFn_meas wi.meas wi.B (n k))
  refine normal_pair hA hD hS (wi.normal_at hn) hSU ?_
  filter_upwards [hN.eventually (eventually_gt_atTop 0), hn.eventually (eventually_gt_atTop 0)] with k h1 h2
  have h1' : (0 : ℝ) < N k := by exact_mod_cast h1
  have h2' : (0 : ℝ) < n k := by exact_mod_cast h2
  generalize (∑ e, (we e).σ) = A at hA ⊢
  generalize wi.σ = D at hD ⊢
  have h3 : 0 < A / N k + c ^ 2 * (D / n k) := add_pos (div_pos hA h1') (mul_pos (pow_pos hc 2) (div_pos hD h2'))
  rw [div_pow, div_pow, mul_pow, mul_pow, Real.sq_sqrt h1'.le, Real.sq_sqrt h2'.le, Real.sq_sqrt h3.le]
  have e : 1 ^ 2 / (N k * (A / N k + c ^ 2 * (D / n k))) * A + (-c) ^ 2 / (n k * (A / N k + c ^ 2 * (D / n k))) * D =
      (A / N k + c ^ 2 * (D / n k)) / (A / N k + c ^ 2 * (D / n k)) := by
    generalize hs : A / N k + c ^ 2 * (D / n k) = s at h3 ⊢
    rw [one_pow, neg_sq, div_mul_eq_mul_div, div_mul_eq_mul_div, one_mul, ← div_div, ← div_div, ← add_div, mul_div_assoc, hs]
  rw [e, div_self h3.ne']

/-- the combined error over a reported error -/
theorem combined_coverage_of (we : ∀ e, Weights P (X e) (g e)) (wi : Weights P Y f) (hind : ProbabilityTheory.iIndepFun (fun e ω j => X e j ω) P)
    (hsel : ProbabilityTheory.IndepFun (fun ω e j => X e j ω) (fun ω j => Y j ω) P) (hA : 0 < ∑ e, (we e).σ) (hD : 0 < wi.σ)
    {N n : ℕ → ℕ} (hN : Tendsto N atTop atTop) (hn : Tendsto n atTop atTop) {E : ℝ} (hE : 0 < E) (m c : ℝ) {R : ℕ → Ω → ℝ} (hR : ∀ k, Measurable (R k)) {r0 : ℝ}
    (hr : ∀ᵐ ω ∂P, Tendsto (fun k => R k ω / ((∑ e, (we e).σ) / N k + E ^ 2 * (wi.σ / n k))) atTop (𝓝 r0)) :
    Tendsto (fun k => P.real {ω | ∑ e, Real.log (avg (X e) (g e) (N k) ω) - E * Real.log (avg Y f (n k) ω) + m * relV Y f (n k) ω -
      (∑ e, Real.log (we e).B - E * Real.log wi.B) ≤ c * √(R k ω)}) atTop (𝓝 (stdNormalCdf (c * √r0))) := by
  have hpair := combined_normal we wi hind hsel hA hD hN hn hE
  have mrho : ∀ (k : ℕ) (s : ℝ), Measurable fun ω => m * relV Y f (n k) ω / √s + (c * √r0 - c * (√(R k ω) / √s)) := fun k s =>
    (((wi.relV_meas _).const_mul m).div_const _).add (Measurable.const_sub (((hR k).sqrt.div_const _).const_mul c) _)
  have ht : TendstoInMeasure P (fun k ω => m * relV Y f (n k) ω / √((∑ e, (we e).σ) / N k + E ^ 2 * (wi.σ / n k)) +
      (c * √r0 - c * (√(R k ω) / √((∑ e, (we e).σ) / N k + E ^ 2 * (wi.σ / n k))))) atTop fun _ => 0 := by
    refine tendstoInMeasure_of_tendsto_ae (fun k => (mrho k _).aestronglyMeasurable) ?_
    have h1 : ∀ᵐ ω ∂P, ∀ e, Tendsto (fun k => N k * relV (X e) (g e) (N k) ω) atTop (𝓝 (we e).σ) := ae_all_iff.2 fun e => by
      filter_upwards [(we e).relV_tendsto] with ω hω
      exact hω.comp hN
    filter_upwards [h1, wi.relV_tendsto, hr] with ω w1 w2 r1
    have r2 := (ratio_tendsto hN hn hA hD hE w1 (w2.comp hn)).2
    have := (r2.const_mul m).add (((Real.continuous_sqrt.tendsto _).comp r1).const_mul c |>.const_sub (c * √r0))
    rw [mul_zero, sub_self, add_zero] at this
    refine this.congr fun k => ?_
    have : 0 ≤ (∑ e, (we e).σ) / N k + E ^ 2 * (wi.σ / n k) :=
      add_nonneg (div_nonneg hA.le (Nat.cast_nonneg _)) (mul_nonneg (sq_nonneg _) (div_nonneg hD.le (Nat.cast_nonneg _)))
    simp only [Function.comp_apply]
    rw [Real.sqrt_div' _ this, mul_div_assoc]
  have key := cdf_tendsto one_ne_zero (hpair.add_of_tendstoInMeasure_const ht fun k => (mrho k _).aemeasurable) (by
    rw [show (fun ω : ℝ => id ω + 0) = id by funext x; simp, Measure.map_id]) (c * √r0)
  refine key.congr' ?_
  filter_upwards [hN.eventually (eventually_gt_atTop 0), hn.eventually (eventually_gt_atTop 0)] with k h1 h2
  have h1' : (0 : ℝ) < N k := by exact_mod_cast h1
  have h2' : (0 : ℝ) < n k := by exact_mod_cast h2
  congr 1
  ext ω
  rw [Set.mem_ofPred_eq, Set.mem_ofPred_eq, error_algebra (c0 := c * √r0) (Real.sqrt_pos.2 h1') (Real.sqrt_pos.2 h2')
    (Real.sqrt_pos.2 (add_pos (div_pos hA h1') (mul_pos (pow_pos hE 2) (div_pos hD h2')))), ← Finset.sum_sub_distrib, Finset.mul_sum]
  rfl

/-- the combined error over the combined reported error, with a multiple of one over the number of injections left out of the latter -/
theorem combined_coverage (we : ∀ e, Weights P (X e) (g e)) (wi : Weights P Y f) (hind : ProbabilityTheory.iIndepFun (fun e ω j => X e j ω) P)
    (hsel : ProbabilityTheory.IndepFun (fun ω e j => X e j ω) (fun ω j => Y j ω) P) (hA : 0 < ∑ e, (we e).σ) (hD : 0 < wi.σ)
    {N n : ℕ → ℕ} (hN : Tendsto N atTop atTop) (hn : Tendsto n atTop atTop) {E : ℝ} (hE : 0 < E) (m c sub : ℝ) {r0 : ℝ}
    (hr : Tendsto (fun k => sub / n k / ((∑ e, (we e).σ) / N k + E ^ 2 * (wi.σ / n k))) atTop (𝓝 r0)) :
    Tendsto (fun k => P.real {ω | ∑ e, Real.log (avg (X e) (g e) (N k) ω) - E * Real.log (avg Y f (n k) ω) + m * relV Y f (n k) ω -
      (∑ e, Real.log (we e).B - E * Real.log wi.B) ≤ c * √(∑ e, relV (X e) (g e) (N k) ω + E ^ 2 * relV Y f (n k) ω - sub / n k)}) atTop
      (𝓝 (stdNormalCdf (c * √(1 - r0)))) := by
  refine combined_coverage_of we wi hind hsel hA hD hN hn hE m c
    (fun k => ((Finset.measurable_fun_sum _ fun e _ => (we e).relV_meas _).add ((wi.relV_meas _).const_mul _)).sub_const _) ?_
  have h1 : ∀ᵐ ω ∂P, ∀ e, Tendsto (fun k => N k * relV (X e) (g e) (N k) ω) atTop (𝓝 (we e).σ) := ae_all_iff.2 fun e => by
    filter_upwards [(we e).relV_tendsto] with ω hω
    exact hω.comp hN
  filter_upwards [h1, wi.relV_tendsto] with ω w1 w2
  refine ((ratio_tendsto hN hn hA hD hE w1 (w2.comp hn)).1.sub hr).congr fun k => ?_
  rw [← sub_div]
  rfl

end combined

/-- where nothing is cut and the logarithms are finite -/
def Settled {E : ℕ} (x : Fin E → ℕ → ℝ) (y : ℕ → ℝ) (N n : ℕ) : Prop :=
  (∀ e, 0 < ∑ i ∈ range N, x e i) ∧ 0 < ∑ j ∈ range n, y j ∧ (∀ e, (∑ i ∈ range N, x e i ^ 2) / (∑ i ∈ range N, x e i) ^ 2 < 1 / E) ∧
  4 * E * ((∑ j ∈ range n, y j ^ 2) / (∑ j ∈ range n, y j) ^ 2 - 1 / n) < 1 ∧
  (E : ℝ) ^ 2 * ((∑ j ∈ range n, y j ^ 2) / (∑ j ∈ range n, y j) ^ 2 - 1 / n - 1 / n) + ∑ e, ((∑ i ∈ range N, x e i ^ 2) / (∑ i ∈ range N, x e i) ^ 2 - 1 / N) < 1

/-- what the model adds to the log density there -/
theorem settled_value {E : ℕ} (hE : 0 < E) {fl : Flags} (hfl : fl.ok) {hv : Option F} (hhv : fl.reconstruct_rate = true → hv ≠ none) (T u : F)
    {x : Fin E → ℕ → ℝ} (hx : ∀ e i, 0 ≤ x e i) {v : ℕ → ℝ} {det : ℕ → Bool} (hv0 : ∀ i, 0 ≤ v i) {N n : ℕ}
    (h : Settled x (fun j => if det j then v j else 0) N n) :
    likelihoodFactors fl x v det T u hv N n = [fin (∑ e, Real.log ((∑ i ∈ range N, x e i) / N) - E * Real.log ((∑ j ∈ range n, if det j then v j else 0) / n) +
      (if fl.marginalize_selection then (E : ℝ) * (3 + E) / 2 else 0) * ((∑ j ∈ range n, (if det j then v j else 0) ^ 2) / (∑ j ∈ range n, if det j then v j else 0) ^ 2 - 1 / n))] := by
  obtain ⟨a1, a2, a3, a4, a5⟩ := h
  have hE1 : (0 : ℝ) < E := by exact_mod_cast hE
  have ek : ∀ e, 1 / kish (fun i : Fin N => x e i) = (∑ i ∈ range N, x e i ^ 2) / (∑ i ∈ range N, x e i) ^ 2 := fun e => by
    simp only [kish, one_div_div]
    rw [Fin.sum_univ_eq_sum_range (fun i => x e i) N, Fin.sum_univ_eq_sum_range (fun i => x e i ^ 2) N]
  have em : ∀ e, mean (fun i : Fin N => x e i) = (∑ i ∈ range N, x e i) / N := fun e => by
    simp only [mean]
    rw [Fin.sum_univ_eq_sum_range (fun i => x e i) N]
  unfold likelihoodFactors
  rw [C47_value fl (fun e (i : Fin N) => x e i) (foundWeights v det n).get n E T hv u none hfl hhv hE hE (fun e i => hx e i) (fun e => pos_of_sum (a1 e))
    (found_nonneg hv0 _) (found_pos (pos_of_sum (x := fun j => if det j then v j else 0) a2)) (found_length _ _ _) (fun _ => ⟨fun e => ?_, ?_⟩) fun _ => ?_]
  · simp only [em]
    rw [found_sum _ _ n (fun y => y), found_relVar]
    congr 3
    split_ifs <;> simp
  · have hk : 0 < kish (fun i : Fin N => x e i) := by
      have := (kish_bounds (fun i : Fin N => x e i) (fun i => hx e i) (pos_of_sum (a1 e))).1
      linarith
    refine (one_div_lt_one_div hk hE1).1 ?_
    rw [ek]; exact a3 e
  · rw [found_relVar]; exact a4.le
  · rw [found_relVar]; simp only [ek]; exact a5.le

/-- the relative variances of the weights of the events, added up -/
def eventsVar {E : ℕ} (ν : Measure Θ) (pop : Θ → ℝ) (L π : Fin E → Θ → ℝ) (Z : Fin E → ℝ) : ℝ :=
  ∑ e, ProbabilityTheory.variance (fun t => pop t / π e t) (posteriorLaw ν (L e) (π e) (Z e)) / bayesFactor ν pop (L e) (Z e) ^ 2

/-- the relative variance of the weights of the injections -/
def selectionVar (P : Measure Ω) (ν : Measure Θ) (pop d pdet : Θ → ℝ) (I : ℕ → Ω → Θ × Bool) : ℝ :=
  ProbabilityTheory.variance (injWeight pop d) (P.map (I 0)) / efficiency ν pop pdet ^ 2

/-- the log likelihood over any reported error that is, once nothing is cut, the sum of the variances less a multiple of one over the number of injections -/
theorem likelihood_coverage {E : ℕ} (hE : 0 < E) {fl : Flags} (hfl : fl.ok) {hv : Option F} (hhv : fl.reconstruct_rate = true → hv ≠ none) (T u : F)
    (hpop : Measurable pop) (hpop0 : ∀ t, 0 ≤ pop t) {L π : Fin E → Θ → ℝ} {Z : Fin E → ℝ} {θ : Fin E → ℕ → Ω → Θ}
    (he : ∀ e, Event P ν pop (L e) (π e) (Z e) (θ e)) (hi : Injections P ν pop d pdet I)
    (hevents : ProbabilityTheory.iIndepFun (fun e ω j => θ e j ω) P)
    (hsel : ProbabilityTheory.IndepFun (fun ω e j => θ e j ω) (fun ω j => I j ω) P)
    (hVe : ∃ e, 0 < ProbabilityTheory.variance (fun t => pop t / π e t) (posteriorLaw ν (L e) (π e) (Z e)))
    (hVi : 0 < ProbabilityTheory.variance (injWeight pop d) (P.map (I 0)))
    {N n : ℕ → ℕ} (hN : Tendsto N atTop atTop) (hn : Tendsto n atTop atTop) (c : ℝ) (sub : ℝ) {r0 : ℝ}
    (hr : Tendsto (fun k => sub / n k / (eventsVar ν pop L π Z / N k + (E : ℝ) ^ 2 * (selectionVar P ν pop d pdet I / n k))) atTop (𝓝 r0))
    (rep : ℕ → Ω → ℝ → Prop)
    (hrep : ∀ k ω, Settled (fun e j => pop (θ e j ω) / π e (θ e j ω)) (fun j => injWeight pop d (I j ω)) (N k) (n k) →
      ∀ r, rep k ω r ↔ r = ∑ e, relV (θ e) (fun t => pop t / π e t) (N k) ω + (E : ℝ) ^ 2 * relV I (injWeight pop d) (n k) ω - sub / n k) :
    Tendsto (fun k => P.real {ω | ∃ l r : ℝ,
      likelihoodFactors fl (fun e j => pop (θ e j ω) / π e (θ e j ω)) (fun j => pop (I j ω).1 / d (I j ω).1) (fun j => (I j ω).2) T u hv (N k) (n k) = [fin l] ∧
      rep k ω r ∧
      l - (∑ e, Real.log (bayesFactor ν pop (L e) (Z e)) - E * Real.log (efficiency ν pop pdet)) ≤ c * √r}) atTop
      (𝓝 (stdNormalCdf (c * √(1 - r0)))) := by
  have hE1 : (0 : ℝ) < E := by exact_mod_cast hE
  have we : ∀ e, Weights P (θ e) fun t => pop t / π e t := fun e => (he e).weights hpop hpop0
  have wi := hi.weights hpop hpop0
  have hBe : ∀ e, (we e).B = bayesFactor ν pop (L e) (Z e) := fun e => (he e).mean
  have hBi : wi.B = efficiency ν pop pdet := hi.mean hpop
  have hA : 0 < ∑ e, (we e).σ := by
    obtain ⟨e, hVe⟩ := hVe
    refine Finset.sum_pos' (fun e _ => (we e).σ_nonneg) ⟨e, mem_univ _, div_pos ?_ (pow_pos (we e).pos 2)⟩
    rw [Weights.V, (he e).law]; exact hVe
  have hD : 0 < wi.σ := div_pos hVi (pow_pos wi.pos 2)
  have eA : ∑ e, (we e).σ = eventsVar ν pop L π Z := by
    refine Finset.sum_congr rfl fun e _ => ?_
    rw [Weights.σ, Weights.V, hBe, (he e).law]
  have eD : wi.σ = selectionVar P ν pop d pdet I := by rw [Weights.σ, hBi]; rfl
  rw [← eA, ← eD] at hr
  have key := combined_coverage we wi hevents hsel hA hD hN hn hE1 (if fl.marginalize_selection then (E : ℝ) * (3 + E) / 2 else 0) c sub hr
  simp only [hBe, hBi] at key
  refine agree_tendsto (q := fun k => {ω | Settled (fun e j => pop (θ e j ω) / π e (θ e j ω)) (fun j => injWeight pop d (I j ω)) (N k) (n k)}) (fun k => ?_) ?_ ?_ key
  · have mx : ∀ e j, Measurable fun ω => pop (θ e j ω) / π e (θ e j ω) := fun e j => (we e).meas.comp ((we e).iid.meas j)
    have my : ∀ j, Measurable fun ω => injWeight pop d (I j ω) := fun j => wi.meas.comp (wi.iid.meas j)
    have m1 : ∀ e, Measurable fun ω => ∑ i ∈ range (N k), pop (θ e i ω) / π e (θ e i ω) := fun e => Finset.measurable_fun_sum _ fun i _ => mx e i
    have m2 : ∀ e, Measurable fun ω => ∑ i ∈ range (N k), (pop (θ e i ω) / π e (θ e i ω)) ^ 2 := fun e => Finset.measurable_fun_sum _ fun i _ => (mx e i).pow_const 2
    have m3 : Measurable fun ω => ∑ j ∈ range (n k), injWeight pop d (I j ω) := Finset.measurable_fun_sum _ fun i _ => my i
    have m4 : Measurable fun ω => (∑ j ∈ range (n k), injWeight pop d (I j ω) ^ 2) / (∑ j ∈ range (n k), injWeight pop d (I j ω)) ^ 2 - 1 / n k :=
      wi.relV_meas (n k)
    have m5 : ∀ e, Measurable fun ω => (∑ i ∈ range (N k), (pop (θ e i ω) / π e (θ e i ω)) ^ 2) / (∑ i ∈ range (N k), pop (θ e i ω) / π e (θ e i ω)) ^ 2 :=
      fun e => (m2 e).div ((m1 e).pow_const 2)
    refine MeasurableSet.inter (s₁ := {ω | _}) ?_ (MeasurableSet.inter (s₁ := {ω | _}) ?_ (MeasurableSet.inter (s₁ := {ω | _}) ?_ (MeasurableSet.inter (s₁ := {ω | _}) ?_ ?_)))
    · rw [Set.ofPred_forall]; exact MeasurableSet.iInter fun e => measurableSet_lt measurable_const (m1 e)
    · exact measurableSet_lt measurable_const m3
    · rw [Set.ofPred_forall]; exact MeasurableSet.iInter fun e => measurableSet_lt (m5 e) measurable_const
    · exact measurableSet_lt (m4.const_mul _) measurable_const
    · exact measurableSet_lt (((m4.sub_const _).const_mul _).add (Finset.measurable_fun_sum _ fun e _ => (m5 e).sub_const _)) measurable_const
  · have p1 : ∀ᵐ ω ∂P, ∀ e, ∀ᶠ k in atTop, ω ∈ {ω | 0 < ∑ i ∈ range k, pop (θ e i ω) / π e (θ e i ω)} := ae_all_iff.2 fun e => (we e).eventually_pos
    have p3 : ∀ᵐ ω ∂P, ∀ e, Tendsto (fun k : ℕ => k * relV (θ e) (fun t => pop t / π e t) k ω) atTop (𝓝 (we e).σ) := ae_all_iff.2 fun e => (we e).relV_tendsto
    filter_upwards [p1, wi.eventually_pos, p3, wi.relV_tendsto] with ω h1 h2 h3 h4
    have z3 : ∀ e, Tendsto (fun k => relV (θ e) (fun t => pop t / π e t) (N k) ω) atTop (𝓝 0) := fun e => relV_zero hN ((h3 e).comp hN)
    have z4 : Tendsto (fun k => relV I (injWeight pop d) (n k) ω) atTop (𝓝 0) := relV_zero hn (h4.comp hn)
    have o1 : Tendsto (fun k => 1 / (N k : ℝ)) atTop (𝓝 0) := tendsto_one_div_atTop_nhds_zero_nat.comp hN
    have o2 : Tendsto (fun k => 1 / (n k : ℝ)) atTop (𝓝 0) := tendsto_one_div_atTop_nhds_zero_nat.comp hn
    have c3 : ∀ᶠ k in atTop, ∀ e, relV (θ e) (fun t => pop t / π e t) (N k) ω + 1 / N k < 1 / E := eventually_all.2 fun e =>
      ((z3 e).add o1).eventually (gt_mem_nhds (by rw [add_zero]; positivity))
    have c4 : ∀ᶠ k in atTop, 4 * E * relV I (injWeight pop d) (n k) ω < 1 := (z4.const_mul (4 * (E : ℝ))).eventually (gt_mem_nhds (by simp))
    have c5 : ∀ᶠ k in atTop, (E : ℝ) ^ 2 * (relV I (injWeight pop d) (n k) ω - 1 / n k) + ∑ e, relV (θ e) (fun t => pop t / π e t) (N k) ω < 1 :=
      (((z4.sub o2).const_mul ((E : ℝ) ^ 2)).add (tendsto_finsetSum univ fun e _ => z3 e)).eventually (gt_mem_nhds (by simp))
    have c1 : ∀ᶠ k in atTop, ∀ e, ω ∈ {ω | 0 < ∑ i ∈ range (N k), pop (θ e i ω) / π e (θ e i ω)} := eventually_all.2 fun e => hN.eventually (h1 e)
    filter_upwards [c1, hn.eventually h2, c3, c4, c5] with k a1 a2 a3 a4 a5
    exact ⟨a1, a2, fun e => by have := a3 e; rw [relV] at this; linarith, a4, a5⟩
  · refine Eventually.of_forall fun k ω hω => ?_
    have x0 : ∀ e j, 0 ≤ pop (θ e j ω) / π e (θ e j ω) := fun e j => div_nonneg (hpop0 _) ((he e).π0 _)
    have y0 : ∀ j, 0 ≤ pop (I j ω).1 / d (I j ω).1 := fun j => div_nonneg (hpop0 _) (hi.d0 _)
    have hset : Settled (fun e j => pop (θ e j ω) / π e (θ e j ω)) (fun j => if (I j ω).2 then pop (I j ω).1 / d (I j ω).1 else 0) (N k) (n k) := hω
    have hval := settled_value hE hfl hhv T u x0 y0 hset
    constructor
    · rintro ⟨l, r, hl, hrr, hle⟩
      rw [hval, List.cons.injEq, fin.injEq] at hl
      rw [hrep k ω hω] at hrr
      rw [← hl.1, hrr] at hle
      exact hle
    · intro hle
      exact ⟨_, _, hval, (hrep k ω hω _).2 rfl, hle⟩

/-- **C130 (likelihood).**  The events are independent of each other and of the injections.  For every admissible combination of flags, as the numbers of
posterior samples and of injections grow at any relative speed: the probability that the log likelihood exceeds the true population log likelihood by at most
`c` times the square root of the sum of the variances of the log Bayes factors and of the squared number of events over the effective number of injections
tends to the probability that a standard normal variable is at most `c`. -/
theorem C130_likelihood {E : ℕ} (hE : 0 < E) {fl : Flags} (hfl : fl.ok) {hv : Option F} (hhv : fl.reconstruct_rate = true → hv ≠ none) (T u : F)
    (hpop : Measurable pop) (hpop0 : ∀ t, 0 ≤ pop t) {L π : Fin E → Θ → ℝ} {Z : Fin E → ℝ} {θ : Fin E → ℕ → Ω → Θ}
    (he : ∀ e, Event P ν pop (L e) (π e) (Z e) (θ e)) (hi : Injections P ν pop d pdet I)
    (hevents : ProbabilityTheory.iIndepFun (fun e ω j => θ e j ω) P)
    (hsel : ProbabilityTheory.IndepFun (fun ω e j => θ e j ω) (fun ω j => I j ω) P)
    (hVe : ∃ e, 0 < ProbabilityTheory.variance (fun t => pop t / π e t) (posteriorLaw ν (L e) (π e) (Z e)))
    (hVi : 0 < ProbabilityTheory.variance (injWeight pop d) (P.map (I 0)))
    {N n : ℕ → ℕ} (hN : Tendsto N atTop atTop) (hn : Tendsto n atTop atTop) (c : ℝ) :
    Tendsto (fun k => P.real {ω | ∃ (l w : ℝ) (v : Fin E → ℝ),
      likelihoodFactors fl (fun e j => pop (θ e j ω) / π e (θ e j ω)) (fun j => pop (I j ω).1 / d (I j ω).1) (fun j => (I j ω).2) T u hv (N k) (n k) = [fin l] ∧
      (∀ e, (eventEstimate fl.log (fun j => pop (θ e j ω) / π e (θ e j ω)) (N k)).2 = fin (v e)) ∧
      1 / exp (injEstimate fl.log (fun j => pop (I j ω).1 / d (I j ω).1) (fun j => (I j ω).2) (n k)).2.1 = fin w ∧
      l - (∑ e, Real.log (bayesFactor ν pop (L e) (Z e)) - E * Real.log (efficiency ν pop pdet)) ≤ c * √(∑ e, v e + (E : ℝ) ^ 2 * w)}) atTop
      (𝓝 (stdNormalCdf c)) := by
  have h0 : Tendsto (fun k => 0 / (n k : ℝ) / (eventsVar ν pop L π Z / N k + (E : ℝ) ^ 2 * (selectionVar P ν pop d pdet I / n k))) atTop (𝓝 0) := by
    simp only [zero_div]; exact tendsto_const_nhds
  have key := likelihood_coverage hE hfl hhv T u hpop hpop0 he hi hevents hsel hVe hVi hN hn c 0 h0
    (fun k ω r => ∃ (w : ℝ) (v : Fin E → ℝ), (∀ e, (eventEstimate fl.log (fun j => pop (θ e j ω) / π e (θ e j ω)) (N k)).2 = fin (v e)) ∧
      1 / exp (injEstimate fl.log (fun j => pop (I j ω).1 / d (I j ω).1) (fun j => (I j ω).2) (n k)).2.1 = fin w ∧ r = ∑ e, v e + (E : ℝ) ^ 2 * w) (fun k ω hset r => by
    have hev : ∀ e, (eventEstimate fl.log (fun j => pop (θ e j ω) / π e (θ e j ω)) (N k)).2 = fin (relV (θ e) (fun t => pop t / π e t) (N k) ω) := fun e => by
      rw [event_value fl.log (fun j => div_nonneg (hpop0 _) ((he e).π0 _)) (hset.1 e)]; rfl
    have hiv := (inj_value fl.log (v := fun j => pop (I j ω).1 / d (I j ω).1) (det := fun j => (I j ω).2) (fun j => div_nonneg (hpop0 _) (hi.d0 _)) hset.2.1).2.1
    rw [found_relVar] at hiv
    rw [zero_div, sub_zero]
    constructor
    · rintro ⟨w, v, h1, h2, h3⟩
      rw [hiv, fin.injEq] at h2
      have h1' : v = fun e => relV (θ e) (fun t => pop t / π e t) (N k) ω := by
        funext e
        have := h1 e
        rw [hev e, fin.injEq] at this
        exact this.symm
      rw [h3, h1', ← h2]
      rfl
    · rintro rfl
      exact ⟨_, _, hev, hiv, rfl⟩)
  rw [sub_zero, Real.sqrt_one, mul_one] at key
  refine key.congr fun k => ?_
  congr 1
  ext ω
  constructor
  · rintro ⟨l, r, hl, ⟨w, v, hv', hw, rfl⟩, hle⟩
    exact ⟨l, w, v, hl, hv', hw, hle⟩
  · rintro ⟨l, w, v, hl, hv', hw, hle⟩
    exact ⟨l, _, hl, ⟨w, v, hv', hw, rfl⟩, hle⟩

/-- the values recorded under a name -/
def recordedAs (name : String) (tr : List Site) : List (List F) := tr.filterMap fun s => match s with | .det m v => if m = name then some v else none | _ => none

/-- the variance of the log likelihood that is recorded -/
theorem variance_recorded {E : ℕ} {fl : Flags} (hfl : fl.ok) {hv : Option F} (hhv : fl.reconstruct_rate = true → hv ≠ none) (T u : F) (x : Fin E → ℕ → ℝ)
    (v : ℕ → ℝ) (det : ℕ → Bool) (N n : ℕ) :
    recordedAs "variance_log_likelihood" (hierarchical_likelihood fl (.single fun e (i : Fin N) => encode fl.log (x e i))
      (fun i : Fin (foundWeights v det n).length => encode fl.log ((foundWeights v det n).get i)) n E T hv u none).1 =
    [[fin ((E : ℝ) ^ 2) * (injEstimate fl.log v det n).2.2 + ∑ e, (eventEstimate fl.log (x e) N).2]] := by
  have app : ∀ a b, recordedAs "variance_log_likelihood" (a ++ b) = recordedAs "variance_log_likelihood" a ++ recordedAs "variance_log_likelihood" b :=
    fun a b => List.filterMap_append
  unfold hierarchical_likelihood
  rw [if_neg hfl]
  have hr : ∃ rp, ratePart fl hv T u (detection_efficiency (fun i : Fin (foundWeights v det n).length => encode fl.log ((foundWeights v det n).get i)) n fl.log).1
      = .ok rp ∧ recordedAs "variance_log_likelihood" rp.1 = [] := by
    unfold ratePart
    cases hb : fl.reconstruct_rate with
    | false => exact ⟨_, rfl, rfl⟩
    | true =>
      cases hv with
      | none => exact absurd rfl (hhv hb)
      | some hv => exact ⟨_, rfl, by simp [recordedAs]⟩
  obtain ⟨rp, h1, h2⟩ := hr
  simp only [h1, app, h2]
  have h3 : ∀ (b : Prop) [Decidable b] (nm : String) (y : F), nm ≠ "variance_log_likelihood" →
      recordedAs "variance_log_likelihood" (if b then [Site.det nm [y]] else []) = [] := fun b _ nm y h => by
    split_ifs <;> simp [recordedAs, h]
  rw [h3 _ _ _ (by decide), h3 _ _ _ (by decide)]
  simp only [recordedAs, List.filterMap_cons, List.filterMap_nil, PEWeights.sites]
  simp
  rfl

/-- **C130 is false of the variance of the log likelihood that is recorded.**  It contains the variance of `detection_efficiency`.  When the number of injections
grows no faster than a multiple of the number of posterior samples per event (`n / N → λ`), the recorded error bars of the likelihood are too short by a
factor that does not go away. -/
theorem C130_likelihood_variance_fails {E : ℕ} (hE : 0 < E) {fl : Flags} (hfl : fl.ok) {hv : Option F} (hhv : fl.reconstruct_rate = true → hv ≠ none) (T u : F)
    (hpop : Measurable pop) (hpop0 : ∀ t, 0 ≤ pop t) {L π : Fin E → Θ → ℝ} {Z : Fin E → ℝ} {θ : Fin E → ℕ → Ω → Θ}
    (he : ∀ e, Event P ν pop (L e) (π e) (Z e) (θ e)) (hi : Injections P ν pop d pdet I)
    (hevents : ProbabilityTheory.iIndepFun (fun e ω j => θ e j ω) P)
    (hsel : ProbabilityTheory.IndepFun (fun ω e j => θ e j ω) (fun ω j => I j ω) P)
    (hVe : ∃ e, 0 < ProbabilityTheory.variance (fun t => pop t / π e t) (posteriorLaw ν (L e) (π e) (Z e)))
    (hVi : 0 < ProbabilityTheory.variance (injWeight pop d) (P.map (I 0)))
    {N n : ℕ → ℕ} (hN : Tendsto N atTop atTop) (hn : Tendsto n atTop atTop) (c : ℝ) (hc : c ≠ 0)
    {lam : ℝ} (hlam : Tendsto (fun k => (n k : ℝ) / N k) atTop (𝓝 lam)) :
    let prob := fun k => P.real {ω | ∃ l r : ℝ,
      likelihoodFactors fl (fun e j => pop (θ e j ω) / π e (θ e j ω)) (fun j => pop (I j ω).1 / d (I j ω).1) (fun j => (I j ω).2) T u hv (N k) (n k) = [fin l] ∧
      recordedAs "variance_log_likelihood" (hierarchical_likelihood fl (.single fun e (i : Fin (N k)) => encode fl.log (pop (θ e i ω) / π e (θ e i ω)))
        (fun i : Fin (foundWeights (fun j => pop (I j ω).1 / d (I j ω).1) (fun j => (I j ω).2) (n k)).length =>
          encode fl.log ((foundWeights (fun j => pop (I j ω).1 / d (I j ω).1) (fun j => (I j ω).2) (n k)).get i)) (n k) E T hv u none).1 = [[fin r]] ∧
      l - (∑ e, Real.log (bayesFactor ν pop (L e) (Z e)) - E * Real.log (efficiency ν pop pdet)) ≤ c * √r}
    Tendsto prob atTop (𝓝 (stdNormalCdf (c * √(1 - (E : ℝ) ^ 2 / (eventsVar ν pop L π Z * lam + (E : ℝ) ^ 2 * selectionVar P ν pop d pdet I))))) ∧
    ¬ Tendsto prob atTop (𝓝 (stdNormalCdf c)) := by
  intro prob
  have hE1 : (0 : ℝ) < E := by exact_mod_cast hE
  have hlam0 : 0 ≤ lam := ge_of_tendsto' hlam fun k => div_nonneg (Nat.cast_nonneg _) (Nat.cast_nonneg _)
  have hD : 0 < selectionVar P ν pop d pdet I := div_pos hVi (pow_pos hi.positive 2)
  have hA : 0 ≤ eventsVar ν pop L π Z := Finset.sum_nonneg fun e _ => div_nonneg (ProbabilityTheory.variance_nonneg _ _) (sq_nonneg _)
  have hden : 0 < eventsVar ν pop L π Z * lam + (E : ℝ) ^ 2 * selectionVar P ν pop d pdet I :=
    add_pos_of_nonneg_of_pos (mul_nonneg hA hlam0) (mul_pos (pow_pos hE1 2) hD)
  have hr : Tendsto (fun k => (E : ℝ) ^ 2 / n k / (eventsVar ν pop L π Z / N k + (E : ℝ) ^ 2 * (selectionVar P ν pop d pdet I / n k))) atTop
      (𝓝 ((E : ℝ) ^ 2 / (eventsVar ν pop L π Z * lam + (E : ℝ) ^ 2 * selectionVar P ν pop d pdet I))) := by
    have := (tendsto_const_nhds (x := (E : ℝ) ^ 2)).div ((hlam.const_mul (eventsVar ν pop L π Z)).add_const ((E : ℝ) ^ 2 * selectionVar P ν pop d pdet I)) hden.ne'
    refine this.congr' ?_
    filter_upwards [hN.eventually (eventually_gt_atTop 0), hn.eventually (eventually_gt_atTop 0)] with k h1 h2
    have h1' : (N k : ℝ) ≠ 0 := by exact_mod_cast h1.ne'
    have h2' : (n k : ℝ) ≠ 0 := by exact_mod_cast h2.ne'
    rw [div_div]
    generalize eventsVar ν pop L π Z = A
    generalize selectionVar P ν pop d pdet I = D
    have e : A * (n k / N k) + (E : ℝ) ^ 2 * D = n k * (A / N k + (E : ℝ) ^ 2 * (D / n k)) := by field_simp
    simp only [Pi.div_apply, e]
  have key := likelihood_coverage hE hfl hhv T u hpop hpop0 he hi hevents hsel hVe hVi hN hn c ((E : ℝ) ^ 2) hr
    (fun k ω r => fin ((E : ℝ) ^ 2) * (injEstimate fl.log (fun j => pop (I j ω).1 / d (I j ω).1) (fun j => (I j ω).2) (n k)).2.2 +
      ∑ e, (eventEstimate fl.log (fun j => pop (θ e j ω) / π e (θ e j ω)) (N k)).2 = fin r) (fun k ω hset r => by
    have hev : ∀ e, (eventEstimate fl.log (fun j => pop (θ e j ω) / π e (θ e j ω)) (N k)).2 = fin (relV (θ e) (fun t => pop t / π e t) (N k) ω) := fun e => by
      rw [event_value fl.log (fun j => div_nonneg (hpop0 _) ((he e).π0 _)) (hset.1 e)]; rfl
    have hiv := (inj_value fl.log (v := fun j => pop (I j ω).1 / d (I j ω).1) (det := fun j => (I j ω).2) (fun j => div_nonneg (hpop0 _) (hi.d0 _)) hset.2.1).2.2
    rw [found_relVar] at hiv
    rw [hiv]
    simp only [hev, sum_fin, mul_fin, add_fin, fin.injEq]
    have e : (E : ℝ) ^ 2 * (relV I (injWeight pop d) (n k) ω - 1 / n k) + ∑ e, relV (θ e) (fun t => pop t / π e t) (N k) ω =
        ∑ e, relV (θ e) (fun t => pop t / π e t) (N k) ω + (E : ℝ) ^ 2 * relV I (injWeight pop d) (n k) ω - (E : ℝ) ^ 2 / n k := by ring
    rw [← e, eq_comm (a := r)]
    rfl)
  have h1 : Tendsto prob atTop (𝓝 (stdNormalCdf (c * √(1 - (E : ℝ) ^ 2 / (eventsVar ν pop L π Z * lam + (E : ℝ) ^ 2 * selectionVar P ν pop d pdet I))))) := by
    refine key.congr fun k => ?_
    simp only [prob]
    congr 1
    ext ω
    refine exists_congr fun l => exists_congr fun r => and_congr_right fun _ => and_congr_left fun _ => ?_
    rw [variance_recorded hfl hhv T u (fun e j => pop (θ e j ω) / π e (θ e j ω))]
    simp
  refine ⟨h1, fun h2 => ?_⟩
  have e := stdNormalCdf_strictMono.injective (tendsto_nhds_unique h1 h2)
  have h3 : √(1 - (E : ℝ) ^ 2 / (eventsVar ν pop L π Z * lam + (E : ℝ) ^ 2 * selectionVar P ν pop d pdet I)) = 1 := mul_left_cancel₀ hc (by rw [e, mul_one])
  rw [Real.sqrt_eq_one] at h3
  have := div_pos (pow_pos hE1 2) hden
  linarith

end estimates

/-! ## the hypotheses are met -/

/-- two events and the injections, all independent: samples uniform on `[0, 1]`, the population density `2 t`, half of the injections found -/
example : ∃ (Ω : Type) (_ : MeasurableSpace Ω) (P : Measure Ω) (θ : Fin 2 → ℕ → Ω → ℝ) (I : ℕ → Ω → ℝ × Bool), IsProbabilityMeasure P ∧
    (∀ e, Event P (volume.restrict (Set.Icc (0 : ℝ) 1)) (fun t => |2 * t|) (fun _ => 1) (fun _ => 1) 1 (θ e)) ∧
    Injections P (volume.restrict (Set.Icc (0 : ℝ) 1)) (fun t => |2 * t|) (fun _ => 1) (fun _ => 1 / 2) I ∧
    ProbabilityTheory.iIndepFun (fun e ω j => θ e j ω) P ∧ ProbabilityTheory.IndepFun (fun ω e j => θ e j ω) (fun ω j => I j ω) P ∧
    0 < ProbabilityTheory.variance (fun t => |2 * t| / 1) (posteriorLaw (volume.restrict (Set.Icc (0 : ℝ) 1)) (fun _ => 1) (fun _ => 1) 1) ∧
    0 < ProbabilityTheory.variance (injWeight (fun t => |2 * t|) fun _ => 1) (P.map (I 0)) := by
  set ν : Measure ℝ := volume.restrict (Set.Icc (0 : ℝ) 1) with hν
  have hνp : IsProbabilityMeasure ν := ⟨by rw [hν, Measure.restrict_apply_univ, Real.volume_Icc]; norm_num⟩
  let b : Measure Bool := (ENNReal.ofReal (1 / 2)) • Measure.dirac true + (ENNReal.ofReal (1 / 2)) • Measure.dirac false
  have hb : IsProbabilityMeasure b := ⟨by
    simp only [b, Measure.add_apply, Measure.smul_apply, Measure.dirac_apply_of_mem (Set.mem_univ _), smul_eq_mul, mul_one]
    rw [← ENNReal.ofReal_add (by norm_num) (by norm_num)]; norm_num⟩
  have hbt : b {true} = ENNReal.ofReal (1 / 2) := by simp [b]
  have hpost : posteriorLaw ν (fun _ => 1) (fun _ => 1) 1 = ν := by
    unfold posteriorLaw
    simp
  have hint : ∀ (μ : Measure ℝ) [IsFiniteMeasure μ], μ (Set.Icc 0 1)ᶜ = 0 → Integrable (fun t : ℝ => (|2 * t| / 1) ^ 2) μ := by
    intro μ _ hμ
    refine Integrable.of_bound (by fun_prop) 4 ?_
    filter_upwards [compl_mem_ae_iff.2 hμ] with t ht
    rw [_root_.compl_compl] at ht
    rw [div_one, sq_abs, Real.norm_of_nonneg (sq_nonneg _)]
    nlinarith [ht.1, ht.2]
  have hνc : ν (Set.Icc 0 1)ᶜ = 0 := by
    rw [hν, Measure.restrict_apply measurableSet_Icc.compl]; simp
  have hval : ∫ t, |2 * t| ∂ν = 1 := by
    rw [hν, integral_Icc_eq_integral_Ioc, ← intervalIntegral.integral_of_le zero_le_one]
    rw [intervalIntegral.integral_congr (g := fun t => 2 * t) (fun t ht => by
      rw [Set.uIcc_of_le zero_le_one] at ht
      exact abs_of_nonneg (by linarith [ht.1]))]
    rw [intervalIntegral.integral_const_mul, integral_id]
    norm_num
  have hval2 : ∫ t, (|2 * t| / 1) ^ 2 ∂ν = 4 / 3 := by
    simp only [div_one, sq_abs]
    rw [hν, integral_Icc_eq_integral_Ioc, ← intervalIntegral.integral_of_le zero_le_one]
    simp only [mul_pow]
    rw [intervalIntegral.integral_const_mul, integral_pow]
    norm_num
  have hfound : foundLaw ν (fun _ => 1) (fun _ => 1 / 2) = ENNReal.ofReal (1 / 2) • ν := by
    unfold foundLaw
    rw [show (fun t : ℝ => ENNReal.ofReal ((fun _ => (1 : ℝ)) t * (fun _ => (1 / 2 : ℝ)) t)) = fun _ => ENNReal.ofReal (1 / 2) by funext t; simp]
    exact withDensity_const _
  let Pe : Measure (ℕ → ℝ) := Measure.infinitePi fun _ => ν
  let Pa : Measure (Fin 2 → ℕ → ℝ) := Measure.pi fun _ => Pe
  let Pi : Measure (ℕ → ℝ × Bool) := Measure.infinitePi fun _ => ν.prod b
  have lawa : (Pa.prod Pi).map Prod.fst = Pa := by rw [Measure.map_fst_prod, measure_univ, one_smul]
  have lawi : (Pa.prod Pi).map Prod.snd = Pi := by rw [Measure.map_snd_prod, measure_univ, one_smul]
  have lawe : ∀ e, (Pa.prod Pi).map (fun ω => ω.1 e) = Pe := fun e => by
    have := Measure.map_map (μ := Pa.prod Pi) (measurable_pi_apply e) measurable_fst
    rw [lawa] at this
    exact this.symm.trans ((measurePreserving_eval (fun _ : Fin 2 => Pe) e).map_eq)
  have lawj : ∀ e j, (Pa.prod Pi).map (fun ω => ω.1 e j) = ν := fun e j => by
    have := Measure.map_map (μ := Pa.prod Pi) (measurable_pi_apply j) ((measurable_pi_apply e).comp measurable_fst)
    have l := lawe e
    simp only [Function.comp_def] at this
    rw [l] at this
    exact this.symm.trans (Measure.infinitePi_map_eval (fun _ : ℕ => ν) j)
  have lawij : ∀ j, (Pa.prod Pi).map (fun ω => ω.2 j) = ν.prod b := fun j => by
    have := Measure.map_map (μ := Pa.prod Pi) (measurable_pi_apply j) measurable_snd
    rw [lawi] at this
    exact this.symm.trans (Measure.infinitePi_map_eval (fun _ : ℕ => ν.prod b) j)
  have he : ∀ e : Fin 2, Event (Pa.prod Pi) ν (fun t => |2 * t|) (fun _ => 1) (fun _ => 1) 1 (fun j ω => ω.1 e j) := fun e => by
    refine ⟨⟨fun j => by fun_prop, ?_, fun j => by rw [lawj, lawj]⟩, by rw [lawj, hpost], measurable_const, measurable_const,
      fun _ => zero_le_one, fun _ => zero_le_one, one_pos, fun t h => absurd h one_ne_zero, by rw [hpost]; exact hint ν hνc,
      by simp only [one_mul]; rw [hval]; exact one_pos⟩
    rw [ProbabilityTheory.iIndepFun_iff_map_fun_eq_infinitePi_map fun j => by fun_prop]
    simp only [lawj]
    exact lawe e
  have hi : Injections (Pa.prod Pi) ν (fun t => |2 * t|) (fun _ => 1) (fun _ => 1 / 2) (fun j ω => ω.2 j) := by
    refine ⟨⟨fun j => by fun_prop, ?_, fun j => by rw [lawij, lawij]⟩, ?_, measurable_const, measurable_const,
      fun _ => zero_le_one, fun _ => by norm_num, fun t h => absurd h one_ne_zero, ?_, ?_⟩
    · rw [ProbabilityTheory.iIndepFun_iff_map_fun_eq_infinitePi_map fun j => by fun_prop]
      simp only [lawij]
      exact lawi
    · rw [lawij, hfound]
      refine Measure.ext fun A hA => ?_
      have hs : MeasurableSet (Prod.snd ⁻¹' {true} : Set (ℝ × Bool)) := measurable_snd (measurableSet_singleton true)
      rw [Measure.map_apply measurable_fst hA, Measure.restrict_apply (measurable_fst hA), Measure.smul_apply, smul_eq_mul]
      have : (Prod.fst ⁻¹' A ∩ Prod.snd ⁻¹' {true} : Set (ℝ × Bool)) = A ×ˢ {true} := by ext x; simp [Set.mem_prod]
      rw [this, Measure.prod_prod, hbt, mul_comm]
    · rw [hfound]
      exact (hint ν hνc).smul_measure ENNReal.ofReal_ne_top
    · rw [integral_const_mul, hval]; norm_num
  have hp0 : ∀ t : ℝ, 0 ≤ |2 * t| := fun t => abs_nonneg _
  have mp : Measurable fun t : ℝ => |2 * t| := by fun_prop
  refine ⟨(Fin 2 → ℕ → ℝ) × (ℕ → ℝ × Bool), inferInstance, Pa.prod Pi, fun e j ω => ω.1 e j, fun j ω => ω.2 j, inferInstance, he, hi, ?_, ?_, ?_, ?_⟩
  · rw [ProbabilityTheory.iIndepFun_iff_map_fun_eq_pi_map fun e => by fun_prop]
    simp only [lawe]
    exact lawa
  · exact ProbabilityTheory.indepFun_prod measurable_id measurable_id
  · have w := (he 0).weights mp hp0
    have := w.V_eq
    rw [Weights.V, Weights.B, (he 0).law, hpost, hval2] at this
    simp only [div_one, hval] at this
    rw [hpost]
    simp only [div_one]
    rw [this]; norm_num
  · have w := hi.weights mp hp0
    have := w.V_eq
    have e1 := (hi.found_of (fun y => y ^ 2) (by simp) (by fun_prop) mp).1
    rw [hfound, integral_smul_measure, hval2] at e1
    have e2 := hi.mean mp
    change _ = ∫ t, 1 / 2 * |2 * t| ∂ν at e2
    rw [integral_const_mul, hval] at e2
    rw [Weights.V, Weights.B] at this
    rw [this, e1, e2, ENNReal.toReal_ofReal (by norm_num)]
    norm_num

end GW
end
